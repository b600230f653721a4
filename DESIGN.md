# Formal model of sfepy: design

The Lean 4 project is in `lean/`. Each area has three kinds of files:

* `Verif/<Area>/Model.lean` - executable definitions that mirror the Python/C code
  function by function; each definition cites the file and lines it models and says
  where it simplifies.
* `Verif/<Area>/Lemmas.lean` - helper lemmas (no claims).
* `Verif/<Area>/Props.lean` - the property theorems, a small independent specification
  where one is needed, and a non-vacuity `example` beside every theorem.

## Conventions

* NumPy integer/float vectors are `Nat -> a` functions together with an explicit length, or
  `List a`; fancy assignment `v[idx] = vals` is a left fold of point updates (NumPy: with
  duplicate indices the last value wins); fancy reading `v[idx]` is `idx.map v`.
* Exceptions are values (`Except`/`Option`).
* Floating point: real arithmetic (`Rat`, an arbitrary field, or `Real`) replaces float64/complex128.
  Rounding, NaN and infinities are outside the model unless stated.
* int32/uint32 are unbounded; wrap-around is outside the model unless stated.

## Plan per property (first list)

| id | modelled | proof |
|----|----------|-------|
| C01, C02 | `DofInfo` as state machine | invariant by induction over the op list |
| C03 | `expand_nodes_to_equations` strided writes | index arithmetic (div/mod) |
| C04 | `EquationMap.map_equations` final phase (EBC/EPBC/unused -> eq, eqi, n_eq) | induction over DOF range (filter/rank) |
| C05-C08 | `get_full`, `get_reduced`, `apply_ebc`, `has_ebc` on top of C04 | pointwise reasoning on scatter/gather |
| C09 | COO operator `get_operator` as list of triplets | sums over lists |
| C10 | `group_chains` loops with fuel-free well-founded recursion | loop invariant = equivalence closure |
| C11 | EPBC loop of `map_equations` + `resolve_chains` | invariant; the full statement is false for some condition orders -> counterexample + partial |
| C12, C13 | loops of `assemble.pyx` | induction over element/local index lists |
| C14 | `bsearch` + `assemble_matrix_b` | loop invariant; missing-entry behaviour differs -> counterexample + partial |
| C15 | `create_adof_conn` + C12/C13 + C09 | linearity |
| C16 | `sort_by_dependency` | loop invariant + progress measure |
| C17 | grammar as recursive-descent over tokens emitting the stack; `visit_stack` | induction on expression |
| C18, C19 | `union1d`.. as sorted lists; region entity setters; incidence queries | set membership |
| C20-C22 | both steppers as state machines over an ordered field | invariants |
| C23 | `is_active_bc` | case analysis |
| C24, C25 | `Variable` history and the evaluate cache as state machine | refinement to abstract history |
| C26, C27, C40 | `conv_test`, line search, Newton driver | case analysis, termination measure |
| C28 | controllers over the reals | inequalities, history invariant |
| C29-C32, C39 | index tables and formulas over a field / reals | `field_simp`, `ring`, `nlinarith` |
| C33 | the macro generated C quicksorts of `sort.c` (`Sort/Model.lean`): one generic comparator model with every memory access checked, the stack of 50 intervals explicit, fuel for the loops | rearrangement + partition invariants, interval weights for termination and the stack depth; cycles of the permutation for the in-place row permutation |
| C34-C36 | CSR connectivity algorithms of `mesh.c` (`CMesh/Model.lean`): `uint32` as naturals, zeroed memory as functions; facets of 2-4 vertices | counting/filling invariant (`Filled`), facet history invariant (`Inv`) |
| C37 | `cycle`, `assemble1d`, `argsort_rows`, `map_permutations`, `chunk_arrays`, `invs_fast` of `linalg/utils.py` | list induction, matrix algebra |
| C38 | `compose_sparse`: dictionary of blocks, sizes, offsets, COO concatenation | sums over the triplets of each block |
| C41 | `create_matrix_graph`, `raw_graph`, block CSR offsets, chunked graph building | membership in the COO pattern; counterexamples for empty variables / chunk sizes |
| C42 | `Domain.create_region` + the region dictionary as a heap of region objects | case analysis on the operator result, aliasing counterexample |
| C43, C44 | stepping drivers (`SimpleTimeSteppingSolver`, adaptive) on top of C20-C22 | induction over the step list |
| C45 | Newmark, generalised-alpha, Bathe, velocity Verlet, central difference: one step each | algebra in a vector space over a field (`linear_combination`, `module`) |
| C46 | elastodynamics driver loop with the controllers | induction over the steps, counterexamples |
| C47 | energy identities of the schemes | inner-product algebra |
| C48 | tangent matrices of the schemes = derivative of the residuals | algebra / `HasFDerivAt` |
| C49 | rotation matrices, `transform_data`, cylindrical transform: one item, over a field / the reals | matrix algebra, trigonometric identities |
| C50 | `TransformToPlane`: Schur complement, index sets checked against the tensor components | block elimination |
| C51 | stress measures: matrix products | matrix algebra |
| C52 | `setup_connectivity`/`free_connectivity` on a record of all the connectivities (`CMesh/Topo.lean`); the C recursion with an explicit depth bound (4 suffices) | invariant `Good` (each available connectivity is the target one) over all histories |
| C53 | the incidence queries of `mesh.c`, `cmesh.pyx` and `region.py` as functions on connectivities (`CMesh/Query.lean`); `bincount`, `cumsum`, `searchsorted` modelled on lists | slices of concatenations, `Forall₂` between facets and their pairs; the hypotheses are shown for every conforming mesh through C34-C36 |
| C54 | `_det3x3`, `_tri_area`, `_aux_hex`, centroids and normals over the reals (`CMesh/Geom.lean`) | integrals of the Jacobian of the reference mappings (derivatives and interval integrals of Mathlib), polynomial identities; signed products with inner edges for the orientation; rounding is not modelled |
| C55 | the node tables (`_define_nodes`), the facet DOF permutations and `_setup_global_basis` of nodal fields for any order (`Fem/Facets.lean`, `Fem/Nodes.lean`); the places of nodes as weights of mesh vertices (`Fem/Spec.lean`); the mesh connectivity enters by the facts C36 proves of it (`MeshOk`, `C55_facets_of_mesh`) | closed forms of the node tables and of the connectivity, the permutation tables compared with the order of facet vertices, generic conformity theorem |
| C56 | the evaluation of the Lagrange bases in `lagrange.c` (barycentric coordinates with snapping, values, gradients, bubble) and the second derivatives of `poly_spaces.py`, for one point, over a field (`Fem/Lagrange.lean`); the inverse reference matrix as an inverse (`SpecLagrange`) | products of falling factorials as generalized binomials (`ch`), Vandermonde for the unity, node tables as all the multi-indices (C55); exactness on polynomials by uniqueness through the nodal values; `HasDerivAt` for gradients and hessians |
| C57 | the value of a field in a point of a cell, from the DOFs of `_setup_global_basis` (C55) and the values of `lagrange.c` (C56) (`Fem/SpecField.lean`); a common point of two cells has the same weights of the mesh vertices | the value rewritten as a sum over the places of nodes depending only on the weights; for hexahedra a normal form on the face, edge or vertex the point lies on |
| C58 | `insert_sub_reqs`, the sorting of dependencies, the serial loop, the multiprocessing main loop with worker processes as a transition system, the chunks of microstructures (`Homog/Model.lean`); the mini applications are arbitrary functions of the direct dependencies and of the microstructure | induction over the recursion with reachability (`Homog/Spec.lean`); the values as the unique solution of the dependency equations; an invariant (numdeps = missing requirements, tasks ready) and a decreasing measure for any interleaving; slices of the serial values as the solution in the chunks |
| C59 | `resolve_deps.py` with dictionaries as lists of pairs and `itertools.combinations` in its order, the loop of `Problem.block_solve` with an arbitrary block solver (`Base/Resolve.lean`) | soundness by induction over the recursion; a closed set of names on cycles is solvable, minimality of the size gives the strongly connected components (`Mutual`); the residuals of the solved blocks are not changed by the later ones |
| C60 | `eval_mapping_data_in_qp`, `get_physical_qps`, `integrate`, `get_shape`, face determinants and normals, `transform_coors_to_lower_dim` over a field or the reals (`Term/Refmap.lean`); gradients as Fréchet derivatives, integrals as Lebesgue integrals (`Term/SpecRefmap.lean`) | adjugate inverse, chain rule, inverse function theorem for the existence of the physical field, change of variables for the integrals; polynomial identities for the normals and the rotations |
| C61 | `FMField` operations, basis function operations, the kernels of scalar terms, products and loads (`Term/Fm.lean`, `Term/KerScalar.lean`) over any field; weak forms, values and gradients of a discrete field in `Term/SpecWeak.lean` | the kernels as sums; exchange of sums; forms determine matrices by unit vectors; symmetry, positivity, kernels from the forms |
| C62 | the elasticity kernels `form_sdcc_*`, `dw_lin_elastic`, `d_lin_elastic`, `dw_lin_prestress`, `dw_lin_strain_fib`, `de_cauchy_*`, `dw_nonsym_elastic`, `d_sd_lin_elastic`, `mat_le_stress`, wave strain terms (`Term/KerElastic.lean`); tensors with four indices and the symmetric storage in `Term/SpecElastic.lean` | the kernels contract gradients with tensors by blocks of components; a symmetric tensor contracted with a gradient is contracted with the strain; rigid modes, symmetry, positivity from the form |
| C63 | the kernels of terms_navier_stokes.c (div-grad, convection, Stokes, stabilization), terms_biot.c, terms_piezo.c, terms_surface.c and the Python reshaping (`Term/KerFlow.lean`); convective derivative in `Term/SpecFlow.lean` | block structure of the operators, then the weak forms as in C61, C62; the convective residual is expanded exactly to the second order in a step, so the matrix is its derivative (`HasDerivAt` over the reals) |
| C64 | the kernels of terms_hyperelastic.c (finite strains, stresses, tangent moduli, `dw_he_rtm`), the tensor operations of geommech.c, the Yeoh and Saint Venant-Kirchhoff laws and the caches of the Python base class (`Term/KerHyper.lean`); deformation gradient, invariants, stored energies, first variation and Jacobian with Mathlib matrices and derivatives in `Term/SpecHyper.lean` | each law is shown to store a matrix-valued stress and tangent (`HyperLaw`); energies and stresses are differentiated along lines with the derivatives of `det`, the inverse and powers (`HyperMath.lean`); the weak forms of `dw_he_rtm` then give first variation and Jacobian; the updated formulation by push-forward (`HyperUL.lean`); histories by induction |

## Trusted base

Lean 4.33.0 kernel; Mathlib definitions used in statements; axioms at most `propext`,
`Classical.choice`, `Quot.sound`. The tie between model and code is by reading: every
definition cites its source lines. `tools/cites.py` lists every citation with the cited line.

The following library behaviour is modelled by hand and trusted:

* NumPy: fancy indexing/assignment (last write wins), `unique`, `union1d`, `setdiff1d`,
  `intersect1d`, `cumsum`, `where`, `argsort` (stable variants only), broadcasting of the shapes used.
* SciPy sparse: `coo_matrix` sums duplicates on conversion, `csr` rows with sorted indices,
  `block_array` shapes.
* pyparsing: ordered choice with backtracking, greedy repetition, parse actions run in the order
  of successful sub-parses.
* Python: recursion depth limit as fuel (where a theorem is about termination it says so);
  numpy arrays as heap cells where aliasing matters (C22, C24, C42).
* float64: exact ordered field arithmetic; the only non-finite values are those of the `Tsc`
  model (C28), which has explicit `inf`/`nan` constructors.
* Nonlinear and linear solvers are oracles: a theorem assumes that the particular residual it
  needs solved is solved (`Solves nls Q R`), never that all are.
* `prestep_fun`/`poststep_fun` return the vector they are given.

## Modelled code (by area)

| area | files in /repo |
|------|----------------|
| Dof | `discrete/common/dof_info.py`, parts of `discrete/variables.py` |
| Asm | `discrete/common/extmods/assemble.pyx`, `discrete/equations.py` (graph), `discrete/variables.py` (adof conns) |
| Region | `discrete/common/region.py`, `discrete/parse_regions.py`, `discrete/common/domain.py`, `base/base.py` (sorting) |
| Time | `solvers/ts.py`, `solvers/ts_solvers.py` (quasi-static/adaptive drivers) |
| History | `discrete/variables.py` (data history, evaluate cache) |
| Solver | `solvers/nls.py`, `solvers/ts_controllers.py` |
| Dyn | `solvers/ts_dg_solvers.py` is not modelled; `solvers/ts_solvers.py` elastodynamics part |
| Mech | `mechanics/tensors.py`, `mechanics/matcoefs.py`, `mechanics/elastic_constants.py`, `linalg/geometry.py:make_axis_rotation_matrix`, `linalg/utils.py:invs_fast` |
| Linalg | `linalg/utils.py`, `linalg/sparse.py:compose_sparse` |
| Sort | `discrete/common/extmods/sort.c` |
| CMesh | `discrete/common/extmods/mesh.c` (transpose, intersect, build, iterators), `cmesh.pyx` queries |
| C65 | `Material` with its dictionary of data, `time_update` in all modes, user data, special and special constant data, the functions with constant values and values by regions, shapes of data (`Mat/Model.lean`); the function of the material is an arbitrary function of the world, extra arguments and term; an exception leaves the changes done before it | what the loop over terms leaves in the dictionary, by induction; invariant of histories for constant materials; last region by induction over the regions |
| C66 | `gen_block_mesh` in 1-3 D (grid coordinates, `get_tensor_product_conn`), `elems_q2t`, `triangulate`; specification: corner tables of the reference cells, simplices as sets of convex combinations, grid nodes dividing the segment. Proof: index arithmetic of mixed-radix numbers; covering by ordering the local coordinates; conformity by the diagonal of each face. Counterexample: two hexahedra with non-conforming division. |
| C67 | Uniform refinement | `Mesh/Refine.lean` follows `refine.py`: tables of children, `vstack(...).T.reshape`, node offsets, centroids, repeated groups; incidence relations as a specification (`Incidence`), proved to be met by the result of `mesh_build` (C36). Positions of new nodes, barycentric/bilinear coordinates of children, checks of the tables against local facets, induction on levels. |
| C68 | Merging, double nodes, periodic matching | `Mesh/Merge.lean`: `find_map`, `merge_mesh`, `fix_double_nodes`, `match_plane_by_dir`, `match_grid_line`, the cache; the KD tree query and `argsort` are any functions that meet a specification (`IsPairs`, `IsArgsort`, shown to be satisfiable). Points in `K^d` over an ordered field, distances compared by squares. |
| C69 | Tiled meshes | `Mesh/Tile.lean`: `tiled_mesh1d` (the loop, the remapping by running sums and the overwritten side), `gen_tiled_mesh` (axes, groups, node map); the sides and the matching are arguments (for the matching see C68), `Tiled` is the specification; scaling is left out. |
| C70 | Mesh tools | `Mesh/Tools.lean`: selections, `merge_nodes` (components are any labels that meet `IsComponents`), `mirror`, `extrude` (numbering for any layers; coordinates for straight lines as used by `expand2d`), `stack_descs` for one kind of cells. Real numbers, `norm` is the real square root. Not modelled: twist, scale, general lines (rotations), `revolve`. |
| C71 | LCBC operators | `Lcbc/Rigid.lean`, `Local.lean`, `Average.lean`, `Nodal.lean`: matrices of the operators as rows or COO triples over a field; normals, DOF maps and SymPy solutions are arbitrary inputs. Proved: values of each operator, and the range as an iff with a geometric specification (`KeepsDistances`, `n·u = 0`, `Holds`); the rigid range by a linear-algebra argument in any dimension (skew-symmetric linear part). |
| C72 | Global LCBC operator | `Lcbc/Global.lean`, `Reduced.lean`: DOF counts, offsets, column search, triples, right-hand side, reduced residual and matrix. The specification `Holds` (`SpecGlobal.lean`) knows no columns. Proved: range = constraint set (iff), columns are a partition, injectivity, weak form of the reduced residual, tangent. |
| C73 | Distribution among tasks | `Par/Dict.lean`, `Partition.lean`, `Maps.lean`: dictionaries with default values, naive partitioning, interface facets, both loops of create_task_dof_maps() with all assertions. Meshes are arbitrary incidence lists with the hypotheses `Conforming`, `NodesCovered`, `FacetConnected`, `TasksTouch`, all met by a 2 x 2 grid (`Examples.lean`). Proved by an invariant of the first loop and a tiling of the second one. |
| C74 | Distributed assembling | `Par/Assemble.lean`: local ordering, insertion and addition of local vectors and CSR matrices into the PETSc objects, preallocation, scatter. The specification is the serial assembly (sum over cells of element contributions). Local fields, junk memory and sparsity patterns are universally quantified. |
| C75 | Composite numbering | `Par/Composite.lean`, `Verify.lean`: the interleaving loop, sizes and ranges; the verification with its assertions. The specification `blockStart` counts the DOFs that come before. |
| C76 | Bernstein basis, Bezier extraction | `Iga/Bernstein.lean`: the in-place sweeps, specification `bernsteinPolynomial` of Mathlib. `Iga/Extract.lean`: the main loop, the scan of multiplicities, alphas, column sweeps, overlapping coefficients; `ExtractSpec.lean`: Cox-de Boor recursion as the specification; the proof goes by blossoms (`Polar.lean`): each sweep is a knot insertion, the invariant says what each column of the current and of the next operator is. Floats are field elements; the knot comparison is exact. |
| C77 | NURBS patches | `Iga/Conn.lean`, `Boxes.lean`: the 1D/2D/3D branches as one recursion over directions (box regions, corners and facets literally as in the code). `nm.linalg.inv` enters as a hypothesis (`hinv`). Specifications: global B-splines (`ExtractSpec`), grid vertices (`vertexNo`), Valid multi-indices. `GoodDir` (inner multiplicities at most the degree) is needed for the Bezier control points only. |
| C78 | Token-level model of the pyparsing grammar (recursive number expressions with fuel, sign/multiplier alternative, left/right-hand side context) and of the Term/Terms arithmetic on a heap of Python lists. Proved by induction on the text parts: the written equation is read as lhs - rhs; conversely only such texts are accepted; expressions mean their linear combinations when no list is used twice; which operands change. |
| C79 | Dictionaries keyed by names (last wins), history steps, d/dt, weak evaluation into vectors/matrices with extras, selections, by_blocks, by_terms, eval mode, splitting of complex arguments. Proved: residual and tangent as sums; the tangent is the derivative (HasDerivAt) of the residual; parts; complex-linear extension. |
| C80 | minmod entry by entry over an ordered field, the state machine of both limiters' loops (nu, tilu, idx), unravel/ravel, slices. Proved: closed form of the loops by induction on the moments, then a specification by the input moments (IsMinmod, limited1, limited2). |
| C81 | The callbacks (prestep, poststep with history advance and a log), the three solve_step() with the shifted positional arguments, the loop of steps. Proved: result of a whole run as iterates of a specification step, convexity, Taylor coefficients, the log. |
| C82 | The generators as lists. Proved: Nodup + membership + length, prefix, order. |
| C83 | Explicit Legendre sums, polynomials of scipy as arbitrary real polynomials `p` (Jacobi ones for the gmsh table), tensor and collapsed triangle formulas. Proved: Rodrigues, HasDerivAt. |
| C84 | Cells, facets, quadrature points with reversed order at the neighbour; residual and matrix of each term. Proved: pairing of facets (sum_involution), tangent, energy. |
| C85 | The loops over cells and facets on a connectivity list, periodic row assignments. Proved: characterization by shared facets, mutuality. |
| C86 | The builder modelled function by function (state of subscripts, operand names, components, output letters, auxiliary letters), einsum as the library function over exact fields; the specification is a separate definition (`form`, `value`) in terms of field values and gradients. Proved by a representation invariant of the builder (list of items per argument), letter disjointness, and regrouping of the sums over letters per argument. |
| C87 | From C86 (both expressions) and the derivative of a product of linear factors over ℝ (HasDerivAt). |
| C88 | apply_layout and the slices modelled on operands; proved: transposed operands have the same values, einsum depends only on them; loops by splitting off the letter. |
| C89 | Each term of terms_multilinear.py as its argument list (after parsing); C86 specialized, sums over letters evaluated; the tensor form of the elastic term by expanding the symmetric storage (2D, 3D). |
| C90 | All tables of quadratures.py as exact decimals and square roots (generated by tools/gen_quad.py); moments checked in Q(sqrt) by the kernel with a proved checker; error of a polynomial from the errors of its moments; integrals are Mathlib's iterated interval integrals. |
| C91 | get_simplex_cubature with its generators; enumeration shown to be the set of multi-indices; exactness by the generating function identity of the Grundmann-Moeller formulas (Euler.lean, Gm.lean), all dimensions and orders. |
| C92 | get_actual_order, QuadraturePoints.__init__, from_table, Integral.get_qp, Integrals.get; induction over the request history. |
| C93 | barycentric_coors, points_in_simplex, inverse_element_mapping (simplices), mini_newton, get_simplex_volumes, get_face_areas over the reals in any dimension; determinants by Mathlib (Cramer's rule), the exact inverse for `nla.solve`; induction over Newton steps. |
| C94 | get_simplex_circumcentres; equidistance by polynomial identities, nonzero normalization from the Gram determinant of the edges. |
| C95 | flag_points_in_polygon2d over the reals; parity of crossings by induction over the list of vertices, convex hull by intermediate points of crossed sides, convex polygons by uniqueness and existence of the upward side. |
| C96 | get_perpendiculars, rotation_matrix2d, tube and ball selections, ContactPlane, ContactSphere; rotations from C49, Frechet derivatives by Mathlib; numpy broadcasting of the normals is modelled by list lengths. |
| C97 | qeigen.py as block matrices over any field (Mathlib Matrix.fromBlocks); the eigensolver is an arbitrary function returning eigenpairs, CHOLMOD is an arbitrary factorization of the permuted matrix; determinants by Schur complements. |
| C98 | units.py with names as lists of characters, floats as rationals, sympy expressions as a small syntax; the longest prefix by the order of sorted strings, the search by counting; multipliers against a separate table of physical dimensions. |
| C99, C100 | The tables of _serendipity.py verbatim as polynomial expressions over ℚ; a normalizer proved sound, so that kernel evaluation of the normal forms gives identities valid at every point of every field of characteristic zero (the elements themselves are finite in number); continuity by traces on edges and faces and their symmetries, with the DOF numbering of C55-C57 over arbitrary conforming meshes. |
| C101, C102, C103 | The tables of lobatto1d.c generated into Lean as polynomial expressions with the square root as a variable; identities by the proved normalizer, integrals of the normal forms exact. Nodes, sfnodes, node orders, face axes, the econn and ori arrays of the hierarchic field modelled function by function; closed forms of the arrays proved, the orientation tables checked over all comparison patterns of four vertices by the kernel, continuity for all conforming meshes through the generic theorem of Fem/PropsContGeneric. |
| C104–C106 | the Bernstein spaces for one point (`Poly/Bern.lean`): the barycentric coordinates, `nm.power` with the negative exponent of zero as not-a-number, values and gradients; node tables and DOF numbering from C55, C57; 1D functions from C76 | multinomial theorem over the node table for the unity, span of products of barycentric coordinates for polynomials, `HasDerivAt` of products; continuity by the generic theorems `continuous_simplex`, `continuous_tensor` for 1D functions with the symmetry `Sym1` |
| C107–C109 | `get_lgl_nodes` with any number of passes, `eval_lagrange1d_basis`, the node coordinates and weights (`Poly/Sem.lean`), over a field / the reals | Mathlib Lagrange interpolation; Legendre identities, orthogonality and the weights of the Lobatto rule proved from the recurrence (`Poly/LegQuad.lean`, `Poly/SemQuad.lean`); tensor products by `tensor_prod_sum`; iterated integrals of `Quad/Spec.lean` |
| C110–C113 | one point, arrays as functions, over any linearly ordered field, `sqrt` a parameter (`Loc/Model.lean`): the inverse matrices of `geommech.c`, `get_xi_simplex()`, the Newton loop, the candidate loop, the walk; the basis from C56 | induction over the candidates and the passes; determinants against Mathlib's; convexity of the inf-norm ball; reproduction of polynomials of C56; one Newton step on affine cells |
| C114 | Th/Model: get_eth_data cache, advance_eth_data, the loop of THTerm.eval_real over the modelled variable history | closed form by induction over the steps; the full kernel from C24 (history contents); the two compared by splitting the sums |
| C115, C116 | Ls/Model: digest bytes, _is_new_matrix, presolve/clear/call of the direct solvers as transitions, multigrid set-up, coo_is_symmetric with stable lexsort | invariant (the digest is that of the factorized matrix) over all histories; unique decodability of the concatenated CSR arrays from the monotone row pointers; sorted lists with equal keys are equal |
| C117, C118, C119 | Opt/Model: conv_test and the loops of fmin_sd, the complementarity residual and multipliers, the loops of the semi-smooth Newton solver with fuel | invariants over the loops; fuel bounds from the reductions by Archimedes; derivatives by Mathlib calculus |
| C120 | Lin/Model: create_output: flags as an arbitrary oracle, searchsorted, expand_flag0, np.where, the level loop, connectivity offsets | induction over the levels with the invariant that expand_flag0 is the flag of the parent sub-element |
| C121, C122, C123, C124 | Cond/Model: strings as character lists, short and long keys, dictionaries as association lists, the dispatch, iter_single, group_by_variables, _canonize, sort | injectivity of the keys from digits without underscores; fold invariants on dictionaries; split lemmas; stable merge sort |
| Fem | `discrete/fem/facets.py`, `discrete/fem/poly_spaces.py` (Lagrange nodes), `discrete/fem/fields_nodal.py`, `fields_base.py` (DOF numbering), `geometry_element.py` tables, `extmods/lagrange.c` (all but the mixed context code), `_eval_hessian` of the Lagrange spaces |
| Homog | `homogenization/engine.py` (sorting, serial, multiprocessing and chunked computation; not the mini problems) |
| Term | `terms/extmods/terms_hyperelastic.c` (lines 1-1509), `geommech.c` (invariants, inverse, products of symmetric tensors), `terms/terms_hyperelastic_base.py`, `terms_hyperelastic_tl.py`, `terms_hyperelastic_ul.py` (the stress and tangent functions, caches); `discrete/fem/mappings.py`, `discrete/common/mappings.py` (reference mappings); `discrete/common/extmods/fmfield.c`, `geommech.c` (used operations), `terms/extmods/terms_basic.c`, `terms_diffusion.c`, `terms_dot.c`, `terms_volume.c`, `terms_electric.c`, `terms_op.c` (part), `form_sdcc.c`, `terms_elastic.c`, `terms_elastic.py` (prestress, fibre, wave terms, reshaping), `terms_navier_stokes.c` (except `dq_grad` variants), `terms_biot.c`, `terms_piezo.c`, `terms_surface.c` (`dw_surface_ltr`), `terms_dot.py` (`d_dot`) |
| Base | `base/resolve_deps.py`, `discrete/problem.py:block_solve` (order) |
| Mat | `discrete/materials.py` (except `reduce_on_datas`, `from_conf`), `discrete/functions.py` (constant functions), `discrete/common/mappings.py:PhysicalQPs.get_shape` |
| Mesh | `mesh/mesh_generators.py:get_tensor_product_conn, gen_block_mesh` (without the progress bar and `coors` of float rounding), `mesh/mesh_tools.py:elems_q2t, triangulate` |
| Mesh (refinement) | `fem/refine.py:9-213`, `mesh.c:887-911` (centroids) | `refine_reference`, hanging nodes (`refine_hanging.py`); vertex groups (not kept by the code) |
| Mesh (merging, matching) | `fem/mesh.py:12-118, 323-343`, `fem/periodic.py` | normalization of the direction (a unit vector is given), printing; floating point |
`sfepy/mesh/mesh_generators.py` (tiling)
`sfepy/mesh/mesh_tools.py` (selections, merging, mirroring, extruding)
| Lcbc | `lcbc_operators.py` (all operators but the solution of constraints by SymPy and the computation of normals), `evaluate.py` 91-94, 128-131, `variables.py` 624-629 | shared DOFs, `new_only=True`, tocsr() conversions, output of vectors to files |
| Par | `parallel.py` 35-112, 118-296, 298-361, 369-454 (data sent to each task), 450-597, 599-618, 657-666, 688-705, 755-837 | metis, MPI transport (each task receives what was sent), PETSc itself (setValues as insertion or addition in any order of tasks), composite assembling of coupled blocks |
| Iga | `discrete/iga/iga.py` (all but eval_mapping_data_in_qp, eval_variable_in_qp, get_surface_degrees), `extmods/nurbs.c` (Bernstein basis, raveling, tensor product evaluation) | iga/domain.py, fields.py, domain_generators.py, io.py, plot_nurbs.py |
| Eqn | discrete/parse_equations.py (grammar at the level of tokens; a term description and a number are one token, whitespace and eval() are parameters), discrete/equations.py (evaluate, eval_residuals, eval_tangent_matrices, parse_definition), terms/terms.py (Terms/Term arithmetic, setup_formal_args, get_vector, signs and time factors of evaluate/assemble_to, split_complex_args, eval_complex); the term kernels and cell assembling are parameters (see C12-C15, C60-C64) |
| Dg | discrete/dg (limiters, poly_spaces, neighbours of fields), solvers/ts_dg_solvers.py, terms/terms_dg.py; exact arithmetic, exact linear solves |
| Ml | sfepy/terms/terms_multilinear.py: ExpressionBuilder (all add_*, build, apply_layout, transform), get_einsum_ops, get_slice_ops, find_free_indices, n_add, eval backends numpy, opt_einsum, *_loop, *_qloop, get_function of 20 term classes. Not modelled: the pyparsing grammar, dask/jax backends, contraction paths, caches, eval shapes, force computation of de_surface_ltr, floating point. |
| Quad | sfepy/discrete/quadratures.py, simplex_cubature.py, integrals.py (get, get_qp) | floating point rounding (the decimals of the source are taken exactly), `Integral.integrate`, `order='auto'`, plotting |
| Geo | sfepy/linalg/geometry.py (all but make_axis_rotation_matrix, which is in Mech), sfepy/mechanics/contact_bodies.py, mini_newton of sfepy/linalg/utils.py |
| Solver.Qevp, Mech.Units | sfepy/solvers/qeigen.py, sfepy/mechanics/units.py | floating point rounding, formatting of the printed units, sympy itself, division by zero multipliers (an error in the code, zero in the model) |
| Poly | sfepy/discrete/fem/_serendipity.py; poly_spaces.py SerendipityTensorProductPolySpace | sympy lambdify is exact evaluation |
| Poly (2) | poly_spaces.py BernsteinSimplexPolySpace, BernsteinTensorProductPolySpace, SEMTensorProductPolySpace, get_lgl_nodes, eval_lagrange1d_basis | exact arithmetic; the convergence of the node iteration is not modelled: the number of passes is arbitrary, the exactness of the quadrature is stated for its fixed points, the distinctness of the nodes is a hypothesis (shown for the order 2) |
| Loc | sfepy/discrete/common/extmods/refcoors.c (general; convex for planar facets), fem/extmods/lagrange.c get_xi_dist/get_xi_simplex/get_xi_tensor, common/extmods/geommech.c geme_invert3x3/4x4, common/global_interp.py, crefcoors.pyx evaluate_in_rc | exact arithmetic; k-d trees by what they return; bilinear faces of hexahedra in the walk, `diff` evaluation, non-affine Newton convergence not modelled |
| Th | terms_th.py: THTerm.eval_real, ETHTerm; advance of evaluate caches in variables.py | one quadrature point, scalar strain (the term function is linear and acts pointwise) |
| Ls | solvers/ls.py: matrix digests, presolving, coo_is_symmetric | the solution of a system is an uninterpreted function of the matrix; SHA1 is a function injective on the matrices of the history; after an exception the state before presolve() |
| Opt | solvers/optimize.py: FMinSteepestDescent (ls, method backtracking); solvers/semismooth_newton.py | exact arithmetic; functions, matrices and linear solvers are arbitrary; logging and timing omitted |
| Lin | `discrete/fem/linearizer.py`: `create_output` (which sub-elements are output, connectivity) | coordinates, values, the numerical criterion |
| Cond | `base/conf.py`: `tuple_to_conf`, `transform_conditions`, `transform_epbcs`; `discrete/conditions.py`: key dispatch, `iter_single`, `group_by_variables`, `_canonize`, `sort` | regions, values and times are opaque; copying of condition objects |
| C125-C127 | Local refinement with hanging nodes: numbering (`interleave`, `subCells`), substitutions (`findSub`, the three tables), 2D DOF substitution and basis transformation (`Verif/Hang`). | Numbering by index arithmetic; tables checked in full against the refinement tables of `Verif/Mesh`; invariant of the loop over substitutions; interpolation of polynomials of degree `o` in the nodes of a half interval. |
| C128-C130 | `mesh/bspline.py`: basis functions, knot vectors, knot insertion, approximation, surfaces (`Verif/Spl`). | Induction on the degree; polar forms (`Verif/Iga/Polar`): a symmetric multiaffine function is determined by its values in the windows of knots, so the inserted control points are the right ones; normal equations. |
| C131–C132 | Prb/* | `set_n_point`, `refine_points`, `refine_pars` (with `nm.insert` as written), the loop of `probe()` with fuel, point generators of line, ray and circle probes over reals; the element diameter is an arbitrary function of the point | refinement = midpoint insertion (block decomposition of `nm.insert`); termination by a gap invariant (all gaps ≥ m, so the number of points is bounded and each pass adds one); geometry by algebra, the rotation through C49 |
| C133–C134 | Box/* | `SplineBox`: control grid, Greville control points, box matrix, evaluation, moves and derivatives for any dimension, over an ordered field; the floating-point `hi - eps` is a parameter | mixed-radix index lemmas, product of sums, linear precision through the polar form of Iga/Polar |
| C135–C136 | Prj/* | `project_to_facets` with its COO assembling as written, the L2/H1 projection equations with one Newton iteration, the layout of `project_by_component`; exact arithmetic, direct solver = inverse matrix | assembled matrix and vector as inner products of quadrature data; regularity from positivity; Pythagoras |
| C137–C139 | Cfg/* | `Container` operations on its two lists, `Struct` sums as trees of any depth, processing of the declared options, selection of the first available solver | simulation of a plain list of objects for all histories; induction on the depth; induction on the lists of options and solvers |
| C140–C141 | Coef/* | the loops of `CorrNN` and `CoefMN.get_coef` over shared variables, `set_variables_default`, the index sets and polynomials; expressions are arbitrary functions of the variables, the solver is any function that solves the corrector problem | invariant of the shared variables along both loops; variational characterization of the corrector, complementary energy in quadrature points for the Reuss bound |
| C142–C143 | Conv/* | kernels as sequences of arrays over the reals; decay, differences, sums, exponentials; the search of `argmax` and the index -1 as written | telescoping sums; derivatives of the exponential; specification of the linear interpolation and its uniqueness; induction over the steps |
| C144 | Sens/* | the sensitivity materials in a quadrature point, the slice-built gradient operator, the symmetric-to-full index tables | the transported integrand is differentiated with the derivative of the determinant and of the inverse of I + tG; the terms are shown to be equal to it by finite sum manipulation |
| C145 | Ct/* | the force law, its parameters, the plane and the sphere incl. NumPy broadcasting of the normals | case analysis on the branches, one-sided derivatives glued in the branch points; Cauchy-Schwarz for the distance |
| C146 | Ct/PropsTan | element vectors and matrices of both terms with the reshaped basis, mask and eps | chain rule along a line of states; finite sums over the flattened indices |
| C147 | Srf/* | the non-penetration, penalty, jump and normal flux functions in a facet with the expanded basis | exchange of finite sums; the flattened columns are split by Ct.sum_flat |
| C148 | Srf/* | d_fun of the traction and of its sensitivity for all shapes of the material | case analysis of the shapes, the index tables; counterexamples by evaluation |
| C149 | Mem/* | transformation matrix, local coordinates, C33, invariants, Green strain, stress and moduli as written | cross product algebra; HasDerivAt along arbitrary paths, the identity C33 det = 1 |
| C150 | Mem/* | the element vector and matrix with the strain operator, the geometric matrix and both transformations | chain rule through C149, pairing with arbitrary test displacements |
- `Hang/*`: `refine_hanging.py` (numbering, ordering of the pair of cells, substitutions; not the search of the 3D neighbours), `fields_nodal.py` `_substitute_dofs` and `_eval_basis_transform` for `2_4` (not for `3_8`), `restore_substituted`. Nodes are grid positions; the numbering of nodes on edges is C55.
- `Spl/*`: `BSpline` and `BSplineSurf.eval`; not the parameter vector of `approximate` (powers of distances), plotting, file output, `BSplineSurf.approximate`. `eps` is a parameter; knots are assumed equal or farther than `eps` from each other.
**Prb** — `sfepy/discrete/probes.py`: point generation and adaptive refinement. Not modelled: evaluation of variables, caches, reports, PointsProbe and IntegralProbe.
**Box** — `sfepy/mesh/splinebox.py`: `SplineBox` without a field. Not modelled: fields fitted by least squares, SplineRegion2D, output files; `nm.unique` is taken as giving back the coordinates.
**Prj** — `sfepy/discrete/projections.py`: all functions except `make_l2_projection()` (evaluation of the source field, see C110–C113). Bases and weights are data; terms are taken in their documented form (C61).
**Cfg** — `Container`, `OneTypeList`, `Struct.__add__/__iadd__/get` of base/base.py, `process_conf`, `use_first_available` of solvers/solvers.py, solvers/auto_fallback.py; class attributes seen by hasattr() and the constructors of the solvers (their outcome is a parameter) are not.
**Coef** — `sfepy/homogenization/coefs_base.py`: `CorrNN`, `CoefMN` and the classes that differ only in index sets, with the set-variables lists; index sets and polynomials of `homogenization/utils.py`. Not modelled: time-dependent correctors, `CorrEval`/`CoefEval` expressions, saving. That affine displacements have their strain in quadrature points is a hypothesis of C141 (see C56, C61).
**Conv** — `sfepy/homogenization/convolutions.py`, `interp_conv_mat`, `integrate_in_time` of `homogenization/utils.py`. Not modelled: the least squares fit (`scipy.optimize.leastsq`), rounding.
**Sens** — `terms_sensitivity.py` in a quadrature point over the reals; gradients of the states are transported by the inverse of `I + t G`, volume by its determinant. The evaluation of the multilinear expressions is the sum they denote (its correctness is C86-C89). Not modelled: the region/`par_mv` checks, the modes other than the plain traction tensor.
**Ct** — contact plane and sphere terms over the reals. Not modelled: the construction of the rotation matrix in `ContactPlane` (its assertion is a hypothesis of `C145_plane_projection`; the rotation itself is in Mech), the assertion on non-negative parameters, `k = 0`, `0 < f0 < 1e-14`. The mask of the plane term uses the undeformed quadrature points, hence it is a constant for the tangent.
**Srf** — Python functions of the surface terms in one facet over the reals. Not modelled: tiling over facets, the reading of the mapping, the `grad` and `div` of the mesh velocity (inputs). The C function of the weak traction is in Term.
**Mem** — membranes over the reals, one face. Not modelled: `describe_geometry` beyond the matrix and the local coordinates (its FE mapping is Fem), integration of the evaluation modes and `transform_data`; faces of four nodes are assumed planar by the code.

Not modelled: the remaining term evaluation kernels, I/O, plotting, linear solver back-ends, eigenvalue solvers,
parallel (MPI) runtime, command line applications, homogenisation apps unless listed above.

## Behaviour found that contradicts what a user would expect

Each is a proved counterexample theorem in the module of the claim.

* C11 dropped/dangling periodic pairs for some orders of EPBC conditions.
* C14 `bsearch` inclusive upper bound: a missing matrix entry is written one past the row.
* C41 empty variable -> block clash; `chunk_size=1` never terminates; chunks exceed `chunk_size`.
* C17 a relation swallows the closing parenthesis.
* C19 facet/edge region from cells -> RecursionError; `vertices of surface` with kind vertex/cell
  raises; facets of a cell-kind vertex region are not monotone.
* C42 bare `r.A` aliases, renames and re-kinds A.
* C20 double `set_substep`/advance inside a substep. C21 `update_time` at step 0 overwrites t0.
* C22 `n_step` not restored; `get_state` aliases the times list.
* C43 `n_step=1` solves step 0 twice; a restart at the last step re-solves it.
* C44 after give-up an "increase" decreases dt below the limit.
* C24 `set_data(step=-j)` uses the wrong index for history >= 2; history read through the new slice;
  `save_restart` fails in the first step for history >= 2; `load_restart` loses history.
* C25 gap in cached steps -> stale value; step=-1 cached at step 0 not invalidated; derivative cache
  not invalidated; dt/bf not in the cache key.
* C27 give_up_warp with failed first trial -> UnboundLocalError; ls_red=1 diverges.
* C40 give_up_warp: status 0 with a stale error.
* C28 nan velocity error is accepted; scaled norm <= 1/eps_r so eps_r >= 1 never rejects; PID can
  reject and increase dt.
* C45 Bathe evaluates loads at t_{n+1} and t_{n+1}+dt/2 instead of t_n+dt/2 and t_{n+1}; velocity
  Verlet differs from central difference with damping; gen-alpha materials are those of the last
  prestep time.
* C46 returned vec is the state before the last step; `n_step=1` never stops; repeated time in
  TimesSequenceTSC -> step of size 1; is_linear + cleared constant matrices -> TypeError.
* C32 `(p_wave, young)` returns the other root for auxetic materials; pairs with `lam = 0` give 0/0.
* C50 the returned piezoelectric `d2` has the wrong sign of the correction term.
* C35 `mei_init_conn` reads one item past the indices when the row and all the later rows are empty.
* C36 non-conforming hybrid meshes: a triangle equal to the first three vertices of a quadrilateral
  face is identified with it; a cell with repeated vertices gets duplicate facets.
* C53 `get_incident` of no entities returns empty offsets; `get_facet_indices` raises for a non-empty
  facet region with no facet in the parent's cells; `get_cell_indices` fails an assertion for the unsorted
  cells of facet regions; `get_complete` selects entities without incident ones iff something is given.
* C54 the wedge volume is exact only for a translated top (1/2 instead of 7/6 for `bigTop`); wrong area of
  quadrilaterals non-convex at vertices 1, 3; facets with the area <= 1e-16 get zero normals (an absolute
  tolerance); the volumes of 3D cells are signed.
* C38 `nm.any(rs == -1)` compares a list with -1 and never raises: blocks following a row of unknown size
  overlap the preceding ones; all-zero blocks with given sizes raise (nothing to concatenate).
* C37 `chunk_arrays` with the chunk size 0 never terminates.
* C33 the functions of `sort.c` are not called anywhere now; 50 stack intervals suffice for n < 2^54.
* C55 a quadrilateral face listed by its two cells in different cyclic orders (twisted): the DOFs of the
  face are identified in different places.
* C56 with a forced bubble the DOFs are not nodal values for orders >= 2 (the basis functions of the other
  nodes are not zero in the center); `_eval_hessian` inherited by `LagrangeSimplexBPolySpace` takes the bubble for a
  function of the order of the space (wrong second derivatives).
* C58 `update_coors` moves only the first microstructure (`len(val) == 1`), and in the parallel mode the
  change is lost in the worker process; `compute_only` with chunks raises `KeyError`; a name that is both a
  requirement and a coefficient is sorted by the requirements of the requirement; `store_micro_idxs` is set only in
  the chunked definitions, which are not passed to the workers.
* C59 a name not depending on itself is silently left out of the order, an undefined prerequisite gives an
  incomplete order with repeated names; `block_solve` selects the initial guess by virtual names from a dictionary of
  state names (`get_subdict`), so that `state0` is ignored in the blocks.
* C61 `dw_convect_v_grad_s` does not set the cell of the determinants: every cell is weighted by the determinants of the cell at which the last kernel using the mapping stopped (the first one at the beginning); `dw_electric_source` multiplies by the coefficient in the first quadrature point; `d_dot` with a material fails for a scalar and a normal component.
* C62 `dw_lin_strain_fib` takes the products `d_k d_l`, `k ≠ l`, once instead of twice, so it differs from its documentation for directions not along an axis (`C62_strain_fib_off_diagonal`); the documentation of `ev_sd_lin_elastic` has strains where the code (rightly, as the tensor is not symmetric) takes gradients.
* C63 `dw_piezo_coupling` takes the gradients of the displacement basis for the potential, so its matrices are wrong for different bases (`C63_piezo_matrix_counterexample`); the evaluation of `dw_surface_ltr` with a `(D, D)` material gives `v · σᵀ · n` instead of the documented `v · σ · n` (`C63_traction_eval_tensor_counterexample`); in 1D its `(D, 1)` material is taken as a pressure (`C63_traction_1d_counterexample`); `divgrad_build_gtg` places its blocks wrongly for different numbers of basis functions of the virtual and the state variable (`C63_div_grad_blocks_counterexample`, not reachable as they share the field).
* C64 `dw_ul_he_mooney_rivlin`: the tangent modulus is twice the one of the law (`C64_ul_mr_doubled`, `C64_ul_mr_rest`, `C64_ul_mr_counterexample`), and in 3D `geme_mulT2S_AA` permutes the shear components (`C64_square_counterexample`), so the stress is wrong as well. `dw_tl_he_svk`: the tangent takes the shear rows of the stiffness twice (`C64_svk_tangent`, `C64_svk_counterexample`), and an array that varies in the cells is multiplied in place in every evaluation (`C64_svk_inplace`). The neo-Hookean term in 1D has a stress in the undeformed state (`C64_neo_1d_counterexample`). After 'warp violation!' the data of the warped state stay in the cache, so the next evaluation with the same key succeeds (`C64_warp_cache`). A matrix evaluation uses the stress of the last residual evaluation even if the state changed (`C64_stress_cache`, `C64_stress_cache_counterexample`).
* C60 `PyCMapping.integrate` with mode >= 3 uses an attribute that does not exist; one cell with one quadrature
  point is taken for a constant parameter by `get_shape`; the normals of a 1D mesh whose vertex 0 is not its left end
  point inwards; a cell with the normal exactly -z is not turned and is refused as warped.
* C65 an exception in a material function leaves an empty record; for stationary materials the next updates take it for valid data and reading gives `None` (`C65_failed_update_silent`).
* C65 `Material.set_function()` does not reset `is_constant`: data of a time-dependent function are not renewed (`C65_set_function_stale`).
* C65 `Material.get_data()` with a dictionary: the loop variable hides the argument `key` (`C65_get_data_dict`).
* C65 a stationary material is not updated for new terms in the normal mode (`C65_stationary_new_term`); a wrong number of rows that is a multiple of the number of points is accepted (`C65_wrong_rows_accepted`).
* `triangulate` (C66): outside block meshes the subdivision of hexahedra need not be conforming: the diagonals are fixed by the local vertex numbers (`C66_q2t_nonconforming`).
* `refine_3_4` (C67): contrary to its comment (at most 3 congruence classes, no degeneration) the fixed diagonal gives arbitrarily flat tetrahedra after repeated refinement (`C67_tetrahedrons_degenerate`), for every non-degenerate starting cell.
* `refine_1_2` (C67): only the order of coordinates is checked, for permuted cells the result is an overlapping mesh (`C67_one_dim_permuted`).
* `fix_double_nodes` (C68): for three or more nodes at one place a cell vertex can become -1, depending on the order of the pairs (`C68_fix_double_chain`, `C68_fix_double_triple`); indices of removed nodes are negative numbers that work by wrap-around only.
* `merge_mesh` (C68): the error is a sum over all common nodes compared with `10 eps`, so that matching meshes with more than ten common nodes can be refused (`C68_merge_refused`); the last coordinate is left out of the check.
* `match_plane_by_dir` (C68): only the number of pairs is checked, a matching that is not a bijection is accepted (`C68_match_plane_wrong`); `periodic.set_accuracy()` does not change the tolerance of the search (`mesh.eps`).
* `periodic_cache` (C68): the key does not depend on the coordinates, other points of the same shape get the indices of the first ones (`C68_cache_stale`, `C68_cache_wrong`), also in repeated `gen_tiled_mesh()`.
* `gen_tiled_mesh` (C69): only the connectivity of the first cell kind is used, but the groups of all the cells are repeated; a mesh with several cell kinds loses cells and gets an array of groups of a wrong length (read, not modelled).
* `extrude` (C70): the tetrahedrons of neighbouring triangles conform only if the order of vertices of the common edge is the same in both cells; counter-clockwise triangles have usually the opposite order, then the mesh has hanging diagonals (`C70_expand_conforming`).
* `extrude` (C70): for a mesh with triangles and other cells the groups of all the cells are repeated for the tetrahedrons, so that the lengths differ (`C70_extrude_groups_mixed`); a negative distance rotates all the layers but the first one (`C70_expand_negative`).
* `get_cell_vertices_only` (C70): `nm.unique()` of a list of arrays with different lengths fails, so that meshes with several cell kinds mostly cannot be cleaned; `mirror` makes 3D coordinates for 2D meshes, so the result is a surface mesh (read, not modelled).
* `rigid_twist` (C71): `(R + thread) @ axis` adds the thread height to all the entries of the spin matrix, so the advance is along (1, 1, 1), not along the axis; for every nonzero axis, thread and angle the motion differs from the documented one (`C71_twist_never_documented`). In 2D the shapes do not match.
* `average_force` (C71): the rotation DOFs of the independent nodes are ignored but their weights are kept in the normalisation, so with the default weights no nonzero rotation is passed exactly (`C71_average_default_loses_rotation`; 1/2 in the example); without rotation DOFs the default weights have a wrong number of columns and raise ValueError (`C71_average_plain_default_fails`).
* `nodal_combination` (C71): a DOF that does not appear in the solved constraints is forced to zero (`C71_nodal_unmentioned_zero`); coefficients of several constraints with different DOFs are misaligned (`C71_nodal_misaligned`).
* `no_penetration` (C71): DOF names in a different order than that of the variable, e.g. `u.[1,0]`, give the wrong constraint (`C71_noPen_permuted_dofs`).
* `MRLCBCOperator.treat_pbcs` (C71): `ameq` is not reduced with the matrix rows (`C71_pbc_rows_shifted`), and the attribute `n_dof_new` is set instead of `n_new_dof` (read).
* `make_global_operator` (C72): a tie to a DOF constrained by another condition is silently replaced by a tie to the next free DOF (`C72_chain_tie_wrong`).
* `create_task_dof_maps()` (C73, C74): on a mesh in which a task touches an interface of two other tasks in a vertex only, the task claims the vertex DOF as an inner one without the overlap cells, no assertion fails, and the assembled row is incomplete (`bowtie_wrong`).
* `assemble_mtx_to_petsc()` with overlaps (C74): entries that become exactly zero on reassembling keep their old value, as they are removed by eliminate_zeros() and the PETSc matrix is not zeroed (`C74_matrix_reassembled_iff`); without overlaps values accumulate over calls (`C74_matrix_add`).
* `verify_task_dof_maps()` (C75): `if not expand_dofs` tests a function, so the comparison of the sorted arrays is never run and PETSc numbers out of range are accepted (example in `Par/Examples.lean`).
* `tensor_product()` in iga.py (C77): the row and column offsets use `b.shape[1]` and `b.shape[0]` swapped, so a nonsquare `b` fails or leaves uninitialized values; harmless for extraction operators, which are square.
* `compute_bezier_control()` with an inner knot of multiplicity degree + 1 (C77): the elements share a Bezier point although the patch is discontinuous there, and the later element overwrites the point and weight of the earlier one (example `brokenKnots`).
* `get_facet_axes(1)` (C77): `coors` is None, which becomes a nan array; boundary quadrature points of 1D patches are not usable.
* `Terms + Term`, `Term + Terms`, `Terms - Term` change the `Terms` operand in place (`Struct.copy()` is shallow, the copy shares `_objs`): `(a + t) - a` is 0 (C78_operand_changed, example).
* The multiplier `(1) + 2 * t` is refused by the grammar; `a - 1 + 2 * b` is read as `a + (-1 + 2) * b` (examples to C78).
* A term with the same variable in two history steps, e.g. `(v, u, u[-1])`, uses the last step for both (C79_repeated_variable).
* `by_terms=True` selects by the term name: two terms of the same name in an equation are summed in both items (C79_by_terms_same_name); matrices of terms with dynamic connectivities are lost in `by_terms=True` (C79_by_terms_dynamic_lost) and `by_blocks=True` fails with them (tuple indexed).
* In the initial time step `du/dt` is zero for all values, but the tangent matrix of non-quasistatic problems contains the `1/dt` terms (C79_initial_rate); `u[-1]` is the current vector there and is missing in the tangent.
* A term function quadratic in one complex argument is evaluated as f(re) + i f(im) (C79_complex_square).
* The 1D moment limiter compares cells by their numbers (assumes numbering from left to right, ignores periodicity), and its early exit (`idx_bc`) never happens.
* The 2D moment limiter takes `neighbour > 0`, so the neighbours of the cell 0 are never limited (C80_moment2D_kept_cells, example).
* `ComposedLimiter` slices the state by fields, not by variables: the DOFs of a second variable on the same field become zero (C80_composed_tail_lost).
* `DGMultiStageTSS` passes the arguments of `solve_step()` by position in another order than the subclasses define, so TVDRK3 calls the poststep function in the middle of each step: results are saved twice, at the time t + dt/2 (C81_tvd_saved_twice); volume terms with p[-1] then use p^n in the second stage and the scheme is of the first order (C81_tvd_history_first_order).
* RK4: `- vec_dx - stage_vec` integrates p' = -L(p) - 2p (C81_rk4_step); a constant state decays (C81_rk4_rest_not_kept).
* `iter_by_order()` in 3D ignores `extended` (C82_indices_3d_extended_missing).
* The diffusion flux uses the row sums of D: wrong for tensors with off-diagonal entries (examples); facet gradients are those of the reference cell.
* The advection flux uses the velocity of each cell: not conservative for varying velocities (example).
* Multilinear terms: a differentiated variable occurring twice inside of modifiers (`s(i:j)->I`) gets plain DOFs without the symmetrization in the other copies (sfepy/terms/terms_multilinear.py:448-450); counterexample in Ml/Examples.lean. Excluded by the hypothesis `plain` of C86/C87.
* Multilinear terms: `append_all(self.components, [])` is called without `ii`, so with two occurrences of the differentiated variable the components of a later material are at a wrong position (sfepy/terms/terms_multilinear.py:353-380); fixed indices of the material are then ignored. Example in Ml/Examples.lean; hypothesis `matFirst`.
* Multilinear terms: the qp mode of expressions with one argument gives the output letters `cqq` (einsum error); the element average with a virtual variable does not divide by the volume; the qloop backends sum over the points also in the qp mode; a layout moving c or q breaks the element average mode (the inverse volumes are taken for a material with -1 axes). Examples in Ml/Examples.lean.
* Multilinear terms, by reading only: `einfos` is keyed by `diff_var` only, so a term evaluated in another mode reuses the expression of the first mode; `eval_einsum_orig` adds to uninitialised output for non-contiguous operands; the cache of the transposed operands is keyed by `id(op)`; the check `set(layout)` accepts repeated letters; `set_backend()` uses `self.backend` in its error message before it exists.
* Quadratures: `full_order=True` with an order above the table of a tensor product geometry is a NameError (`order1d` undefined, sfepy/discrete/quadratures.py:166); C92_full_order_beyond_fails.
* Quadratures: the wedge `3_6` with a line order above 3 falls into the tensor product branch for the cube: the weights sum to 1 instead of 1/2; C92_wedge_high_order.
* Quadratures: line orders above 47 of the square and the cube silently give order 47; C92_tensor_order_cap.  Custom coordinates with `symmetric=True` are a TypeError (`data` is None); C92_custom_symmetric_fails.
* Quadratures: the keys 3, 6, 9 of the wedge table are not total degrees (triangle degrees 1, 2, 4, axial degrees 1, 3, 5); the docstring of get_simplex_cubature has a wrong sign in T_n; dimension 0 is a TypeError.
* Geometry: `get_coors_in_tube(..., inside_radii=False)` never returns anything when radius_in < radius_out (`and` instead of `or`, sfepy/linalg/geometry.py:433-434); C96_tube_outside_is_empty.  The axis must be a unit vector.
* Geometry: `get_coors_in_ball(..., radius2=r2, inside=False)` joins by `and` the conditions documented with `|` (sfepy/linalg/geometry.py:472): empty when r2 < r; C96_ball_outside_two_radii.
* Geometry: `get_perpendiculars` (and ContactPlane for a float array) normalizes its argument in place; `get_simplex_volumes` returns signed volumes; C96_perpendiculars_2d, C93_volume.
* Contact sphere: the protection against the division by zero in `get_distance` broadcasts the selected rows with the mask of all rows (sfepy/mechanics/contact_bodies.py:86): with a point within 1e-8 of the centre the call fails, or returns the vector of the only far point as the normal of the others; C96_sphere_normals_near.
* Quadratic EVP: the companion method returns `w x`, the upper half of the linearized vector, so for the eigenvalue 0 (rigid body modes) the returned eigenvector is the zero vector; C97_companion.  The Cholesky linearization uses the plain transpose, so complex Hermitian mass matrices are not supported; the inverted mode returns `inf` with a zero residual only for singular M.
* Units: the prefix `d` is 10 instead of 0.1 (sfepy/mechanics/units.py:42); a docstring call such as `get_prefix(100.0, omit=('d',))` does not omit the numeric prefixes, so the result may be an omitted prefix or a KeyError; `mol` is read as milli-`ol` (C98_unit and its examples).
* `eval_lobatto_tensor_product()` multiplies the derivatives by 2 whatever `cmax - cmin` is, although the coordinates are transformed with it: the gradient is right only for reference elements of unit size (the only ones sfepy uses); C102_lobatto_gradient has the hypothesis `cmax - cmin = 1`, the example in Poly/ExamplesLob shows a wrong value otherwise.
* `H1HierarchicVolumeField` raises `NotImplementedError` for triangular faces; hierarchical elements exist for quadrilaterals and hexahedra only.
* Bernstein simplex gradients: `0 * nm.power(0., -1)` is not a number, so the gradient of a function is NaN in each point with a zero barycentric coordinate whose exponent is zero, e.g. in all facet quadrature points (`C104_bernstein_simplex_gradient_nan`).
* Spectral elements: the weights are computed with the Legendre values of the nodes before the last pass (a rounding error only at convergence); the order 0 divides by zero.
* Extrapolation in `find_ref_coors()` (refcoors.c:430-479): the returned cell is the closest candidate, but the returned coordinates (and the status 4) are those of the last candidate: a linear field `y` evaluates to 16/5 instead of -1/5 outside of two triangles within the default `close_limit` (`C110_extrapolation_mixes_cells`).
* `find_ref_coors_convex()`: for a point equal to the centroid of a cell `_intersect_line_plane()` returns 0 for each facet, the walk leaves the cell through its last facet and returns to it until the error "cannot find containing cell!" (`C113_centroid_lost`, `C113_centroid_example`).
* (C114) An exponential-kernel term whose state variable has no history (or one of length 0) silently has no memory (`C114_no_history`); the decay used is that of the first evaluation, later values of `material_1` are ignored.
* (C114) The full-kernel terms replace the states before the first step by the first state, the exponential ones by zero, so that the two differ for a nonzero initial state (`C114_exponential_is_full`); a kernel with three or more items cannot be evaluated in step 0 (`C114_full_kernel_step0`, ValueError).
* (C115) A direct solver with presolving that is given csr A, a matrix B in another format, and csr A again solves the last system with the factorization of B (`C115_stale`): `_is_new_matrix()` leaves the old digest for other formats.
* (C115) After one factorization with `use_mtx_digest=False` (the digest is then None), every later call with the digests and a csr matrix raises TypeError, also after `clear()` (`C115_mixed_fails`).
* (C116) `coo_is_symmetric()` fails with ValueError for diagonal matrices, ignores the positions of the items, and scales by the maximum instead of the maximal absolute value (`C116_diagonal`, `C116_positions_ignored`); with mumpspy the flag of the first matrix is kept (`C116_flag_of_first`).
* (C117) `opt.fmin_sd` accepts an increase of a negative objective (`aux < of * ls_on`); a zero gradient does not end it (`ofg_norm and ...`); after a failed line search the step taken was never evaluated; `status['status'] = status` stores the status dict in itself.
* (C118) In the brute force mode of the semi-smooth Newton solver the matrix rows are swapped: `min(a, b)` is the residual, the row of the larger function is used (`C118_brute_row`).
* (C119) After a failed line search of a regular step the semi-smooth Newton solver restores the state and the error, but `vec_r` (and `r_last`) stays that of the rejected state, which gives the steepest descent direction (`C119_stale_direction`).
* (C120) `linearizer.create_output` with `max_level >= 3` can write overlapping cells: `flag` is not masked with `expand_flag0`, so a flagged child of a finished sub-element is refined and written again (`C120_overlap_counterexample`). With `min_level > max_level` nothing is written and `concatenate` fails.
* (C121) Two long-syntax conditions with the same `name` overwrite each other silently (`C121_same_name_lost`).
* (C122) `Conditions.from_conf` takes any unknown key containing `ic` for an initial condition (`C122_ic_anywhere`).
* (C123) A condition on a variable whose name contains `grad` (e.g. `grad_p.all`) is filed under the variable `all` and never applied (`C123_grad_in_name`).
* (C124) Conditions with names `a` and `a_1` are applied in the order `a_1`, `a` - and the later one wins on shared DOFs (`C124_prefix_counterexample`).
* `AutoFallbackSolver`: the preset options (`method`, `precond`) override the options given by the user (C139_auto).
* `AutoFallbackSolver`: `dconf.pop('kind')` changes the dictionary of the user when the configuration is a dict.
* `use_first_available()` passes `contex=context` (typo) when a solver is given as a class: the context is lost.
* A required option given only by a keyword argument is refused, because the default of `kwargs.get()` is evaluated first (C139_required_kwargs).
* `Container`: `c[name] = obj` with another `obj.name` stores the object under its own name (C137_set_other); `Struct` sums are not associative (C138_not_assoc).
* `CoefMN.set_variables_default`: the common items (`set_variables[2:]`) are set for rows and set again for columns with the column index, so a common item with indexed states always has the column index (`entryVars` of C140).
* `approximate_exponential`: the initial guess is exact for exponential data only if the times start with zero (C142_guess_shifted).
* `interp_conv_mat`: lags at the first sample and past the last one use the index -1; the result is right in both cases (C143_interpolation, C143_past_end).
* `ESDLinearElasticTerm` and `ESDDiffusionTerm` use `aux.transpose(...)`, which is the shape derivative only for a symmetric material (`C144_diffusion_nonsymmetric` gives a counterexample for a non-symmetric one).
* `ContactSphereTerm`: the mask is scaled by `1 + |eps|` although `eps` is a length, so for radius < 1 documented non-zero forces are cut off (`C145_sphere_mask_small`).
* `ContactSphere.get_distance()`: the protection against a zero division is an exception or a wrong normal when a point is in the centre (`C145_sphere_centre_error`, `C145_sphere_centre_wrong`).
* The documentation of `dw_contact_sphere` has the normal with the opposite sign; the code uses the normal towards the centre (`C146_sphere_vec`).
* `ev_surface_ltr` with a full (D, D) traction integrates `v . sigma^T n`, not the documented `v . sigma n` (`C148_eval_full_transposed`), while its sensitivity uses `sigma` (`C148_sensitivity`).
* `ev_sd_surface_ltr` with a traction vector multiplies by `div V I - G` from the wrong side: it is consistent with the tensor only for `f` parallel to the normal (`C148_sensitivity_vector`, `C148_sensitivity_vector_differs`).
* The documentation of `get_green_strain_sym3d` writes `1/2 C - I`; the code computes `(C - I)/2` (C149_green_strain).
`BSpline.set_param()` moves the end parameter by the absolute `nm.finfo(float64).eps`; for an upper end of the box of 4 or more the subtraction is lost in rounding, all basis functions vanish there and `SplineBox.evaluate()` puts the nodes of that side to the origin (`C133_end_collapse`).
`SplineBox.__init__()` stores the same array as `cp_values` and `cp_coors`, so `move_control_point()` moves `cp_coors` as well and `write_control_net(deform_by_values=False)` writes the moved net (not modelled).
`CircleProbe.get_points()` skips the rotation when |e3 × normal| < 0.1, i.e. for all normals within about 5.7 degrees of the z axis, not only for parallel ones as its comment says: such circles are not perpendicular to the normal (`C132_circle_tilted_counterexample`).
`Probe.refine_points()` of a cyclic probe with `size_hint` set uses the unassigned `ed` (NameError); not modelled.
C128: `make_knot_vector('cyclic', knot_range=...)` is right only for the range (0, 1): the outer knots are multiples of `aux[1]`, resp. shifted by 1 (bspline.py:205-208); for the range (0, 3) the knots are not sorted (`C128_cyclic_range_fails`).
C128: `set_param` shifts the end parameter by `nm_f64_eps`; if the end of the range is 2 or more, the shift is lost in floating point and all basis functions are zero there (exact counterpart: `C128_ends`).
C129: `insert_knot` with a knot in the outer spans of a cyclic knot vector uses negative `u1` (slices wrap around) or an index beyond the control points (bspline.py:264-277); the theorem is for knots in the parameter range.
C130: `approximate(do_param_correction=True)` never ends: the loop has no other exit and repeats the same computation (bspline.py:446-473).
C127: `refine()` for hexahedra keeps the edge substitutions of the first level only if there are face substitutions (`subs1e if len(subs1f)`, refine_hanging.py:315-316, marked `!!!` in the source), and with a previous level without edge substitutions `len(subse)` is applied to `None` (refine_hanging.py:323). The 3D substitution is not modelled.
C127: two levels of hanging nodes (an edge ending in a hanging vertex is itself the coarse edge of another substitution) give a discontinuous field (`C127_two_levels_fail`); nothing in the code rejects it.

Noted while reading, not modelled: higher-order `cell_types = 6` would index `locs[6]` out of bounds;
`get_coors_in_ball(inside=False, radius2)` uses AND where its docstring says OR; the prefix `d` in
`units.py` is 1e1; `create_matrix_graph` reuses a stale block for an empty connectivity;
`TimeStepper.__eq__` tests `abs(t0 == other.t0) < 1e-15`; `ElastodynamicsBasicTSC.get_initial_dt` uses an
undefined `vec0`; the csc branch of `save_sparse_txt` uses wrong variables; `Region.contains` returns the
number of common items; `*_only` kinds of `vertices in` always raise; `transform_equations_ed` appends a
term once per state variable; `mesh_count_incident` returns 1 with a pending exception;
several callers of `create_context(None, 0, 1e-15, ...)` swap `eps` and `check_errors`; the wedge `node_coors` are
allocated as int32 and truncated for orders > 1.
