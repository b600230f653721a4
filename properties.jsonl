{"id": "C01", "title": "State-vector layout tiles the global vector", "statement": "After any sequence of DofInfo.append_variable/append_raw calls, the index slices of the non-shared variables are consecutive, pairwise disjoint and exactly cover [0, n_dof_total) in append order; a variable appended with shared=other gets exactly the slice of `other` and adds no DOFs; appending a name twice raises ValueError and changes nothing.", "quantifier": "all finite sequences of append calls with arbitrary names, sizes and sharing", "why_tests_cant": "the invariant is over unbounded call histories and all sizes; tests fix one or two layouts", "anchors": ["sfepy/discrete/common/dof_info.py:DofInfo.append_variable", "sfepy/discrete/common/dof_info.py:DofInfo.append_raw", "sfepy/discrete/common/dof_info.py:DofInfo._update_after_append"]}
{"id": "C02", "title": "Subset layout is the compact re-layout of the known names", "statement": "DofInfo.get_subset_info(names) silently drops names that are not registered, keeps the order of the request, keeps every variable's DOF count, and lays the kept variables out consecutively from 0; its total is the sum of the kept counts.", "quantifier": "all DOF layouts and all lists of requested names", "why_tests_cant": "arbitrary name lists and layouts", "anchors": ["sfepy/discrete/common/dof_info.py:DofInfo.get_subset_info"]}
{"id": "C03", "title": "Node-to-DOF expansion is exact and injective", "statement": "expand_nodes_to_equations(nods, dofs, all) returns exactly the DOFs dpn*node+index(dof) in node-by-node order: entry nc*k+i is dpn*nods[k]+index(dofs[i]). Distinct (node, component) pairs give distinct DOFs, and every DOF of an n-node variable is hit exactly once when all nodes and components are listed.", "quantifier": "all node lists, component-name lists and DOF-per-node counts", "why_tests_cant": "all sizes; index arithmetic errors show up only for particular shapes", "anchors": ["sfepy/discrete/common/dof_info.py:expand_nodes_to_equations", "sfepy/discrete/common/dof_info.py:expand_nodes_to_dofs"]}
{"id": "C04", "title": "Active equation numbers are a bijection", "statement": "After equation mapping, the DOFs that are neither fixed by an essential condition, nor periodic masters, nor unused are numbered 0,1,...,n_eq-1 in increasing DOF order without gaps or repetition; a periodic master carries the number of its slave; every other DOF carries a negative number.", "quantifier": "all variables sizes, all sets of essential, periodic and unused DOFs", "why_tests_cant": "all combinations of conditions on all sizes", "anchors": ["sfepy/discrete/common/dof_info.py:EquationMap.map_equations", "sfepy/discrete/common/dof_info.py:EquationMap._init_empty"]}
{"id": "C05", "title": "A full vector built from a reduced one satisfies the boundary conditions", "statement": "make_full_vec/get_full applied to any reduced vector returns a vector in which every DOF fixed by an essential condition has its prescribed value, every periodic master equals its slave, and every free DOF carries its reduced entry.", "quantifier": "all equation maps reachable by map_equations and all reduced vectors (periodic conditions declared in a supported order, see C11; prescribed values agreeing on tied DOFs)", "why_tests_cant": "quantifies over every BC set and every vector", "anchors": ["sfepy/discrete/variables.py:FieldVariable.get_full", "sfepy/discrete/variables.py:Variables.make_full_vec", "sfepy/discrete/common/dof_info.py:EquationMap.map_equations"]}
{"id": "C06", "title": "Reduction inverts expansion", "statement": "Reducing (follow_epbc=False) the full vector made from a reduced vector r returns r, for one variable and for the whole multi-variable state vector.", "quantifier": "all equation maps, all state layouts, all reduced vectors", "why_tests_cant": "round trip over unbounded domains", "anchors": ["sfepy/discrete/variables.py:FieldVariable.get_reduced", "sfepy/discrete/variables.py:Variables.reduce_vec", "sfepy/discrete/variables.py:Variables.make_full_vec"]}
{"id": "C07", "title": "Expansion inverts reduction exactly on admissible vectors", "statement": "For a full vector v, make_full_vec(reduce_vec(v)) = v if and only if v satisfies the essential and periodic conditions (on used DOFs).", "quantifier": "all equation maps and full vectors (periodic conditions declared in a supported order, see C11; prescribed values agreeing on tied DOFs)", "why_tests_cant": "iff over all vectors", "anchors": ["sfepy/discrete/variables.py:FieldVariable.get_reduced", "sfepy/discrete/variables.py:FieldVariable.get_full", "sfepy/discrete/variables.py:FieldVariable.has_ebc"]}
{"id": "C08", "title": "apply_ebc establishes the conditions, is idempotent and touches nothing else", "statement": "After apply_ebc(vec): has_ebc(vec) holds, a second apply_ebc changes nothing, and every DOF that is neither essential nor a periodic master keeps its value.", "quantifier": "all equation maps and all vectors (periodic conditions declared in a supported order, see C11; prescribed values agreeing on tied DOFs)", "why_tests_cant": "all vectors and BC sets", "anchors": ["sfepy/discrete/variables.py:FieldVariable.apply_ebc", "sfepy/discrete/variables.py:FieldVariable.has_ebc", "sfepy/discrete/variables.py:Variables.apply_ebc"]}
{"id": "C09", "title": "The reduction operator matrix is what expansion and reduction apply", "statement": "The matrix R returned by EquationMap.get_operator satisfies: (R r)_i is the value get_full puts in DOF i when all essential values are zero, and R^T v is get_reduced(v, follow_epbc=True) for every full vector v.", "quantifier": "all equation maps and vectors (periodic conditions declared in a supported order, see C11)", "why_tests_cant": "linear-algebra identity for all sizes", "anchors": ["sfepy/discrete/common/dof_info.py:EquationMap.get_operator", "sfepy/discrete/variables.py:FieldVariable.get_reduced"]}
{"id": "C10", "title": "Chain grouping computes connected components", "statement": "group_chains(pairs) returns pairwise disjoint sets whose union is the set of all DOFs in the pairs, and two DOFs are in one set if and only if they are linked by a sequence of pairs.", "quantifier": "all lists of index pairs", "why_tests_cant": "termination and exactness for every graph", "anchors": ["sfepy/discrete/common/dof_info.py:group_chains"]}
{"id": "C11", "title": "Every declared periodic pair ends up tied", "statement": "For the periodic conditions given to map_equations, any two DOFs linked by a sequence of declared master-slave pairs have the same value in every full vector produced by make_full_vec (and no two unlinked free DOFs are tied).", "quantifier": "all finite sequences of periodic conditions", "why_tests_cant": "depends on all chain shapes and orders of the conditions; tests cover the box mesh only", "anchors": ["sfepy/discrete/common/dof_info.py:EquationMap.map_equations", "sfepy/discrete/common/dof_info.py:resolve_chains", "sfepy/discrete/common/dof_info.py:group_chains"]}
{"id": "C12", "title": "Vector assembly adds exactly the element contributions", "statement": "assemble_vector adds to entry g of the global vector exactly sign * the sum over all listed elements and local rows whose connectivity entry equals g of the element vector entry; rows with negative connectivity contribute nothing; no other entry changes.", "quantifier": "all vectors, connectivities, element lists and element vectors", "why_tests_cant": "all meshes", "anchors": ["sfepy/discrete/common/extmods/assemble.pyx:assemble_vector", "sfepy/discrete/common/extmods/assemble.pyx:assemble_vector_complex"]}
{"id": "C13", "title": "Matrix assembly adds exactly the element contributions or reports the missing entry", "statement": "assemble_matrix on a CSR matrix whose rows have no duplicate columns adds to entry (i,j) exactly sign * the sum of all element entries mapped to (i,j), leaves all other stored entries unchanged, and raises IndexError if and only if some non-negative (row, column) pair is not in the sparsity pattern.", "quantifier": "all CSR patterns, connectivities and element matrices", "why_tests_cant": "all meshes and patterns", "anchors": ["sfepy/discrete/common/extmods/assemble.pyx:assemble_matrix"]}
{"id": "C14", "title": "Binary-search assembly agrees with linear-search assembly", "statement": "For CSR rows with strictly increasing column indices, assemble_matrix_b behaves exactly like assemble_matrix (same result, same IndexError).", "quantifier": "all sorted CSR patterns and element matrices", "why_tests_cant": "the off-by-one search bound only matters for particular patterns", "anchors": ["sfepy/discrete/common/extmods/assemble.pyx:bsearch", "sfepy/discrete/common/extmods/assemble.pyx:assemble_matrix_b"]}
{"id": "C15", "title": "Assembling through the active connectivity equals reducing the full assembly", "statement": "The residual (matrix) assembled through the active DOF connectivity made by create_adof_conn equals R^T b (R^T A R) where b (A) is assembled with all DOFs active and R is the operator of the equation mapping.", "quantifier": "all meshes, equation maps and element data (periodic conditions declared in a supported order, see C11)", "why_tests_cant": "relates two assemblies for every input", "anchors": ["sfepy/discrete/variables.py:create_adof_conn", "sfepy/discrete/common/extmods/assemble.pyx:assemble_vector", "sfepy/discrete/common/dof_info.py:EquationMap.get_operator"]}
{"id": "C16", "title": "Region definitions are ordered by dependency", "statement": "sort_by_dependency(graph) always terminates; it returns each region exactly once with all its parents before it, or raises ValueError, and it raises exactly when some dependency is undefined or there is a cycle.", "quantifier": "all finite dependency graphs", "why_tests_cant": "termination and completeness on every graph", "anchors": ["sfepy/discrete/common/region.py:sort_by_dependency", "sfepy/discrete/common/region.py:get_dependency_graph"]}
{"id": "C17", "title": "Region selector evaluation equals the written expression", "statement": "Evaluating the token stack pushed by the region grammar equals evaluating the expression tree of the selector: parentheses are respected, and unparenthesised operator chains associate to the right with no precedence.", "quantifier": "all selector expressions of any depth", "why_tests_cant": "all expressions", "anchors": ["sfepy/discrete/parse_regions.py:create_bnf", "sfepy/discrete/parse_regions.py:visit_stack", "sfepy/discrete/common/domain.py:region_op"]}
{"id": "C18", "title": "Region operators are set operations on the chosen entities", "statement": "r1 +X r2, r1 -X r2, r1 *X r2 (X in v,e,f,c,s) yield a region of the kind of r1 whose entities of kind X are the sorted duplicate-free union, difference and intersection of the operand entities.", "quantifier": "all regions and entity sets", "why_tests_cant": "all sets", "anchors": ["sfepy/discrete/common/region.py:Region.eval_op_vertices", "sfepy/discrete/common/region.py:Region.eval_op_cells", "sfepy/discrete/common/region.py:Region.eval_op_facets"]}
{"id": "C19", "title": "Region entity completion is exact", "statement": "The cells (facets, edges) a region derives from its vertices are exactly those all of whose vertices are in the region; the lower-dimensional entities derived from cells are exactly those incident to some region cell. Hence a finalized cell region contains exactly the vertices of its cells.", "quantifier": "all meshes and vertex/cell subsets", "why_tests_cant": "all meshes", "anchors": ["sfepy/discrete/common/region.py:Region.setup_from_vertices", "sfepy/discrete/common/region.py:Region.setup_from_highest", "sfepy/discrete/common/region.py:Region.finalize", "sfepy/discrete/common/extmods/mesh.c:mesh_select_complete", "sfepy/discrete/common/extmods/mesh.c:mesh_get_incident"]}
{"id": "C20", "title": "Fixed-step time stepper visits exactly n_step equidistant times", "statement": "Iterating a TimeStepper yields steps 0..n_step-1 in order, first time t0, last time t1 (n_step>1), constant increment dt, nt = (t-t0)/(t1-t0) in [0,1]; advance() at the last step is a no-op; set_step accepts exactly -n_step..n_step-1 with negative steps counting from the end.", "quantifier": "all t0<t1, dt or n_step, and all sequences of advance/set_step", "why_tests_cant": "all histories and sizes", "anchors": ["sfepy/solvers/ts.py:TimeStepper.set_from_data", "sfepy/solvers/ts.py:TimeStepper.advance", "sfepy/solvers/ts.py:TimeStepper.set_step", "sfepy/solvers/ts.py:TimeStepper.iter_from"]}
{"id": "C21", "title": "Variable-step time stepper keeps its history consistent", "statement": "After any sequence of advance and set_time_step calls, times has step+1 entries starting with t0, its last entry is the current time, n_step = step+1, and set_time_step(dt, update_time=True) makes the current time exactly the previous time plus dt; iteration stops at the first time >= t1.", "quantifier": "all finite operation sequences", "why_tests_cant": "unbounded histories with rejections", "anchors": ["sfepy/solvers/ts.py:VariableTimeStepper"]}
{"id": "C22", "title": "Time stepper restart round trip", "statement": "For both steppers, set_state(**get_state()) on a stepper constructed with the same data restores step, time and normalized time (and dt and the times history for the variable stepper), so iteration continues identically.", "quantifier": "all reachable stepper states", "why_tests_cant": "crash/restart at every point", "anchors": ["sfepy/solvers/ts.py:TimeStepper.get_state", "sfepy/solvers/ts.py:TimeStepper.set_state", "sfepy/solvers/ts.py:VariableTimeStepper.set_state"]}
{"id": "C23", "title": "A boundary condition is active exactly in its half-open time intervals", "statement": "is_active_bc returns True iff times is None, or ts is None, or ts.time lies in some [t_i, t_{i+1}) of the list, or the given time function returns True.", "quantifier": "all interval lists, times, functions", "why_tests_cant": "all intervals", "anchors": ["sfepy/discrete/common/dof_info.py:is_active_bc"]}
{"id": "C24", "title": "Variable history returns the vectors of previous steps", "statement": "With history h, after any run of (set current data, advance)*, variable(step=-j) for 0<=j<=h is the current data for j=0 and for j>=1 the data that was current j advances ago (initial data if there were fewer advances); later in-place changes of the current vector do not alter the history.", "quantifier": "all runs and history depths", "why_tests_cant": "all run lengths and depths", "anchors": ["sfepy/discrete/variables.py:Variable.advance", "sfepy/discrete/variables.py:Variable.__call__", "sfepy/discrete/variables.py:Variable.set_data", "sfepy/discrete/variables.py:Variable.init_history"]}
{"id": "C25", "title": "Cached evaluation equals fresh evaluation", "statement": "FieldVariable.evaluate returns the same value whether or not the evaluate cache was populated, after any sequence of evaluate, set_data/invalidate and advance calls.", "quantifier": "all operation histories", "why_tests_cant": "cache staleness depends on the whole history", "anchors": ["sfepy/discrete/variables.py:FieldVariable.evaluate", "sfepy/discrete/variables.py:FieldVariable.invalidate_evaluate_cache", "sfepy/discrete/variables.py:Variable.advance"]}
{"id": "C26", "title": "Convergence test decision table", "statement": "conv_test returns 0 exactly when the tolerances are met (iteration 0: err<=eps_a; later: both absolute and relative, or either with eps_mode \"or\"), otherwise 1 exactly when it >= i_max, otherwise -1.", "quantifier": "all errors, tolerances and iteration numbers", "why_tests_cant": "full decision table over reals", "anchors": ["sfepy/solvers/nls.py:conv_test"]}
{"id": "C27", "title": "Backtracking line search terminates and its step factors are as configured", "statement": "For 0 < ls_red < 1, 0 < ls_red_warp < 1 and ls_min > 0 apply_line_search_bt terminates for every residual function, and every trial point is x0 - ls*dx0 with ls a product of the reduction factors (ls = 1 first); it stops at the first trial with sufficient decrease.", "quantifier": "all residual functions (including failing ones), all configurations", "why_tests_cant": "termination for every function", "anchors": ["sfepy/solvers/nls.py:apply_line_search_bt"]}
{"id": "C28", "title": "Adaptive step-size controllers respect their limits", "statement": "tsc.ed_basic never multiplies dt by more than fmax on acceptance or less than fmin on rejection, accepts iff the scaled error is <= 1; tsc.ed_pid always keeps the factor in [fmin, fmax]; tsc.ed_linear never increases dt unless inc_wait consecutive steps were accepted since the last change and the increase is at least min_finc.", "quantifier": "all error histories", "why_tests_cant": "unbounded sequences of accept/reject", "anchors": ["sfepy/solvers/ts_controllers.py:ElastodynamicsBasicTSC.__call__", "sfepy/solvers/ts_controllers.py:ElastodynamicsPIDTSC.__call__", "sfepy/solvers/ts_controllers.py:ElastodynamicsLinearTSC.__call__"]}
{"id": "C29", "title": "Symmetric tensor storage conversions are lossless and consistent", "statement": "full->sym->full is the identity on symmetric tensors in 2D and 3D and sym->full->sym is the identity; the full fourth-order tensor made from a symmetric matrix has both minor symmetries and (for symmetric matrices) the major symmetry; sym2dim inverts dim2sym for every dimension.", "quantifier": "all tensors and all dimensions", "why_tests_cant": "all tensors", "anchors": ["sfepy/mechanics/tensors.py:get_full_indices", "sfepy/mechanics/tensors.py:get_sym_indices", "sfepy/mechanics/tensors.py:get_t4_from_t2s", "sfepy/mechanics/tensors.py:dim2sym", "sfepy/mechanics/tensors.py:sym2dim"]}
{"id": "C30", "title": "Volumetric/deviatoric split and von Mises stress", "statement": "volumetric + deviator = tensor, the deviator is traceless, the split is idempotent; the von Mises stress is non-negative, unchanged by adding a hydrostatic part in 3D, zero exactly for hydrostatic 3D stress, and equals sqrt(3/2 dev:dev); symmetric and full storages give the same result.", "quantifier": "all tensors", "why_tests_cant": "all real tensors", "anchors": ["sfepy/mechanics/tensors.py:get_deviator", "sfepy/mechanics/tensors.py:get_volumetric_tensor", "sfepy/mechanics/tensors.py:get_von_mises_stress", "sfepy/mechanics/tensors.py:get_trace"]}
{"id": "C31", "title": "Elastic stiffness conversions are mutually inverse", "statement": "youngpoisson_from_stiffness(stiffness_from_youngpoisson(dim, E, nu, plane), plane) = (E, nu) for all admissible E, nu, both plane options and dim 2, 3; the stiffness is symmetric and positive definite for mu>0, 3 lam+2 mu>0 (3D).", "quantifier": "all admissible material parameters", "why_tests_cant": "continuum of parameters", "anchors": ["sfepy/mechanics/matcoefs.py:lame_from_youngpoisson", "sfepy/mechanics/matcoefs.py:stiffness_from_lame", "sfepy/mechanics/matcoefs.py:lame_from_stiffness", "sfepy/mechanics/matcoefs.py:youngpoisson_from_stiffness"]}
{"id": "C32", "title": "The elastic-constant relation table is consistent", "statement": "For every pair of elastic constants accepted by ElasticConstants, the table of relations computes the other four constants of the same isotropic material.", "quantifier": "all pairs of given constants and all admissible materials", "why_tests_cant": "continuum of parameters, all 15 pairs", "anchors": ["sfepy/mechanics/matcoefs.py:ElasticConstants.init", "sfepy/mechanics/elastic_constants.py:relations"]}
{"id": "C33", "title": "Row sorting sorts", "statement": "int32_sort_rows/int32_mtx_aquicksort/int32_quicksort produce a permutation of the input that is sorted (rows lexicographically by the given columns), for arrays of any length.", "quantifier": "all arrays", "why_tests_cant": "all lengths and contents", "anchors": ["sfepy/discrete/common/extmods/sort.c:int32_sort_rows", "sfepy/discrete/common/extmods/sort.c:int32_quicksort", "sfepy/discrete/common/extmods/sort.c:int32_mtx_aquicksort"]}
{"id": "C34", "title": "Transposed connectivity is the inverse incidence relation", "statement": "mesh_transpose(d1, d2): entity j of dimension d2 is listed for entity i of dimension d1 exactly as many times as i is listed for j; each list is in increasing order; offsets are consistent with the indices.", "quantifier": "all connectivities", "why_tests_cant": "all meshes", "anchors": ["sfepy/discrete/common/extmods/mesh.c:mesh_transpose", "sfepy/discrete/common/extmods/mesh.c:conn_set_to_free"]}
{"id": "C35", "title": "Intersection connectivity", "statement": "mesh_intersect(d1,d2,d3): for d1=d2 lists exactly the other entities sharing a d3 entity, each once; for d1>d2 exactly those d2 entities reachable via d3 whose vertices all belong to the d1 entity.", "quantifier": "all connectivities", "why_tests_cant": "all meshes", "anchors": ["sfepy/discrete/common/extmods/mesh.c:mesh_intersect"]}
{"id": "C36", "title": "Unique facets are identified by their vertex sets", "statement": "mesh_build(dim) gives two local facets (of cells sharing a vertex) the same global number if and only if they have the same vertex set; numbers are 0..n-1 without gaps in order of first occurrence; the stored facet vertices are those of the first occurrence.", "quantifier": "all meshes", "why_tests_cant": "all meshes", "anchors": ["sfepy/discrete/common/extmods/mesh.c:mesh_build"]}
{"id": "C37", "title": "Array helper laws", "statement": "assemble1d adds duplicates; map_permutations(s1,s2) returns imap with s1[imap]==s2 whenever s2 is a rearrangement of s1; chunk_arrays yields consecutive chunks of at most chunk_size that concatenate to the input; cycle enumerates every multi-index exactly once in lexicographic order; argsort_rows returns a permutation sorting the rows lexicographically; invs_fast returns the inverses of 1x1, 2x2 and 3x3 matrices with non-zero determinants.", "quantifier": "all arrays", "why_tests_cant": "all inputs", "anchors": ["sfepy/linalg/utils.py:assemble1d", "sfepy/linalg/utils.py:map_permutations", "sfepy/linalg/utils.py:chunk_arrays", "sfepy/linalg/utils.py:cycle", "sfepy/linalg/utils.py:argsort_rows", "sfepy/linalg/utils.py:invs_fast"]}
{"id": "C38", "title": "compose_sparse places every block at its offset", "statement": "compose_sparse(blocks) returns the matrix whose (offset_r[i]+a, offset_c[j]+b) entry is blocks[i][j][a,b], zero elsewhere, and raises ValueError for incompatible block sizes.", "quantifier": "all block layouts", "why_tests_cant": "all layouts", "anchors": ["sfepy/linalg/sparse.py:compose_sparse"]}
{"id": "C39", "title": "Small matrix inversion is exact", "statement": "invs_fast(a) times a is the identity for every 1x1, 2x2, 3x3 matrix with non-zero determinant.", "quantifier": "all matrices", "why_tests_cant": "continuum", "anchors": ["sfepy/linalg/utils.py:invs_fast"]}
{"id": "C40", "title": "Newton iteration stops and reports correctly", "statement": "The Newton solver performs at most i_max linear solves, its final status condition is 0 only if the last residual met the tolerances, and on status 0 the returned vector is the one whose residual was tested.", "quantifier": "all residual functions and linear solvers", "why_tests_cant": "all functions", "anchors": ["sfepy/solvers/nls.py:Newton.__call__"]}
{"id": "C41", "title": "The matrix graph contains exactly the positions that assembling refers to", "statement": "create_matrix_graph returns a matrix whose sparsity pattern consists exactly of the pairs of active row and column DOFs coupled by some cell of some connectivity pair (all DOFs, constrained ones included, with active_only=False), independently of chunk_size; consequently, assembling element matrices through those connectivities never hits a missing entry.", "quantifier": "all lists of variables, connectivities, cells, boundary-condition induced inactive items and chunk sizes", "why_tests_cant": "all connectivities and block layouts, including variables with no active DOF", "anchors": ["sfepy/discrete/equations.py:create_matrix_graph", "sfepy/discrete/equations.py:create_dof_graph", "sfepy/discrete/equations.py:Equations.get_graph_conns", "sfepy/linalg/utils.py:chunk_arrays"]}
{"id": "C42", "title": "Creating a region leaves the existing regions unchanged", "statement": "After create_region(name, select, kind) every region created before has the same name, kind and entities as before, and the new region is a separate object (true whenever the selector is a leaf, an operator expression or starts with copy; a bare r.A returns, renames and re-kinds A itself).", "quantifier": "all domains, selectors, kinds and sequences of create_region calls", "why_tests_cant": "The statement is about all histories of creations and lazy reads of shared objects.", "anchors": ["sfepy/discrete/common/domain.py:Domain.create_region", "sfepy/discrete/common/domain.py:region_leaf", "sfepy/discrete/common/region.py:Region.copy"]}
{"id": "C43", "title": "The time-stepping driver solves each step exactly once, in order, and restarts exactly", "statement": "With at least two steps, the simple time-stepping solver handles step 0 by the initial solve and then every step 1..n-1 exactly once, in increasing order, at its own time, each from the state left by the previous one. A run stopped after step s < n-1 and restarted from the file of step s ends in the same state as the uninterrupted run. (With a single step, step 0 is handled twice; a restart from the file of the last step solves the last step again.)", "quantifier": "all time intervals, numbers of steps, restart points and all (history dependent) step functions", "why_tests_cant": "it quantifies over every number of steps, restart point and solver behaviour", "anchors": ["sfepy/solvers/ts_solvers.py:SimpleTimeSteppingSolver.__call__", "sfepy/discrete/problem.py:Problem.get_tss_functions", "sfepy/solvers/ts.py:TimeStepper.iter_from"]}
{"id": "C44", "title": "Adaptive time stepping terminates and keeps the step size in its limits", "statement": "For every behaviour of the nonlinear solver the adaptivity loop of a step ends; the sizes tried are the current one and then dt0*red*f, dt0*red*f^2, ...; the history of previous steps is untouched and the time of the step is the previous time plus the size of the last attempt; the step size never exceeds max(1, inc_factor) times the default and does not get below red_max times the default unless a step was given up (afterwards an 'increase' can make it smaller).", "quantifier": "all nonlinear solver behaviours, all step histories, all parameter values in their documented ranges", "why_tests_cant": "termination and bounds over all solver outcomes and histories", "anchors": ["sfepy/solvers/ts_solvers.py:adapt_time_step", "sfepy/solvers/ts_solvers.py:AdaptiveTimeSteppingSolver.solve_step", "sfepy/solvers/ts.py:VariableTimeStepper.set_time_step"]}
{"id": "C45", "title": "One step of each elastodynamics solver satisfies its scheme and the equation of motion", "statement": "For every problem (linear or nonlinear, with or without extra variables in Newmark's case), every previous state, every step size and every nonlinear solver, the state returned by one step of ts.newmark, ts.central_difference, ts.velocity_verlet, ts.generalized_alpha and ts.bathe satisfies the update formulas of the method, and the residual of the equation of motion at the documented (mean) state and time is the one the nonlinear solver promised (zero, or below the tolerance); the time stepper is left unchanged. The documented equivalences hold: central difference = Newmark(beta=0, gamma=1/2), alpha_m=alpha_f=0 gives Newmark, velocity-Verlet = central difference without damping (with damping it is not). The default generalized alpha parameters satisfy the documented stability and accuracy conditions for every rho_inf in [0,1], and rho_inf is the amplification in the high frequency limit. The initial acceleration solves the equation of motion. Packing and unpacking of the DOF vectors are inverse. (ts.bathe evaluates the loads of its two sub-steps half a step late.)", "quantifier": "all residual functions, states, step sizes, method parameters, nonlinear solvers", "why_tests_cant": "tests run a few problems and compare with stored numbers; the claim is for all problems, step sizes and parameters", "anchors": ["sfepy/solvers/ts_solvers.py:NewmarkTS.step", "sfepy/solvers/ts_solvers.py:GeneralizedAlphaTS.step", "sfepy/solvers/ts_solvers.py:CentralDifferenceTS.step", "sfepy/solvers/ts_solvers.py:VelocityVerletTS.step", "sfepy/solvers/ts_solvers.py:BatheTS.step", "sfepy/solvers/ts_solvers.py:gen_multi_vec_packing", "sfepy/solvers/ts_solvers.py:ElastodynamicsBaseTS.get_a0"]}
{"id": "C46", "title": "The elastodynamics time loop: states form a chain of accepted steps, with matrices of the current step size", "statement": "Whatever the time step controller does, if the solver returns, then the states passed to the post-step function form a chain from the initial state: consecutive step numbers, each time is the previous one plus the step size used, each state is one step of the scheme from the previous state computed with the matrices built for this step size, each was accepted by the controller, rejected attempts leave no trace, and the chain ends with the first time at or behind t1. With the fixed step and n >= 2 steps it terminates after exactly n-1 steps at the equidistant times, and a restart from any step gives the same remaining states. With a given increasing sequence of times it visits exactly these times up to t1. (The returned vector is the state before the last step; n_step = 1 never stops; a repeated time in the sequence gives a step of size 1; is_linear with cleared matrices raises TypeError except for Newmark.)", "quantifier": "all controllers, schemes, step sizes, numbers of steps, restart points", "why_tests_cant": "accept/reject histories are unbounded and the cache of the matrix has to be valid after every one of them", "anchors": ["sfepy/solvers/ts_solvers.py:ElastodynamicsBaseTS.__call__", "sfepy/solvers/ts_solvers.py:ElastodynamicsBaseTS.clear_lin_solver", "sfepy/solvers/ts_solvers.py:ElastodynamicsBaseTS.get_matrices", "sfepy/solvers/ts_controllers.py:TimesSequenceTSC"]}
{"id": "C47", "title": "Energy balance and stability of the Newmark and generalized alpha methods", "statement": "For linear problems M a + C v + K u = f with symmetric matrices, M, C, K non-negative and a constant load, any number of exact steps of ts.newmark: for gamma >= 1/2 and 2 beta >= gamma the accelerations and velocities stay bounded for every step size (unconditional stability); for gamma = 1/2 and beta < 1/4 they stay bounded if omega dt is at most the documented Omega_crit (2 sqrt 3, sqrt 6, 2); the trapezoidal rule changes the energy exactly by the work of the damping forces and conserves it without damping; generalized alpha with rho_inf = 1 does not dissipate.", "quantifier": "all linear problems (any dimension), step sizes, numbers of steps, initial states", "why_tests_cant": "stability is a statement about all step sizes and infinitely many steps", "anchors": ["sfepy/solvers/ts_solvers.py:NewmarkTS", "sfepy/solvers/ts_solvers.py:GeneralizedAlphaTS"]}
{"id": "C48", "title": "The effective matrices of the elastodynamics solvers are the exact derivatives of their residuals", "statement": "For every differentiable problem with the documented block-diagonal structure, the matrix given to the nonlinear solver (M + gamma dt C + beta dt^2 K for Newmark, also with extra variables; M + dt/2 C; M; the generalized alpha combination; (4/dt)^2 M + 4/dt C + K and (3/dt)^2 M + 3/dt C + K for Bathe) is the derivative of the residual given to it, at every point.", "quantifier": "all differentiable residuals, states, step sizes and parameters", "why_tests_cant": "a wrong coefficient only slows the convergence of Newton's method for some problems; exactness is for all", "anchors": ["sfepy/solvers/ts_solvers.py:NewmarkTS.create_nlst", "sfepy/solvers/ts_solvers.py:GeneralizedAlphaTS._create_nlst_a", "sfepy/solvers/ts_solvers.py:BatheTS._create_nlst_u", "sfepy/solvers/ts_solvers.py:CentralDifferenceTS._create_nlst_a"]}
{"id": "C49", "title": "Coordinate transformations of vectors and tensors", "statement": "make_axis_rotation_matrix(direction, angle) is a proper rotation (orthogonal, determinant one, keeps the axis; rotations about one axis compose by adding angles); transform_data() of vectors, symmetric second order and fourth order tensors in the symmetric storage is the tensor transformation law, a group action for composed matrices, compatible with contraction, and keeps trace, deviator and isotropic stiffness for orthogonal matrices; prepare_cylindrical_transform() gives an orthogonal matrix whose rows are the radial, circumferential and axial directions at the point.", "quantifier": "all directions, angles, matrices, tensors, points", "why_tests_cant": "continuum of rotations and tensors", "anchors": ["sfepy/linalg/geometry.py:make_axis_rotation_matrix", "sfepy/mechanics/tensors.py:transform_data", "sfepy/mechanics/tensors.py:prepare_cylindrical_transform"]}
{"id": "C50", "title": "Plane stress reduction of 3D laws", "statement": "TransformToPlane.tensor_plane_stress(c3) gives the 2D stiffness for which the in-plane stress equals the 3D in-plane stress whenever the out-of-plane stress is zero, for each of the three planes; for an isotropic material it equals the plane stress stiffness; for piezoelectric data the returned c2, b2 have the same property (the returned d2 does not: a documented deviation).", "quantifier": "all stiffness (and piezoelectric) matrices, planes, strains and fields", "why_tests_cant": "continuum of materials and states", "anchors": ["sfepy/mechanics/matcoefs.py:TransformToPlane"]}
{"id": "C51", "title": "Stress measures", "statement": "StressTransform: the first Piola-Kirchhoff stress is F S; the Cauchy stress is F S F^T / det F in the symmetric storage and the internal symmetry assertion never fails; the two satisfy P = J sigma F^-T.", "quantifier": "all deformation gradients and stresses", "why_tests_cant": "continuum of deformation gradients", "anchors": ["sfepy/mechanics/tensors.py:StressTransform"]}
{"id": "C52", "title": "On-demand connectivities do not depend on the history", "statement": "After any sequence of setup_connectivity(d1, d2) and free_connectivity(d1, d2) calls on a mesh (never freeing the cell vertices), setup_connectivity(d1, d2) terminates, reads no memory out of bounds and gives, for each entity of dimension d1, exactly the entities of dimension d2 incident to it in the sense documented in mesh.h; the numbering of edges and faces is always the same, and every other available connectivity is the one a fresh computation would give.", "quantifier": "all conforming meshes of any size, all histories of requests and frees, all pairs of dimensions", "why_tests_cant": "unbounded histories of requests over unbounded meshes", "anchors": ["sfepy/discrete/common/extmods/mesh.c:mesh_setup_connectivity", "sfepy/discrete/common/extmods/mesh.c:mesh_build", "sfepy/discrete/common/extmods/cmesh.pyx:CMesh.free_connectivity", "sfepy/discrete/common/extmods/cmesh.pyx:CMesh._update_num"]}
{"id": "C53", "title": "Incidence queries and facet indices", "statement": "CMesh.get_incident, get_local_ids, get_complete, get_surface_facets and Region.get_facet_indices, get_cells, get_cell_indices return exactly what they document: the concatenated incident entities with delimiting offsets, the local position of each entity in each incident entity, the entities with all incident ones selected, the facets with exactly one cell, the (cell, local facet) pairs of each facet of a region in order restricted to the parent region, and positions of cells in the region.", "quantifier": "all conforming meshes, all lists of entities, all parent regions", "why_tests_cant": "the offsets, filters and local ids must stay aligned for every mesh and every selection", "anchors": ["sfepy/discrete/common/extmods/mesh.c:mesh_get_incident", "sfepy/discrete/common/extmods/mesh.c:mesh_get_local_ids", "sfepy/discrete/common/extmods/mesh.c:mesh_select_complete", "sfepy/discrete/common/extmods/cmesh.pyx:CMesh.get_surface_facets", "sfepy/discrete/common/region.py:Region.get_facet_indices", "sfepy/discrete/common/region.py:Region.get_cell_indices"]}
{"id": "C54", "title": "Volumes, centroids and normals of mesh entities", "statement": "CMesh.get_volumes returns for hexahedra and tetrahedra (for any positions of vertices), wedges with a translated top and convex quadrilaterals exactly the integral of the Jacobian of the reference mapping, for edges and triangles the length and the area; get_centroids the mean of the vertices; get_facet_normals unit vectors perpendicular to the facet, pointing out of positively oriented cells, and the area normals of a cell sum to zero.", "quantifier": "all real vertex coordinates", "why_tests_cant": "equality with an integral for a continuum of shapes", "anchors": ["sfepy/discrete/common/extmods/mesh.c:mesh_get_volumes", "sfepy/discrete/common/extmods/mesh.c:mesh_get_centroids", "sfepy/discrete/common/extmods/mesh.c:mesh_get_facet_normals", "sfepy/discrete/common/extmods/cmesh.pyx:CMesh.get_volumes"]}
{"id": "C55", "title": "Conforming numbering of the DOFs of Lagrange fields", "statement": "A nodal Lagrange field of any order on a cell region of a mesh of lines, triangles, tetrahedra, quadrilaterals or hexahedra gives two local nodes of two cells the same global DOF if and only if the nodes are in the same place (the same weights of the mesh vertices), whatever the numbering of the mesh vertices and the orientations of the cells; the DOFs are exactly the numbers 0, ..., n_nod - 1; an element has the full number of nodes of its order. For hexahedra the cells sharing a quadrilateral face must list its vertices in the same cyclic order (up to the direction).", "quantifier": "all approximation orders >= 1, all meshes and cell regions, all vertex numberings, all pairs of cells and local nodes", "why_tests_cant": "infinitely many orders, meshes and orientations; a single wrong permutation table makes discontinuous fields only for some relative orientations and orders", "anchors": ["sfepy/discrete/fem/facets.py:get_facet_dof_permutations", "sfepy/discrete/fem/fields_nodal.py:_setup_facet_dofs", "sfepy/discrete/fem/fields_base.py:_setup_global_basis", "sfepy/discrete/fem/poly_spaces.py:LagrangeSimplexPolySpace._define_nodes", "sfepy/discrete/fem/poly_spaces.py:LagrangeTensorProductPolySpace._define_nodes"]}
{"id": "C56", "title": "Lagrange bases: nodal, exact, correctly differentiated", "statement": "The values returned by PolySpace.eval_basis of the Lagrange simplex and tensor product spaces of any order: each function is one in its node and zero in the others, the functions sum to one in every point, every polynomial of the order of the space is reproduced exactly from its nodal values, the gradients and the second derivatives are the derivatives of the values; points outside the reference element are refused when the errors are checked, points not further than eps are snapped. With a forced bubble the functions sum to one, the bubble is zero on the boundary and one in the center.", "quantifier": "all orders >= 1, all reference simplices and tensor product cells, all points", "why_tests_cant": "every order and a continuum of points", "anchors": ["sfepy/discrete/fem/extmods/lagrange.c:eval_basis_lagrange", "sfepy/discrete/fem/extmods/lagrange.c:eval_lagrange_simplex", "sfepy/discrete/fem/extmods/lagrange.c:eval_lagrange_tensor_product", "sfepy/discrete/fem/extmods/lagrange.c:get_barycentric_coors", "sfepy/discrete/fem/poly_spaces.py:LagrangeSimplexPolySpace._eval_hessian", "sfepy/discrete/fem/poly_spaces.py:LagrangeTensorProductPolySpace._eval_hessian", "sfepy/discrete/fem/poly_spaces.py:LagrangeSimplexBPolySpace"]}
{"id": "C57", "title": "Continuity of finite element functions", "statement": "For any vector of DOFs of a nodal Lagrange field of any order, the value of the function in a point common to two cells is the same when evaluated from either cell.", "quantifier": "all orders >= 1, all meshes of segments, triangles, tetrahedra, quadrilaterals and (not twisted) hexahedra, all vertex numberings, all DOF vectors, all pairs of cells and common points", "why_tests_cant": "all relative orientations of cells, all orders and a continuum of points", "anchors": ["sfepy/discrete/fem/fields_nodal.py:H1NodalMixin._setup_facet_dofs", "sfepy/discrete/fem/fields_base.py:FEField._setup_global_basis", "sfepy/discrete/fem/extmods/lagrange.c:eval_basis_lagrange", "sfepy/discrete/common/extmods/crefcoors.pyx:evaluate_in_rc"]}
{"id": "C58", "title": "Homogenization engine: order, parallel runs and chunks", "statement": "The engine evaluates exactly the requested coefficients and everything they (transitively) require, each once and after all its requirements, and reports an undefined or a circular requirement exactly when there is one. The parallel computation never fails or blocks when the serial one succeeds, ends after a bounded number of events for any interleaving of the workers, and gives the same values; so does the computation with the microstructures divided into chunks of any size after merging.", "quantifier": "all definitions of requirements and coefficients with disjoint names, all orders of the names, all mini applications, all numbers of microstructures and chunk sizes, all interleavings of the worker processes", "why_tests_cant": "any dependency graph and any schedule of the workers", "anchors": ["sfepy/homogenization/engine.py:insert_sub_reqs", "sfepy/homogenization/engine.py:HomogenizationWorker", "sfepy/homogenization/engine.py:HomogenizationWorkerMulti"]}
{"id": "C59", "title": "Resolution of dependencies among equations and block solution", "statement": "The blocks of equations returned for block solving can be solved in the given order: a block needs only its own variables and the ones of the earlier blocks. When only defined names are used and every name depends on itself (directly or not), every name is in exactly one block, the blocks are exactly the sets of mutually dependent names, and a smallest possible block is always chosen first. Solving the blocks one by one then solves the whole system.", "quantifier": "all dictionaries of dependencies (any number of names, any graph), all residual functions and block solvers", "why_tests_cant": "any dependency graph", "anchors": ["sfepy/base/resolve_deps.py:resolve", "sfepy/base/resolve_deps.py:solvable", "sfepy/discrete/problem.py:Problem.block_solve"]}
{"id": "C60", "title": "Reference mappings of cells and faces", "statement": "For every mesh and every basis, the mapping data of a cell give: the physical gradients of the basis functions (derivatives with respect to the physical coordinates), the determinants times the quadrature weights, so that sums over quadrature points approximate integrals over the physical cell (exactly when the rule is exact for the pulled back function), the cell volumes; cells with a non-positive Jacobian in a quadrature point are refused. Averages and integrals of quantities in quadrature points are weighted by them. On faces the determinant is the length/area element and the normal is the unit outward normal; cells in a space of a higher dimension are turned isometrically into the lower dimension.", "quantifier": "all numbers of cells, quadrature points and nodes, all coordinates, all differentiable basis functions, dimensions 1-3", "why_tests_cant": "arbitrary coordinates, bases and quadratures", "anchors": ["sfepy/discrete/fem/mappings.py:eval_mapping_data_in_qp", "sfepy/discrete/fem/mappings.py:transform_coors_to_lower_dim", "sfepy/discrete/fem/mappings.py:FEMapping.get_physical_qps", "sfepy/discrete/common/mappings.py:PyCMapping.integrate", "sfepy/discrete/common/mappings.py:PhysicalQPs.get_shape", "sfepy/linalg/utils.py:invs_fast"]}
{"id": "C61", "title": "Scalar, product and load terms give the documented weak forms", "statement": "For every state, coefficient and mapping: the cell matrix of the Laplace, diffusion, surface flux, L2 product (scalar, vector, matrix coefficient, normal), vector-gradient and convection terms is the matrix of the documented bilinear form, the residual is the same form with the state inserted (so it equals the matrix times the degrees of freedom), and the evaluation mode gives the same number. Diffusion and mass matrices are symmetric for symmetric coefficients and positive semidefinite for nonnegative ones, constants are in the kernel of diffusion, the mass matrix sums to the volume, the two versions of a mixed term are transposes. Known exceptions: dw_convect_v_grad_s weights a cell by the determinants of another cell, dw_electric_source uses the coefficient of the first quadrature point of each cell.", "quantifier": "all numbers of cells, nodes, quadrature points, all states, coefficients (constant or varying), dimensions 1-3", "why_tests_cant": "arbitrary meshes, bases, coefficients and states", "anchors": ["sfepy/terms/extmods/terms_diffusion.c:dw_laplace", "sfepy/terms/extmods/terms_diffusion.c:dw_diffusion", "sfepy/terms/extmods/terms_diffusion.c:dw_convect_v_grad_s", "sfepy/terms/extmods/terms_dot.c", "sfepy/terms/extmods/terms_basic.c", "sfepy/terms/extmods/terms_volume.c", "sfepy/terms/extmods/terms_electric.c", "sfepy/terms/terms_dot.py:DotProductTerm.d_dot", "sfepy/discrete/common/extmods/fmfield.c", "sfepy/discrete/common/extmods/geommech.c"]}
{"id": "C62", "title": "Elasticity terms give the documented tensor forms", "statement": "For every displacement, stiffness matrix and mapping: the strain evaluated in quadrature points is the symmetric gradient with doubled shear components; the cell matrix of linear elasticity is the matrix of the integral of D_ijkl e_ij(v) e_kl(u) with D in the documented symmetric storage, the residual is the same with the state inserted and equals the matrix times the degrees of freedom, the evaluation mode gives the same number; the matrix is symmetric for a symmetric D, rigid displacements (translations and infinitesimal rotations) are in its kernel, it is positive semidefinite if D is; the isotropic stiffness gives lambda tr e tr e + 2 mu e:e. Prestress, Cauchy stress and strain, non-symmetric elasticity, shape derivative and wave terms are the documented integrals. Known exception: the fibre prestrain term takes the off-diagonal products d_k d_l once only.", "quantifier": "all numbers of cells, nodes, quadrature points, all states, materials (constant or varying), dimensions 1-3", "why_tests_cant": "arbitrary meshes, bases, anisotropic tensors and displacements", "anchors": ["sfepy/terms/extmods/terms_elastic.c", "sfepy/terms/extmods/form_sdcc.c", "sfepy/terms/terms_elastic.py:LinearElasticTerm", "sfepy/terms/terms_elastic.py:LinearPrestressTerm", "sfepy/terms/terms_elastic.py:LinearStrainFiberTerm", "sfepy/terms/terms_elastic.py:NonsymElasticTerm", "sfepy/terms/terms_elastic.py:SDLinearElasticTerm", "sfepy/terms/terms_elastic.py:ElasticWaveTerm", "sfepy/terms/terms_elastic.py:ElasticWaveCauchyTerm"]}
{"id": "C63", "title": "Flow, coupling and traction terms give the documented forms; convection has the exact Newton matrix", "statement": "For every state, material and mapping: the cell matrices and residuals of the viscous, convective, linearized convective, Stokes, grad-div, PSPG and SUPG terms are those of the documented integrals; the evaluation modes give the same numbers; the viscous matrix is symmetric, positive semidefinite for a nonnegative viscosity; the two Stokes coupling matrices are transposes of each other; the convective residual is quadratic in the state and the cell matrix returned for its Newton iteration is its exact directional derivative in every direction. The Biot terms (symmetric and full materials) and the piezoelectric terms are the documented integrals, the matrices of their two modes are transposes, the residuals are matrix times degrees of freedom. The linear traction is the integral of v.t for every documented material shape. Known exceptions: the piezoelectric term uses the displacement basis for the potential; the evaluation of a full traction tensor uses its transpose; in 1D a traction vector is taken as a pressure.", "quantifier": "all numbers of cells, nodes, quadrature points, all states, materials (constant or varying), dimensions 1-3, all directions of differentiation", "why_tests_cant": "arbitrary meshes, bases, materials and states; derivative in all directions", "anchors": ["sfepy/terms/extmods/terms_navier_stokes.c", "sfepy/terms/extmods/terms_biot.c", "sfepy/terms/extmods/terms_piezo.c", "sfepy/terms/extmods/terms_surface.c:dw_surface_ltr", "sfepy/terms/terms_navier_stokes.py", "sfepy/terms/terms_biot.py:BiotTerm", "sfepy/terms/terms_piezo.py:PiezoCouplingTerm", "sfepy/terms/terms_surface.py:LinearTractionTerm"]}
{"id": "C64", "title": "Hyperelastic residuals are derivatives of stored energies and matrices are derivatives of residuals", "statement": "For every mesh mapping, material and displacement without overturned cells: the residual of the total Lagrangian neo-Hookean, Mooney-Rivlin, bulk penalty, active bulk, bulk pressure, generalized Yeoh (where J^(-2/3) I1 > 3) and Saint Venant-Kirchhoff (symmetric stiffness) terms is the first variation, in every direction, of the integral of the documented stored energy; the cell matrix (all but Saint Venant-Kirchhoff) is the derivative of the residual in every direction and is symmetric; the updated Lagrangian neo-Hookean, bulk penalty and pressure terms evaluated on the mesh moved by the displacement give the same residual and matrix, and isoparametric mappings of the moved mesh satisfy what is needed; in 2D and 3D the undeformed state has zero residual; the stress does not change if the deformed body is rotated; a negative volume ratio anywhere is an error and nothing else is; a matrix evaluation uses the stress of the last residual evaluation. Known exceptions: the Mooney-Rivlin updated Lagrangian tangent is doubled, its square of a tensor is wrong in 3D, the Saint Venant-Kirchhoff tangent has doubled shear rows and the material array is changed in place, in 1D the undeformed state is not free of stress, the cached family data bypass the warp check.", "quantifier": "all numbers of cells, nodes, quadrature points, all displacements without overturned cells, all materials, dimensions 1-3, all directions of differentiation, all histories of evaluations", "why_tests_cant": "derivatives in all directions at all states; arbitrary meshes, bases and materials; unbounded histories", "anchors": ["sfepy/terms/extmods/terms_hyperelastic.c", "sfepy/discrete/common/extmods/geommech.c", "sfepy/terms/terms_hyperelastic_base.py:HyperElasticBase.get_fargs", "sfepy/terms/terms_hyperelastic_base.py:HyperElasticFamilyData.__call__", "sfepy/terms/terms_hyperelastic_tl.py:NeoHookeanTLTerm", "sfepy/terms/terms_hyperelastic_tl.py:MooneyRivlinTLTerm", "sfepy/terms/terms_hyperelastic_tl.py:GenYeohTLTerm", "sfepy/terms/terms_hyperelastic_tl.py:SaintVenantKirchhoffTLTerm", "sfepy/terms/terms_hyperelastic_tl.py:BulkPenaltyTLTerm", "sfepy/terms/terms_hyperelastic_tl.py:BulkPressureTLTerm", "sfepy/terms/terms_hyperelastic_ul.py:NeoHookeanULTerm", "sfepy/terms/terms_hyperelastic_ul.py:MooneyRivlinULTerm"]}
{"id": "C65", "title": "Material data in quadrature points are the current values of the material function", "statement": "After Material.time_update() that renews data (mode 'force', no data yet, or the normal mode for a time-dependent material given by a function) every term of the equations reads by get_data() the values that the material function returns now, row e*n_qp+q in cell e and quadrature point q (one row is repeated in all points), and no keys of other terms remain, whatever the material held before, including records left by a failed update. Stationary materials and user data are left as they are by any number of normal updates; 'update' mode keeps existing data and evaluates missing terms; reset() makes the next update a full one. Materials with constant values give these values after any history of updates, resets and changes of extra arguments; values by regions give in each cell the value of the last region in the dictionary that has the cell, zero elsewhere. Special values are read with any key; reading before the first update is an error.", "quantifier": "all material functions, histories of updates with arbitrary times and equations, modes, regions, numbers of cells and points", "why_tests_cant": "the data are a cache whose content depends on the whole history of updates, modes and equations; tests cover a few sequences of one material", "anchors": ["sfepy/discrete/materials.py: Material.time_update, iter_terms, update_data, set_data, get_data, set_all_data, reset", "sfepy/discrete/functions.py: ConstantFunction, ConstantFunctionByRegion", "sfepy/discrete/common/mappings.py: PhysicalQPs.get_shape"]}
{"id": "C66", "title": "Block meshes tile the block and their subdivision to simplices is exact", "statement": "gen_block_mesh() puts the nodes on the regular grid of the given dimensions and centre, in the order of node numbers (last axis fastest); in every cell the vertices are the corners of one grid box, in the order of the reference cell; the cells are in one-to-one correspondence with the boxes of the grid. Subdivision of quadrilaterals/hexahedra to triangles/tetrahedra (triangulate) keeps the groups of cells, uses only vertices of the divided cell, gives positively oriented simplices of area 1/2, resp. volume 1/6 of each box, that together cover the box, and the subdivision of a block mesh is conforming: neighbour cells divide the common face by the same diagonal. (Of a general hexahedral mesh it need not be.)", "quantifier": "all dimensions, centres, shapes (numbers of nodes per axis), in 1, 2 and 3 dimensions; all cells and all points of a cell", "why_tests_cant": "tests compare a few shapes with stored meshes; covering is a statement about all points of a cell", "anchors": ["sfepy/mesh/mesh_generators.py: get_tensor_product_conn, gen_block_mesh", "sfepy/mesh/mesh_tools.py: elems_q2t, triangulate"]}
{"id": "C67", "title": "Uniform refinement divides every cell exactly and conformingly", "statement": "FEDomain.refine() replaces every cell by 2, 4, 4, 8, 8 cells (lines, triangles, quadrilaterals, tetrahedra, hexahedra): the children of a cell cover exactly the cell, their interiors are disjoint, they have the same orientation and 1/4, resp. 1/8 of its area, resp. volume (simplices), or are the images by the bilinear/trilinear map of the sub-squares/sub-cubes of the reference cell (quadrilaterals, hexahedra). The original nodes keep numbers and coordinates, the group of a child is the group of its parent, child t of cell i has the number nch * i + t. The refined mesh of a conforming mesh is conforming: every facet of a child is either common to exactly one other child of the same cell or is one of the pieces of a facet of the cell, all pieces occur, and the pieces depend only on the facet, not on the cell. All this holds after any number of refinements. Refined triangles are similar to the original ones; tetrahedra are not kept in finitely many classes of shapes.", "quantifier": "all meshes of one cell type with any numbers of cells, numberings and coordinates (any vector space over an ordered field for the geometric part), all cells, children, points, any number of refinement levels", "why_tests_cant": "tests compare stored refined meshes of a few cells and levels; covering, conformity and shape regularity are statements about all points, all numberings of shared facets and all levels", "anchors": ["sfepy/discrete/fem/refine.py: refine_1_2, refine_2_3, refine_2_4, refine_3_4, refine_3_8", "sfepy/discrete/fem/domain.py: FEDomain.refine", "sfepy/discrete/common/extmods/mesh.c: mesh_get_centroids"]}
{"id": "C68", "title": "Merging of meshes and matching of periodic boundaries", "statement": "Adding two meshes keeps the nodes of the first one, identifies each node of the second one that has a near (at most eps) node in the first one with such a node, keeps the others with coordinates and groups, renumbers the cells accordingly and gives a mesh without double nodes; it fails for double nodes in one of the meshes. fix_double_nodes() removes all double nodes in one pass; cells refer to near nodes if no node has near nodes with both smaller and greater numbers (otherwise a vertex number can become -1). Matching of planes for periodic boundary conditions returns two permutations such that, with one common shift along the direction, the matched points are near, if the points are more than twice the tolerance apart; translated sets are always matched, exactly. Matching of lines succeeds iff there is a one-to-one correspondence within the tolerance. Results from the cache are right if there is only one set of coordinates for a key (shape, axis).", "quantifier": "all meshes, coordinates, tolerances, dimensions; all orders of the pairs returned by the KD tree, all orders of ties in sorting; all histories of calls with the cache", "why_tests_cant": "tests merge and match a few regular meshes; the order of the pairs from the KD tree and of ties is not specified, the cache makes the result depend on the history of the process", "anchors": ["sfepy/discrete/fem/mesh.py: find_map, merge_mesh, fix_double_nodes, Mesh.__add__", "sfepy/discrete/fem/periodic.py: match_grid_line, match_plane_by_dir, periodic_cache"]}
{"id": "C69", "title": "Tiled meshes", "statement": "Repeating a mesh n times along an axis (and then along other axes) gives a mesh whose cells are exactly the cells of all the copies in the order of copies; nodes of the matched side of a copy are the nodes of the previous copy, other nodes are new, numbered without gaps and repetition; if matched nodes differ by the period, all vertices of the cell q are the vertices of the cell q modulo the number of cells shifted by the periods times the digits of the copy number; cells and nodes keep their groups; the returned map gives the node of the reference cell.", "quantifier": "all meshes, all numbers of repetitions, axes and dimensions, all matchings that are bijections", "why_tests_cant": "no test of the generator checks the numbering; node numbers depend on masks, running sums and a matching found for each mesh", "anchors": ["sfepy/mesh/mesh_generators.py: tiled_mesh1d, gen_tiled_mesh"]}
{"id": "C70", "title": "Mesh tools: selections, merging of nodes, mirroring, extruding", "statement": "Removing unused vertices, and extraction of cells by cell or vertex groups, keep exactly the selected cells with kinds, groups and order, and exactly the right vertices with coordinates, groups and order. merge_nodes() merges exactly the nodes connected by chains of near nodes, leaves no near nodes, and keeps coordinates if near nodes are the same points. mirror() adds the mirror images of all cells (images are at the other side of the plane in the same distance, the plane is fixed); mirrored cells have the same orientation and volume, nodes in the plane are shared. expand2d() makes layers of nodes above the given nodes; a quadrilateral and a layer give the hexahedron, a triangle and a layer give three tetrahedrons of equal positive volumes that fill the prism without overlaps; neighbours fit together iff the vertices of the common edge are in the same order in both cells.", "quantifier": "all meshes, groups, tolerances, mirror planes, distances and numbers of layers; all orders of pairs of near nodes, all labellings of components, all orders of iteration over a set", "why_tests_cant": "tests run the tools on single meshes and do not check geometry or conformity; whether an extruded mesh conforms depends on the order of vertices in the cells of the input", "anchors": ["sfepy/mesh/mesh_tools.py: get_cell_vertices_only, get_mesh_by_cgroup, get_mesh_by_ngroup, stack_descs, extrude, expand2d, get_unique_coor_map, merge_nodes, mirror"]}
{"id": "C71", "title": "Operators of linear combination boundary conditions", "statement": "The matrix of each LCBC kind restricts the DOFs of its region to exactly the documented set: 'rigid' to all infinitesimal rigid motions of the nodes and nothing else (for four non-coplanar nodes in 3D, three non-collinear in 2D), with independent reduced DOFs; 'rigid2' to rigid motions with the independent node; 'no_penetration' to the displacements with zero normal component in every node; 'normal_direction'/'edge_direction' to multiples of the direction; 'integral_mean_value' to equal DOFs; 'shifted_periodic'/'match_dofs' to u_m = u_s + shift for all matched pairs active on both sides; 'multi_node_combination' to the weighted sums; 'average_force' passes translations exactly and distributes forces without loss. The deviations found (rigid_twist, rotations in average_force, nodal_combination, DOF order in no_penetration, treat_pbcs) are proved.", "quantifier": "all node coordinates, normals, weights, shifts, DOF name selections, matched node lists and reduced DOF vectors", "why_tests_cant": "tests solve single problems and compare a norm; that the range of an operator is exactly the constraint set is a statement about all vectors and all geometries", "anchors": ["sfepy/discrete/fem/lcbc_operators.py: _create_spin_matrix, RigidOperator, Rigid2Operator, AverageForceOperator, RigidTwistOperator, NoPenetrationOperator, NormalDirectionOperator, EdgeDirectionOperator, IntegralMeanValueOperator, NodalLCOperator, ShiftedPeriodicOperator, MatchDOFsOperator, MultiNodeLCOperator, MRLCBCOperator.treat_pbcs"]}
{"id": "C72", "title": "Global LCBC operator and the reduced system", "statement": "For any set of LCBCs of any number of variables in which no DOF is constrained twice and ties read unconstrained DOFs, the vectors mtx_lcbc @ v + vec_lcbc are exactly the vectors of active DOFs that satisfy all the conditions; unconstrained DOFs are copied; every column belongs to exactly one unconstrained or new DOF; with injective operators the reduced DOFs are unique. The reduced residual is zero iff the residual is orthogonal to all variations that satisfy the homogeneous conditions, and the reduced matrix is the derivative of the reduced residual. A tie that reads a constrained DOF silently takes another DOF.", "quantifier": "all numbers and sizes of variables, all operators in all orders, all right-hand sides, all vectors and matrices", "why_tests_cant": "the column numbering depends on the interplay of all conditions of all variables; tests use one or two conditions", "anchors": ["sfepy/discrete/fem/lcbc_operators.py: LCBCOperators.finalize, LCBCOperators.make_global_operator", "sfepy/discrete/variables.py: setup_lcbc_operators, make_full_vec", "sfepy/discrete/evaluate.py: BasicEvaluator.eval_residual, BasicEvaluator.eval_tangent_matrix"]}
{"id": "C73", "title": "Distribution of cells and DOFs among parallel tasks", "statement": "partition_mesh() without metis assigns every cell to one task, in contiguous blocks whose sizes differ at most by one, and rejects more parts than cells. get_inter_facets() lists exactly the facets between two tasks, symmetrically. On a conforming mesh whose tasks all touch another one, create_task_dof_maps() gives every DOF exactly one owner, a task owns only DOFs of its own cells, the PETSc numbering is a bijection onto 0..N-1 that is consecutive in each task in the order of the tasks, and, when the cells around every node are connected by facets, no assertion fails and the overlap cells contain all cells around the owned DOFs. With no interface, task 0 owns everything.", "quantifier": "all meshes, numberings of facets, cell partitions, numbers of tasks and of components, with or without overlaps and expansion", "why_tests_cant": "the ownership depends on the order in which interfaces are processed; tests run a few partitions of one mesh", "anchors": ["sfepy/parallel/parallel.py: partition_mesh, get_inter_facets, create_task_dof_maps, expand_dofs"]}
{"id": "C74", "title": "Distributed assembling equals serial assembling", "statement": "With overlaps, when each task inserts the rows it owns, the PETSc vector is the serial right-hand side in the new numbering for every order of the tasks and every previous content, and the matrix entry is the serial one except that an entry whose new value is exactly zero keeps its previous value; starting from zeros the matrix is the serial one. Without overlaps, the serial vector and matrix are added to the previous content. The preallocation rows of a task are its PETSc range in order, and the preallocated columns contain all nonzeros. Scattering gives each task the values of all its DOFs. On meshes with parts touching only in a vertex the overlapped matrix is silently wrong.", "quantifier": "all meshes, partitions, element vectors and matrices over any commutative monoid, local numberings, stored sparsity patterns, orders of tasks and histories", "why_tests_cant": "all interleavings of tasks and all partitions; comparing a few runs cannot exclude a wrong row", "anchors": ["sfepy/parallel/parallel.py: distribute_field_dofs, get_local_ordering, create_prealloc_data, create_gather_scatter, assemble_rhs_to_petsc, assemble_mtx_to_petsc"]}
{"id": "C75", "title": "Composite PETSc numbering of several fields and its verification", "statement": "For several fields, distribute_fields_dofs() renumbers the DOFs so that all DOFs of all fields are numbered by a bijection onto 0..N-1 (N the total), the DOFs of each task are consecutive, first those of the first field, then of the second, and so on; setup_composite_dofs() returns for each task exactly that range, its length and N; the ranges of the tasks follow each other from 0 to N. A single field keeps its numbering. verify_task_dof_maps() accepts the distributions of C73, and whatever it accepts has one owner for each DOF, returned in the vector, and an injective numbering (but not necessarily within 0..N-1).", "quantifier": "all numbers of fields, tasks, components, all distributions", "why_tests_cant": "numbers of fields and tasks are unbounded; examples use two fields", "anchors": ["sfepy/parallel/parallel.py: distribute_fields_dofs, get_sizes, get_composite_sizes, setup_composite_dofs, verify_task_dof_maps"]}
{"id": "C76", "title": "Bernstein basis and Bezier extraction reproduce the B-splines", "statement": "eval_bernstein_basis(x, degree) returns the values C(n,k) x^k (1-x)^(n-k) and the derivatives of the Bernstein polynomials, summing to 1 and 0. For a clamped nondecreasing knot vector, compute_bezier_extraction_1d() returns one operator for each nonempty knot span, and on that span the operator times the Bernstein basis is the Cox-de Boor B-splines that do not vanish there, whatever the multiplicities of the inner knots are.", "quantifier": "all degrees, points, clamped knot vectors of any length and multiplicities, over any ordered field", "why_tests_cant": "knot vectors, multiplicities and degrees are unbounded; the in-place column updates are easy to get wrong for a particular multiplicity", "anchors": ["sfepy/discrete/iga/iga.py: eval_bernstein_basis, compute_bezier_extraction_1d, compute_bezier_extraction", "sfepy/discrete/iga/extmods/nurbs.c: eval_bernstein_basis"]}
{"id": "C77", "title": "NURBS patches: evaluation, connectivities, Bezier mesh, boundary", "statement": "For a tensor-product patch with clamped knots: create_connectivity() numbers the basis functions of each element by their global B-spline indices and counts all functions; the NURBS basis evaluated in an element sums to one, its gradients to zero, the gradients satisfy the chain rule and reproduce the coordinates; the values are those of the global rational B-splines and all functions outside the element connectivity vanish there. The Bezier control points and weights do not depend on the order of the elements and describe the same geometry (when no inner knot has multiplicity degree + 1). The topology connectivity gives the grid vertices of the elements in the FE order, the box regions are exactly the vertices of the sides of the patch, facets match the facet axes, boundary quadrature points lie on their facets and on a side only the functions of that side are nonzero.", "quantifier": "all dimensions (1, 2, 3 where the code distinguishes), degrees, knot vectors, weights, control points, elements and points", "why_tests_cant": "index arithmetic over arbitrary grids, degrees and multiplicities; a few patches cannot cover them", "anchors": ["sfepy/discrete/iga/iga.py: create_connectivity, combine_bezier_extraction, compute_bezier_control, get_bezier_topology, get_patch_box_regions, get_facet_axes, create_boundary_qp, get_bezier_element_entities, eval_nurbs_basis_tp"]}
{"id": "C78", "title": "Equations mean left-hand side minus right-hand side; term arithmetic", "statement": "The text of an equation (terms with optional signs or numeric multipliers, optionally '=' and terms or 0) is read as the list of its terms with the written coefficients on the left-hand side and the opposite ones on the right-hand side, so the equation means lhs - rhs; exactly such texts are accepted. Python expressions built from Term and Terms objects with +, -, *, unary signs mean the corresponding linear combination when no Terms object is used twice; adding or subtracting one Term to/from a Terms object changes this object in place, all other operations change no operand.", "quantifier": "all token sequences, all multipliers and values of their eval(), all expressions over any set of term lists", "why_tests_cant": "infinitely many texts and expressions; aliasing of term lists appears only in particular combinations", "anchors": ["sfepy/discrete/parse_equations.py: create_bnf, collect_term, rhs", "sfepy/discrete/equations.py: parse_definition", "sfepy/terms/terms.py: Terms, Term arithmetic", "sfepy/base/base.py: Container, Struct.copy"]}
{"id": "C79", "title": "Evaluation of equations: residuals, tangent matrices, parts, complex arguments", "statement": "The residual is the sum of the signed contributions of all selected terms of all equations, each with its variables in the written history steps and time derivatives; the tangent matrix (with matrices of dynamic connectivities included) is the derivative of the residual with respect to the current unknown values, including the 1/dt factor of du/dt terms; blocks and by-terms parts are the restrictions to equations/terms and sum up to the whole, when the names of terms in an equation are distinct; 'eval' mode sums the signed terms; a term function linear in its one or two complex arguments is evaluated as its complex-linear extension, more complex arguments are refused.", "quantifier": "all equations, terms, data, time steps, directions, selections, numbers and positions of complex arguments", "why_tests_cant": "consistency of residual and tangent must hold for all terms, states and combinations of history steps and time derivatives", "anchors": ["sfepy/discrete/equations.py: Equations.evaluate, eval_residuals, eval_tangent_matrices, Equation.evaluate", "sfepy/terms/terms.py: Term.setup_formal_args, get_vector, evaluate, assemble_to, get_state_variables, eval_complex, split_complex_args", "sfepy/discrete/variables.py: Variable.__call__"]}
{"id": "C80", "title": "DG moment limiters", "statement": "minmod() and minmod_seq() return, entry by entry, the argument nearest to zero if all arguments have the same strict sign and zero otherwise. Calling the 1D or 2D moment limiter on a DOF vector never changes the cell means, never enlarges a moment or flips its sign, leaves the boundary cells alone, and replaces a moment in a cell exactly when all higher moments of the cell had to be replaced too, by the minmod of the moment and the (scaled) differences of the next lower moments of the input in the neighbour cells. The composed limiter applies the limiter of each field to the DOFs of the field.", "quantifier": "all real arguments, orders, numbers of cells, DOF vectors, neighbour tables, lists of fields", "why_tests_cant": "the limiter acts on arbitrary discontinuous data in a data-dependent order; a bound on all moments needs a proof for every order and mesh", "anchors": ["sfepy/discrete/dg/limiters.py: minmod, minmod_seq, MomentLimiter1D, MomentLimiter2D, ComposedLimiter"]}
{"id": "C81", "title": "DG multi-stage time stepping", "statement": "A run of the Euler DG solver returns the iterated forward Euler step (with limiting) of M p' + V(p) + F(p) = 0 and reports every step once with its time. A run of the TVD Runge-Kutta solver returns the iterated documented three-stage scheme if no term reads the history of the state, the scheme is a convex combination of Euler steps (every convex set kept by the limited Euler steps is kept) and matches the exponential to the third order for linear problems; with terms reading the previous step the coded scheme is only of first order and reports every step twice at a shifted time. The RK4 solver is the classical scheme applied to p' = -L(p) - 2p.", "quantifier": "all problems (linear mass operator, any volume and flux operators, limiters), time steps, numbers of steps, initial vectors", "why_tests_cant": "a run is a history of callbacks and state changes of unbounded length; orders of accuracy concern all operators", "anchors": ["sfepy/solvers/ts_dg_solvers.py: DGMultiStageTSS, EulerStepSolver, TVDRK3StepSolver, RK4StepSolver", "sfepy/discrete/problem.py: Problem.solve"]}
{"id": "C82", "title": "Enumeration of the DG basis functions", "statement": "iter_by_order() yields each multi-index of total degree at most the order exactly once in 1D, 2D and 3D (all indices up to the order for extended 2D bases), get_n_el_nod() is their number, lower orders are prefixes of higher ones (hierarchical basis), and lower neighbours of an index precede it. In 3D the extended enumeration does not exist: fewer indices than get_n_el_nod() are given.", "quantifier": "all orders", "why_tests_cant": "holds for every order", "anchors": ["sfepy/discrete/dg/poly_spaces.py: iter_by_order, get_n_el_nod"]}
{"id": "C83", "title": "DG polynomial bases and their gradients", "statement": "The explicit Legendre function of every order is the shifted Legendre polynomial (Rodrigues formula) and its explicit derivatives of all orders are its derivatives; the gradients of the tensor product bases (any dimension) and of the triangle basis (off the collapsed vertex) are the derivatives of their values; the coefficient/exponent tables written for gmsh describe the same functions.", "quantifier": "all orders, multi-indices, dimensions (tensor), points", "why_tests_cant": "identities of functions in all points and orders", "anchors": ["sfepy/discrete/dg/poly_spaces.py: LegendrePolySpace, LegendreTensorProductPolySpace, LegendreSimplexPolySpace"]}
{"id": "C84", "title": "DG flux terms: conservation, upwinding, tangents, penalty energy", "statement": "On a conforming mesh the Lax-Friedrichs fluxes of the advection term (with the same velocity in both cells) and of the nonlinear term through an inner facet are opposite from the two sides, so the sum of the residuals tested by constants has boundary contributions only; alpha = 0 gives the upwind flux; equal values on both sides give the exact normal flux; the assembled matrix of the advection and interior penalty terms is the derivative of the residual; the penalty of a state tested by itself is half of the squared jumps over inner facets and never negative; the diffusion flux is n.D grad p for diagonal D.", "quantifier": "all meshes, orders, states, velocities, flux functions, quadratures", "why_tests_cant": "conservation must hold for every mesh and state", "anchors": ["sfepy/terms/terms_dg.py: AdvectionDGFluxTerm, NonlinearHyperbolicDGFluxTerm, DiffusionInteriorPenaltyTerm, DiffusionDGFluxTerm", "sfepy/discrete/dg/fields.py: get_both_facet_state_vals, get_both_facet_basis_vals"]}
{"id": "C85", "title": "DG cell neighbours", "statement": "get_facet_neighbor_idx() gives, for every facet of every cell of a mesh with at most two cells per facet, the other cell with this facet and its local facet number, and -1 exactly for boundary facets; the relation is mutual. DG periodic conditions on distinct boundary facets make the paired facets neighbours of each other, change nothing else, and keep the relation mutual.", "quantifier": "all meshes, all periodic pairings of distinct facets", "why_tests_cant": "ranges over all connectivities", "anchors": ["sfepy/discrete/dg/fields.py: get_facet_neighbor_idx, _set_dg_periodic_facet_neighbours"]}
{"id": "C86", "title": "Multilinear terms: the built einsum expressions are the documented forms", "statement": "For every multilinear term expression with well formed letters (materials with fixed or letter components, variables with values, gradients i.j, symmetric s(i:j)->I and nonsymmetric v(i.j)->I gradients in vector storage), the einsum expression and operands made by the expression builder evaluate to: the integral over the cell of the product of the arguments summed over repeated letters, with the virtual variable replaced by each basis function (weak/eval modes); the same divided by the cell volume (el_avg without a virtual variable); the point values (qp). With diff_var, they evaluate to the sum over the occurrences of the variable of the forms with that occurrence replaced by the basis functions. The output axes are the cell (and point), component and node of the virtual variable, component and node of the differentiated variable, and the free letters in alphabetic order.", "quantifier": "all term expressions, modes, meshes (numbers of cells, points, nodes), dimensions, data", "why_tests_cant": "the expression language is unbounded; tests evaluate a few terms on a few meshes", "anchors": ["sfepy/terms/terms_multilinear.py: ExpressionBuilder, get_einsum_ops, find_free_indices, ETermBase.build_expression"]}
{"id": "C87", "title": "Multilinear terms: consistent linearization", "statement": "For every multilinear term expression, the array evaluated with diff_var, contracted with any increment of the DOFs of the variable, is the directional derivative of the residual, also when the variable occurs several times in the expression (without modifiers and with materials before it).", "quantifier": "all term expressions, states, increments", "why_tests_cant": "ranges over all expressions and all states", "anchors": ["sfepy/terms/terms_multilinear.py: ExpressionBuilder.add_state_arg, build"]}
{"id": "C88", "title": "Multilinear terms: layouts and loop backends do not change the results", "statement": "For every permutation of the layout letters the transposed operands and subscripts give the same arrays as the default layout, and the evaluation does not fail (except in the element average mode without a virtual variable); the backends looping over cells give the same arrays in all modes, the backends looping over quadrature points in all integrating modes.", "quantifier": "all expressions, layouts, operands", "why_tests_cant": "720 layouts times all expressions and shapes", "anchors": ["sfepy/terms/terms_multilinear.py: ExpressionBuilder.apply_layout, transform, get_slice_ops, ETermBase.make_function"]}
{"id": "C89", "title": "Concrete multilinear terms compute the documented integrals", "statement": "The terms de_integrate, de_laplace, de_dot, de_s_dot_mgrad_s, de_non_penetration_p, de_div_grad, de_stokes_traction, de_convect, de_lin_convect, de_div, de_grad, de_stokes, de_lin_elastic, de_cauchy_stress, de_nonsym_elastic, de_diffusion, de_surface_ltr, de_surface_flux, ev_surface_flux2, de_surface_piezo_flux, ev_surface_piezo_flux give the integrals of their documentation, for all admissible shapes of the material and, where the term allows, both for virtual and for parameter variables; the elastic term is the contraction of the full tensors D_ijkl e_ij(v) e_kl(u).", "quantifier": "all data, meshes, dimensions, modes", "why_tests_cant": "equality of functions of arbitrary data", "anchors": ["sfepy/terms/terms_multilinear.py: E*Term.get_function"]}
{"id": "C90", "title": "Built-in quadrature rules integrate polynomials of the requested order", "statement": "For the line, triangle and tetrahedron, QuadraturePoints.from_table(geometry, order) succeeds for every order, its points lie in the reference element, and the sum of weights times values agrees with the integral over the reference element, for every polynomial of total degree at most the order, up to 2e-14 times the sum of absolute values of its coefficients (exactly, beyond the tabulated orders). For the square and cube the same holds for polynomials of degree at most the order in each variable up to order 47 (with full_order: of total degree at most the order up to order 5), for the wedge up to order 3, and for the point geometry.", "quantifier": "all geometries, all orders, all real polynomials of the stated degree", "why_tests_cant": "There are infinitely many polynomials and orders; a test checks some monomials at some orders; the tables contain thousands of hand-typed digits.", "anchors": ["sfepy/discrete/quadratures.py:QuadraturePoints.from_table", "sfepy/discrete/quadratures.py:quadrature_tables", "sfepy/discrete/integrals.py:Integral.get_qp"]}
{"id": "C91", "title": "Simplex cubature is exact in every dimension and order", "statement": "For every dimension n >= 1 and every s >= 0, get_simplex_cubature(s, n) succeeds, reports exactness 2s+1, and its rule mapped to the unit simplex as from_table does integrates every polynomial of total degree at most 2s+1 exactly, with all points inside the simplex; its helper enumeration visits each multi-index of given sum exactly once, and its extended Euclid and fraction simplification are correct for all integers.", "quantifier": "all dimensions, all orders s, all real polynomials of degree at most 2s+1; all integers", "why_tests_cant": "Infinitely many dimensions, orders and polynomials; the exactness is a combinatorial identity.", "anchors": ["sfepy/discrete/simplex_cubature.py:get_simplex_cubature", "sfepy/discrete/simplex_cubature.py:generate_decreasing_nonnegative_tuples_summing_to", "sfepy/discrete/simplex_cubature.py:_extended_euclidean"]}
{"id": "C92", "title": "Construction, selection and caching of quadrature rules", "statement": "The order selected from a table is the least available one not below the request (the largest when none is); rules given on [a,b]^n are mapped to [0,1]^n with weights scaled by the volume ratio; the symmetric completion of a line rule is mirror symmetric and keeps a central point single; tensor product rules apply the line rule in each variable; Integral.get_qp returns the rule of its own order for the geometry asked whatever was asked before; Integrals.get(order) returns an integral of that order whatever was asked before, without touching existing ones. full_order above the table is an error, and a wedge with line order above 3 silently gets a cube rule.", "quantifier": "all geometries, orders, rules, bounds, functions and histories of requests", "why_tests_cant": "Rules, bounds and request histories are unbounded.", "anchors": ["sfepy/discrete/quadratures.py:get_actual_order", "sfepy/discrete/quadratures.py:QuadraturePoints.__init__", "sfepy/discrete/integrals.py:Integrals.get", "sfepy/discrete/integrals.py:Integral.get_qp"]}
{"id": "C93", "title": "Barycentric coordinates, inverse mapping and measures of simplices", "statement": "For every nondegenerate simplex in any dimension, the barycentric coordinates returned for a point are the unique numbers with unit sum that reproduce the point (equal to the ratios of volumes), a degenerate simplex is reported; points_in_simplex flags exactly the points with all coordinates in (-eps, 1+eps); the inverse simplex mapping maps a convex combination of vertices to the same combination of reference vertices; the Newton iteration of general cells stops only with a small residual or after all its exact steps; volumes are determinants times the volume of the unit simplex and face areas are the true areas.", "quantifier": "all dimensions, simplices, points, tolerances, functions and iteration limits", "why_tests_cant": "Simplices, points and dimensions are infinite families.", "anchors": ["sfepy/linalg/geometry.py:barycentric_coors", "sfepy/linalg/geometry.py:points_in_simplex", "sfepy/linalg/geometry.py:inverse_element_mapping", "sfepy/linalg/geometry.py:get_simplex_volumes", "sfepy/linalg/geometry.py:get_face_areas", "sfepy/linalg/utils.py:mini_newton"]}
{"id": "C94", "title": "Circumcentres of simplices", "statement": "get_simplex_circumcentres returns, for every nondegenerate edge, triangle and tetrahedron in a space of any dimension, the point of its affine hull with equal distances from all the vertices; with force_inside_eps the result is moved towards the barycentre just so that all its barycentric coordinates are at least the given limit (capped at 0.9/n), and is not moved when they already are.", "quantifier": "all nondegenerate simplices, all eps", "why_tests_cant": "Simplices are an infinite family; obtuse ones need the general formula.", "anchors": ["sfepy/linalg/geometry.py:get_simplex_circumcentres"]}
{"id": "C95", "title": "Points in polygons", "statement": "flag_points_in_polygon2d flags a point if and only if the ray to the right crosses an odd number of sides; the result depends neither on the starting vertex nor on the orientation; cutting a polygon along a segment splits the flagged points; flagged points are in the convex hull of the vertices; all points strictly inside a strictly convex polygon are flagged.", "quantifier": "all polygons (any number of vertices, also self-intersecting) and points", "why_tests_cant": "Polygons and points are infinite families, with boundary cases at the levels of the vertices.", "anchors": ["sfepy/linalg/geometry.py:flag_points_in_polygon2d"]}
{"id": "C96", "title": "Directions, selections of points and contact bodies", "statement": "get_perpendiculars gives orthonormal vectors for every nonzero vector, rotation_matrix2d rotations by degrees; tube and ball selections return exactly the indices of the points given by the documented conditions (but the outside selections with two radii are empty, against the documentation); a contact plane is created for every nonzero normal, its distance is the signed distance and its mask the point-in-polygon test of orthogonal projections; a contact sphere's penetration, normals and derivatives are the exact ones for points farther than 1e-8 from the centre (otherwise the normals fail or are wrong).", "quantifier": "all vectors, angles, point sets, radii, planes, spheres", "why_tests_cant": "Continuous families of inputs with exceptional directions.", "anchors": ["sfepy/linalg/geometry.py:get_perpendiculars", "sfepy/linalg/geometry.py:rotation_matrix2d", "sfepy/linalg/geometry.py:get_coors_in_tube", "sfepy/linalg/geometry.py:get_coors_in_ball", "sfepy/mechanics/contact_bodies.py:ContactPlane", "sfepy/mechanics/contact_bodies.py:ContactSphere"]}
{"id": "C97", "title": "Quadratic eigenvalue problems are linearized correctly", "statement": "If the configured linear eigensolver returns eigenpairs, every pair (w, x) returned by the quadratic eigenvalue solver satisfies (w^2 M + w D + K) x = 0, for the companion and the Cholesky linearizations and the normal and inverted modes; x is nonzero except for the companion method with w = 0, where it is always the zero vector; an infinite value is returned only in the inverted mode and only for singular M; conversely every solution of the quadratic problem is an eigenpair of the linearized one, and the characteristic polynomials agree up to a sign.", "quantifier": "all matrices M, D, K over any field, all permutations and factors of the Cholesky factorization, all eigensolvers", "why_tests_cant": "The claim is about all matrices, including singular ones, and all eigenvalue solvers.", "anchors": ["sfepy/solvers/qeigen.py:LQuadraticEVPSolver"]}
{"id": "C98", "title": "Units, prefixes and unit multipliers are consistent", "statement": "A unit name is split into the longest known prefix leaving a nonempty rest and that rest; the prefix chosen for a coefficient, times the multiplier returned with it, is the coefficient, and it is the smallest allowed prefix not below bias times the coefficient; the coefficients of density, force, stress, energy and thermal expandability in a unit set are the products of powers of the base units given by the physical dimensions; the multipliers of apply_unit_multipliers are those of the physical dimensions, so that dimensionless products of powers do not depend on the units; parameters are converted one by one, and a parameter without a kind is an error.", "quantifier": "all names, tables of prefixes, coefficients, unit sets, multipliers, values", "why_tests_cant": "All names, coefficients and unit sets.", "anchors": ["sfepy/mechanics/units.py:Unit", "sfepy/mechanics/units.py:Quantity", "sfepy/mechanics/units.py:apply_unit_multipliers", "sfepy/mechanics/units.py:apply_units_to_pars"]}
{"id": "C99", "title": "Serendipity basis is the superlinear polynomial basis with exact gradients", "statement": "For quadrilaterals and hexahedra of order 1, 2 and 3, the serendipity element has 4*order or 8 + 12*(order - 1) functions; each is one at its own node (vertices, then equally spaced nodes along the edges, in the order the field numbering uses) and zero at all others; the gradient formulas are the exact partial derivatives at every point; the functions are polynomials of superlinear degree at most the order, reproduce every such polynomial from its node values, and sum to one at every point.", "quantifier": "both cell shapes, all supported orders, all points (in any field of characteristic zero, the reals for derivatives), all polynomials of superlinear degree up to the order", "why_tests_cant": "the tests sample some points with random DOFs; the identities must hold at every point and for every polynomial, and the 2 x 90 hand-generated formulas are only as good as the worst of them", "anchors": ["sfepy/discrete/fem/_serendipity.py: all_bfs", "sfepy/discrete/fem/poly_spaces.py: SerendipityTensorProductPolySpace._define_nodes, _eval_basis"]}
{"id": "C100", "title": "Serendipity fields are conforming and continuous", "statement": "On every conforming mesh of quadrilaterals or hexahedra (with arbitrary mutual orientations of the cells), two local nodes of two cells get the same DOF number iff they are in the same place of the mesh, and for any DOF vector the values of the field computed from two cells sharing a point agree at that point, for all the supported orders.", "quantifier": "all conforming meshes, orientations, orders 1-3, DOF vectors, pairs of cells and common points", "why_tests_cant": "a mesh has exponentially many combinations of relative orientations of edges and faces; tests use a handful of meshes with consistent orientations", "anchors": ["sfepy/discrete/fem/poly_spaces.py: SerendipityTensorProductPolySpace", "sfepy/discrete/fem/_serendipity.py: all_bfs", "sfepy/discrete/fem/fields_nodal.py: H1NodalMixin", "sfepy/discrete/fem/fields_base.py: FEField._setup_global_basis"]}
{"id": "C101", "title": "Lobatto shape functions: exact derivatives, kernels, orthogonality, completeness", "statement": "For every order k up to 10 and every point, the tabulated derivative of the k-th Lobatto, kernel and Legendre function is its exact derivative; the first two Lobatto functions are the linear hat functions, the others vanish at both ends, have the parity of their order and equal the product of the hat functions and the kernel; the Legendre functions satisfy Bonnet's recurrence and are orthogonal; the derivatives of the Lobatto functions are the normalized Legendre functions, hence orthonormal in L2; the functions up to the order o span all polynomials of degree up to o.", "quantifier": "all real points, all orders 0..10 and pairs of orders, all polynomials", "why_tests_cant": "an identity of generated polynomial tables with square roots must hold at every real point and for every polynomial, tests sample a few points", "anchors": ["sfepy/discrete/fem/extmods/lobatto1d.c: lobatto, d_lobatto, kernel, d_kernel, legendre, d_legendre"]}
{"id": "C102", "title": "Hierarchical element: the nodes are all multi-indices, gradients are exact", "statement": "The Lobatto tensor product element of the order o on quadrilaterals and hexahedra has (o + 1)^dim functions whose indices are all multi-indices with items up to o, each once; the functions span all polynomials of degree up to o in each coordinate; the evaluated gradient is the gradient of the evaluated function for reference elements of unit size (the factor 2 ignores the actual size, a finding).", "quantifier": "all orders (1..10 for the span), multi-indices, points and directions", "why_tests_cant": "it quantifies over all orders, indices, points and polynomials", "anchors": ["sfepy/discrete/fem/poly_spaces.py: LobattoTensorProductPolySpace", "sfepy/discrete/fem/extmods/lobatto.c: eval_lobatto_tensor_product"]}
{"id": "C103", "title": "Hierarchical fields are conforming and continuous", "statement": "On every conforming mesh of quadrilaterals or hexahedra with arbitrary mutual orientations of the cells, the hierarchical field gives two local functions of two cells the same DOF iff they belong to the same vertex, edge, face or cell and have the same index, the DOF numbers are between 0 and their count (given by the numbers of entities), and, thanks to the orientation items (signs and swapped axes) of the edge and face functions, for any DOF vector the values computed from two cells sharing a point agree, for all orders 1..10.", "quantifier": "all conforming meshes, all relative orientations of edges and faces, orders 1..10, DOF vectors, pairs of cells and common points", "why_tests_cant": "the relative orientations of quadrilateral faces combined with the parities of both indices give hundreds of cases over unboundedly many meshes, tests cover a few meshes", "anchors": ["sfepy/discrete/fem/fields_hierarchic.py: H1HierarchicVolumeField", "sfepy/discrete/fem/poly_spaces.py: LobattoTensorProductPolySpace._eval_basis", "sfepy/discrete/fem/utils.py: prepare_translate"]}
{"id": "C104", "title": "Bernstein simplex elements: unity, positivity, polynomials, gradients", "statement": "On segments, triangles and tetrahedra, for every order >= 1, the Bernstein basis functions sum to one in every point, lie in [0, 1] in the points of the element, have the value one in their vertex and zero in the other vertices (vertex functions), span all polynomials of total degree up to the order, and the evaluated gradient is the gradient of the evaluated function in every point where it is a number; it is not a number exactly in the points having a zero barycentric coordinate with the zero exponent (finding).", "quantifier": "all orders, points, nodes, polynomials", "why_tests_cant": "it quantifies over all orders, points and polynomials; the singular points are a set of measure zero", "anchors": ["sfepy/discrete/fem/poly_spaces.py: BernsteinSimplexPolySpace"]}
{"id": "C105", "title": "Bernstein tensor product elements: unity, positivity, polynomials, gradients", "statement": "On segments, quadrilaterals and hexahedra, for every order >= 1, the Bernstein tensor product basis functions sum to one, lie in [0, 1] in the points of the element, span all polynomials of degree up to the order in each coordinate, and the evaluated gradients are the gradients of the evaluated functions in all points.", "quantifier": "all orders, points, nodes, polynomials", "why_tests_cant": "it quantifies over all orders, points and polynomials", "anchors": ["sfepy/discrete/fem/poly_spaces.py: BernsteinTensorProductPolySpace", "sfepy/discrete/iga/iga.py: eval_bernstein_basis"]}
{"id": "C106", "title": "Bernstein fields are continuous", "statement": "On every conforming mesh of simplices or of tensor product cells with arbitrary mutual orientations, for any DOF vector, the values of a Bernstein field of any order computed from two cells sharing a point agree.", "quantifier": "all conforming meshes, orientations, orders, DOF vectors, pairs of cells and common points", "why_tests_cant": "unboundedly many meshes and orders; tests cover a few meshes", "anchors": ["sfepy/discrete/fem/poly_spaces.py: BernsteinSimplexPolySpace, BernsteinTensorProductPolySpace", "sfepy/discrete/fem/fields_positive.py", "sfepy/discrete/fem/fields_nodal.py: _setup_edge_dofs, _setup_face_dofs"]}
{"id": "C107", "title": "Spectral elements: nodal basis, interpolation, gradients", "statement": "For any distinct 1D nodes and every order >= 1, each spectral element function is one in its node and zero in the other nodes, the functions sum to one, a polynomial of degree up to the order in each variable equals the combination of the functions with its nodal values, and the evaluated gradients are the gradients of the evaluated functions.", "quantifier": "all orders, distinct nodes, points, polynomials", "why_tests_cant": "it quantifies over all orders, node sets, points and polynomials", "anchors": ["sfepy/discrete/fem/poly_spaces.py: SEMTensorProductPolySpace, eval_lagrange1d_basis"]}
{"id": "C108", "title": "Legendre-Gauss-Lobatto nodes: symmetric, exact quadrature, diagonal mass matrix", "statement": "After any number of the iterations the computed nodes are symmetric with the ends of the interval included and the weights are symmetric; nodes that the iteration does not change are zeros of (1 - x^2) P_p' and with the weights integrate every polynomial of degree up to 2 p - 1 exactly, the tensor product nodes and weights integrate every polynomial of degree up to 2 p - 1 in each variable over the reference element exactly, and the mass matrix integrated in the nodes is diagonal with the weights of the nodes.", "quantifier": "all orders, numbers of iterations, polynomials, pairs of nodes", "why_tests_cant": "it quantifies over all orders and polynomials; numerical tests check a few orders", "anchors": ["sfepy/discrete/fem/poly_spaces.py: get_lgl_nodes, SEMTensorProductPolySpace._define_nodes"]}
{"id": "C109", "title": "Spectral element fields are continuous", "statement": "On every conforming mesh of segments, quadrilaterals or hexahedra with arbitrary mutual orientations, for any DOF vector, the values of a spectral element field of any order computed from two cells sharing a point agree, with the nodes computed by the code after any number of iterations, if they are distinct.", "quantifier": "all conforming meshes, orientations, orders, iteration counts, DOF vectors, pairs of cells and common points", "why_tests_cant": "unboundedly many meshes and orders", "anchors": ["sfepy/discrete/fem/poly_spaces.py: SEMTensorProductPolySpace", "sfepy/discrete/fem/fields_nodal.py: H1SEMVolumeField"]}
{"id": "C110", "title": "Point location: status, cell and candidates of the general strategy", "statement": "For every point the candidate cells include each cell whose vertices have the point in their convex hull; the status is 5 exactly when there are no candidates and 0 exactly when some candidate contains the point up to the tolerance, in which case the first such candidate and the coordinates in it are returned; otherwise the returned cell is a closest candidate, the status is 4, 1, 2 or 3 as documented (the coordinates then are, against the documentation, those of the last candidate); points with a status above 1 evaluate to zero.", "quantifier": "all points, meshes, centroids, candidate lists, tolerances, extrapolation settings", "why_tests_cant": "it ranges over all meshes and points, including ones on facets and outside", "anchors": ["sfepy/discrete/common/extmods/refcoors.c: refc_find_ref_coors", "sfepy/discrete/common/global_interp.py: get_potential_cells, get_ref_coors_general", "sfepy/discrete/common/extmods/crefcoors.pyx: evaluate_in_rc"]}
{"id": "C111", "title": "Point location and evaluation on simplex meshes", "statement": "On every mesh of non-degenerate segments, triangles or tetrahedra each point of a cell is located with status 0; a point with status 0 is the affine combination of the vertices of the returned cell with the returned coordinates, the negative coefficients being below the square root of the tolerance; a Lagrange field of order k interpolating a polynomial of degree at most k is evaluated in it exactly.", "quantifier": "all simplex meshes, points, orders and polynomials", "why_tests_cant": "unboundedly many meshes, points, orders and polynomials", "anchors": ["sfepy/discrete/fem/extmods/lagrange.c: get_xi_dist, get_xi_simplex", "sfepy/discrete/common/extmods/geommech.c: geme_invert3x3, geme_invert4x4", "sfepy/discrete/common/global_interp.py: get_ref_coors_general"]}
{"id": "C112", "title": "Point location and evaluation on quadrilateral and hexahedral meshes", "statement": "When a point is located with status 0, the returned coordinates lie in the reference cell up to the square root of the tolerance and the multilinear map of the returned cell takes them to the point up to the tolerance of the Newton iteration; every cell that is the image of a reference point mapped to the given point is a candidate; on meshes of parallelograms and parallelepipeds every point of a cell is located with status 0; a Lagrange field equal in the cell to a polynomial of the reference coordinates of degree at most the order in each is evaluated to its value in the returned coordinates.", "quantifier": "all meshes, points, iteration limits (at least 2), tolerances, orders, polynomials", "why_tests_cant": "unboundedly many cells and points; the iteration depends on the data", "anchors": ["sfepy/discrete/fem/extmods/lagrange.c: get_xi_tensor, get_xi_dist", "sfepy/discrete/common/global_interp.py: get_potential_cells"]}
{"id": "C113", "title": "Point location by walking in convex meshes", "statement": "When the convex strategy returns, the cell is reachable from the initial one over facets, the coordinates are those of the point in this cell and the status is 0 exactly when the cell contains the point up to the tolerance; in a cell that contains the point, if the point is not (up to 1e-10) its centroid, the walk stops; a centroid of a cell whose last facet leads to a neighbour the walk returns from is never found, for any number of passes.", "quantifier": "all meshes of cells with planar facets, points, initial cells, numbers of passes", "why_tests_cant": "the length of the walk is unbounded and depends on the mesh", "anchors": ["sfepy/discrete/common/extmods/refcoors.c: refc_find_ref_coors_convex, _intersect_line_plane", "sfepy/discrete/common/global_interp.py: get_ref_coors_convex"]}
{"id": "C114", "title": "Fading-memory terms: exponential and full kernels", "statement": "The exponential-kernel terms evaluate the residual of the current strain plus the sum over all finished steps of the decay to the age of the step times the strain of the last evaluation in the step, however many times the term is evaluated in a step; the decay is that of the first evaluation. With no history, or one of length 0, of the state variable there is no memory at all. The full-kernel terms give the sum over the kernel items of the item applied to the state of that age, states older than the first step being replaced by the first one; in step 0 a kernel with three or more items raises ValueError. For a geometric kernel both agree up to exactly the truncated items and those older than the first step.", "quantifier": "all numbers of steps, evaluations in a step, kernels, decays, histories of at least the kernel length", "why_tests_cant": "the memory accumulates over an unbounded history of steps and of evaluations in each step", "anchors": ["sfepy/terms/terms_th.py: THTerm.eval_real, ETHTerm.get_eth_data, advance_eth_data", "sfepy/discrete/variables.py: FieldVariable.advance, Variable.__call__", "sfepy/terms/terms_elastic.py: LinearElasticTHTerm, LinearElasticETHTerm", "sfepy/terms/terms_biot.py", "sfepy/terms/terms_dot.py"]}
{"id": "C115", "title": "Reused factorizations belong to the given matrix", "statement": "With use_mtx_digest, every call of a direct solver (SciPy, Cholesky, MUMPS) returns the solution of the system with the matrix given to that call, in every history of calls with and without presolving, presolve() and clear(), matrices modified in place and objects at reused addresses included, when the matrices are csr_array (SHA1 collisions excluded; the concatenated bytes determine the matrix). Matrices of other formats are always factorized again - but leave the digest unchanged, so that the csr matrix used before them is then solved with the factorization of the other one. Without digests the first matrix after clear() is used; a factorization without a digest makes all later digest calls raise TypeError. The multigrid solver uses the set-up of the given matrix unless the reuse is forced.", "quantifier": "all histories of operations, matrices, right-hand sides, object identities", "why_tests_cant": "the cache state depends on the whole history of calls and on object addresses", "anchors": ["sfepy/solvers/ls.py: _get_cs_matrix_hash, _is_new_matrix, ScipyDirect, CholeskySolver, MUMPSSolver, PyAMGSolver", "sfepy/solvers/solvers.py: LinearSolver"]}
{"id": "C116", "title": "Symmetry detection of the MUMPS solver", "statement": "For a matrix in coordinate format without duplicates, with a symmetric sparsity pattern and an off-diagonal item, the symmetry test is true exactly when all opposite items differ by less than the tolerance times the absolute value of the maximum of the items above the diagonal, for every order of the items. A diagonal matrix raises ValueError; the positions are not compared, so that a matrix with one item above and one equal item below the diagonal at unrelated positions is found symmetric; with mumpspy the symmetry flag of the first matrix is used for all later ones.", "quantifier": "all matrices, orders of items, tolerances", "why_tests_cant": "ranges over all sparsity patterns, values and item orders", "anchors": ["sfepy/solvers/ls.py: MUMPSSolver.coo_is_symmetric, MUMPSSolver.presolve"]}
{"id": "C117", "title": "Steepest descent optimization", "statement": "When opt.fmin_sd with backtracking returns, the value reported is that of the returned state, the iterates are steps against the gradient with the initial step reduced by the reduction factors, an accepted step multiplies the value by less than ls_on, an unaccepted one is smaller than ls_min, the number of iterations is at most i_max and the status names the reason; if all steps are accepted, the value is at most the initial one times ls_on to the number of iterations. The solver stops for any objective function and gradient. For negative values an increase may be accepted; a zero gradient is not recognized: one more iteration with a failed line search ends with status 3.", "quantifier": "all objective functions (also without a value in some states), gradients, norms, initial states, options with reductions below one", "why_tests_cant": "ranges over all objective functions and iteration histories", "anchors": ["sfepy/solvers/optimize.py: conv_test, FMinSteepestDescent.__call__"]}
{"id": "C118", "title": "Semi-smooth complementarity residual and matrix", "statement": "The non-smooth residual is zero exactly when A and B are nonnegative and one of them is zero, in both modes; the matrix rows of the non-active items in the semi-smooth mode are the derivatives of the residual along all directions. In the brute force mode the rows are the derivatives of the larger function, while the residual is the smaller one, so that they are right only if the two derivatives agree; the multipliers of active items are on the unit circle only under a condition on the rows.", "quantifier": "all values and rows, all directions, all differentiable functions", "why_tests_cant": "a statement about derivatives at all points", "anchors": ["sfepy/solvers/semismooth_newton.py: SemismoothNewton.__call__, compute_jacobian"]}
{"id": "C119", "title": "Semi-smooth Newton iteration", "statement": "When nls.semismooth_newton returns, the error is the norm of the residual in the returned state, the initial error that in the initial one, the condition is 0 exactly when the tolerances are met and otherwise 1 with i_max iterations; it stops for all functions, matrices and linear solvers; in every iteration the error decreases by ls_on, or the previous state is restored, or the step is one of steepest descent. After a restore the steepest descent direction is computed from the residual of the rejected state.", "quantifier": "all residual functions (also failing ones), matrices, linear solvers, initial states", "why_tests_cant": "ranges over all functions and histories of the nested loops", "anchors": ["sfepy/solvers/semismooth_newton.py: SemismoothNewton.__call__", "sfepy/solvers/nls.py: conv_test"]}
{"id": "C120", "title": "Linearized output covers every element", "statement": "create_output() in fem.linearizer writes, for every error criterion, cells that cover every part of every element, at refinement levels between min_level and max_level, each with its own vertices numbered consecutively. The cells do not overlap when max_level <= 2 (the default), or when no child of an unflagged sub-element is flagged; with max_level >= 3 they may overlap.", "quantifier": "all numbers of elements, refinement factors, levels and error criteria (which may depend on the set of elements still processed)", "why_tests_cant": "ranges over all histories of refinement flags", "anchors": ["sfepy/discrete/fem/linearizer.py: create_output", "sfepy/discrete/fem/refine.py: refine_reference"]}
{"id": "C121", "title": "Configured conditions are all kept", "statement": "The configuration of essential, initial and periodic conditions keeps every item of the input dictionary, in its order, under pairwise different keys, for any mixture of the short and the long syntax, if the long-syntax names differ and none ends in __<number>; tuples give the attributes region, times, dofs, match by position. Two long-syntax items with the same name share a key and the first one is lost.", "quantifier": "all dictionaries of conditions, all names", "why_tests_cant": "ranges over all names and mixtures of syntaxes", "anchors": ["sfepy/base/conf.py: tuple_to_conf, transform_conditions, transform_epbcs"]}
{"id": "C122", "title": "Condition class from the configuration key", "statement": "The key made by the configuration for a condition class is recognized by Conditions.from_conf as that class for every condition name, including names that contain other prefixes or 'ic'. Keys of no known class that contain 'ic' anywhere are taken for initial conditions.", "quantifier": "all classes, all names", "why_tests_cant": "ranges over all names", "anchors": ["sfepy/discrete/conditions.py: Conditions.from_conf", "sfepy/base/conf.py: transform_conditions"]}
{"id": "C123", "title": "Grouping of conditions by variables and DOF names", "statement": "After group_by_variables() the conditions of a variable are those it had before followed by exactly the single conditions of that variable in their order; 'var.what' belongs to var, 'grad.var.what' is a derivative condition of var; 'var.all' means all the DOFs, 'var.[i, j, ...]' means var.i, var.j, ... in the order. A condition on a variable whose name contains 'grad' is filed under another name and ignored.", "quantifier": "all lists of conditions, all names", "why_tests_cant": "ranges over all names and lists", "anchors": ["sfepy/discrete/conditions.py: group_by_variables, iter_single, _canonize"]}
{"id": "C124", "title": "Order of application of conditions", "statement": "The conditions of a variable are applied in the order of their keys, stably: the single conditions of one condition keep their order, essential conditions precede periodic ones, and two conditions of one kind are applied in the alphabetical order of their names independently of their positions in the input, unless one name is a prefix of the other.", "quantifier": "all lists of conditions, all names and positions", "why_tests_cant": "ranges over all names and permutations of the input", "anchors": ["sfepy/discrete/conditions.py: Conditions.sort", "sfepy/discrete/variables.py: FieldVariable.equation_mapping"]}
{"id": "C125", "title": "Local refinement keeps the numbers of the cells that are not refined", "statement": "When some quadrilaterals or hexahedra of a mesh are refined (refine_hanging.refine), every cell that is not refined keeps its number and its row of vertices (and material id); the first piece of a refined cell takes the number of the cell, the other pieces are appended; the returned sub_cells list, for every refined cell, exactly the numbers at which its pieces are stored, in order, and every cell of the new mesh is either a kept cell or exactly one piece of one refined cell.", "quantifier": "all numbers of cells, all sets of refined cells, both cell kinds, all row data", "why_tests_cant": "tests refine one or two small meshes with a fixed selection of cells", "anchors": ["sfepy/discrete/fem/refine_hanging.py:refine_region", "sfepy/discrete/fem/refine_hanging.py:refine"]}
{"id": "C126", "title": "Facet substitutions name the fine facets that make up the coarse facet", "statement": "For every facet between a refined and a non-refined cell the substitution lists the non-refined cell with its local facet first, then pieces of the refined cell on the other side (not of another refined cell); in 2D the two listed fine edges are the halves of the edge in order (first vertex - midpoint, midpoint - second vertex), in 3D the four fine faces are the quarters of the face (one at every vertex, with the centre of the face and the midpoints of its two edges), and the two fine edges are the halves of the edge.", "quantifier": "all meshes, all sets of refined cells, all pairs of neighbours, all local facets", "why_tests_cant": "a test checks selected orientations of neighbouring cells; the tables must fit the refinement tables for all of them", "anchors": ["sfepy/discrete/fem/refine_hanging.py:find_facet_substitutions", "sfepy/discrete/fem/refine_hanging.py:find_level_interface", "sfepy/discrete/fem/refine.py:refine_2_4", "sfepy/discrete/fem/refine.py:refine_3_8"]}
{"id": "C127", "title": "A field on a locally refined quadrilateral mesh is continuous across hanging nodes", "statement": "With one level of hanging nodes, an H1 Lagrange field of any order on quadrilaterals, after the substitution of DOFs and with the transformed basis, has on each fine edge the values of the coarse cell in the matching half of its edge, for every vector of DOFs; the edge between the two fine cells that ends in the hanging vertex stays continuous; the restored DOFs are the nodal values of the field, unchanged in nodes that are not substituted. With two levels this fails.", "quantifier": "all orders, all meshes with one level of hanging nodes (any number of interface edges, fine cells at corners of the interface included), all DOF values, all points", "why_tests_cant": "tests check solutions of selected problems on selected refinements up to a tolerance", "anchors": ["sfepy/discrete/fem/fields_nodal.py:H1NodalMixin._substitute_dofs", "sfepy/discrete/fem/fields_nodal.py:H1NodalMixin._eval_basis_transform", "sfepy/discrete/fem/fields_base.py:restore_substituted", "sfepy/discrete/common/poly_spaces.py:transform_basis"]}
{"id": "C128", "title": "B-spline basis and knot vectors of curves", "statement": "BSpline evaluates the B-splines of the given degree and knots: non-negative, zero outside the knots i..i+degree+1, with the sum one for every parameter of the range. A clamped knot vector has degree + 1 equal knots at both ends and the curve starts in the first control point; a cyclic curve of the default range is closed, and its unique control points are given back. (In the end parameter of a clamped curve all functions are zero, hence the shift by eps.)", "quantifier": "all degrees, knot vectors, numbers of control points, parameters, control points", "why_tests_cant": "tests evaluate one or two curves", "anchors": ["sfepy/mesh/bspline.py:BSpline.basis_function_dg", "sfepy/mesh/bspline.py:BSpline.make_knot_vector", "sfepy/mesh/bspline.py:BSpline.set_control_points"]}
{"id": "C129", "title": "Knot insertion does not change a B-spline curve", "statement": "insert_knot with a new knot inside the parameter range, of a multiplicity less than the degree, adds exactly that knot in its place and one control point, and the curve has the same points for all parameters; otherwise nothing is changed.", "quantifier": "all degrees, sorted knot vectors (repeated knots included), control points, new knots, parameters", "why_tests_cant": "tests insert a few knots and compare sampled points", "anchors": ["sfepy/mesh/bspline.py:BSpline.insert_knot"]}
{"id": "C130", "title": "B-spline approximation and surfaces", "statement": "approximate() returns the control points with the least sum of squared distances from the given points at their parameters (unique reproduction of a curve of the same space), for a cyclic curve the best among the cyclic ones, in the cyclic form; a surface is the tensor product of the two bases and stays within the bounds of its control points.", "quantifier": "all numbers of points and control points, all basis matrices with a regular normal matrix, all coordinates", "why_tests_cant": "optimality is a statement over all competing control points", "anchors": ["sfepy/mesh/bspline.py:BSpline.approximate", "sfepy/mesh/bspline.py:BSplineSurf.eval"]}
{"id": "C131", "title": "Adaptive probes terminate and resolve the mesh", "statement": "With a fixed positive number of points, a line or circle probe samples exactly max(n, 2) equidistant parameters. Otherwise probe() starts from the given number of equidistant points and repeatedly inserts exactly the midpoints of the intervals (for a circle including the closing one) whose end points are farther apart than the mean size of their elements (or the size hint). If the element sizes are bounded from below by a positive number this stops; then the parameters increase strictly, contain all the initial ones, keep the ends, and no two neighbouring points are farther apart than the mean size of their elements.", "quantifier": "all line end points in any dimension, circles in plane and space, initial numbers of points, positive element size functions and hints", "why_tests_cant": "Termination of the refinement and the final resolution are statements about all size fields; tests run a few meshes with one of each probe.", "anchors": ["sfepy/discrete/probes.py:Probe.probe", "sfepy/discrete/probes.py:Probe.refine_points", "sfepy/discrete/probes.py:Probe.refine_pars", "sfepy/discrete/probes.py:Probe.set_n_point"]}
{"id": "C132", "title": "Probe points lie on the requested curve", "statement": "Line probe points start at p0, end at p1, and their distances equal the differences of the returned parameters; ray probe points lie at the (signed) distances given by the parameters along the unit direction, antisymmetrically when both directions are requested; all circle probe points have the distance radius from the centre and, when the normal is parallel to the z axis or its angle with it has sine at least 0.1, lie in the plane perpendicular to the normal. For other tilted normals the circle is not rotated at all (counterexample).", "quantifier": "all end points, directions, parametrization functions, centres, non-zero normals, radii and parameters", "why_tests_cant": "The rotation to the normal has to be right for every normal; tests use one normal.", "anchors": ["sfepy/discrete/probes.py:LineProbe", "sfepy/discrete/probes.py:RayProbe", "sfepy/discrete/probes.py:CircleProbe", "sfepy/linalg/geometry.py:make_axis_rotation_matrix"]}
{"id": "C133", "title": "An untouched spline box does not change the geometry", "statement": "evaluate() of a SplineBox whose control points were not moved returns the original coordinates: points outside of the bounding box are kept, and each coordinate of a point inside is reproduced exactly, except that a coordinate on the upper end of the box is returned as the slightly decreased parameter used for it. If that decrease is lost in rounding, all points of that side are evaluated to zero.", "quantifier": "all dimensions, bounding boxes, degrees, numbers of segments and points", "why_tests_cant": "Linear precision of tensor-product B-splines has to hold for every point and every number of segments.", "anchors": ["sfepy/mesh/splinebox.py:SplineBox.create_spb", "sfepy/mesh/splinebox.py:SplineBox.evaluate", "sfepy/mesh/bspline.py:BSpline.set_param"]}
{"id": "C134", "title": "Moving control points of a spline box", "statement": "Moving a control point changes the geometry inside of the box exactly by evaluate_derivative() of that point in the direction of the move, for any displacement, and nothing outside of the box or of the support of the control point; flat and grid indices name the same control point in both functions; affine maps of the control points are applied to the geometry; evaluated values keep the bounds of the control values.", "quantifier": "all boxes, control values, control points, displacements, affine maps and points", "why_tests_cant": "Index conventions and exactness of the derivative must hold for every control point and displacement; tests move a few points.", "anchors": ["sfepy/mesh/splinebox.py:SplineBox.move_control_point", "sfepy/mesh/splinebox.py:SplineBox.evaluate_derivative", "sfepy/mesh/splinebox.py:SplineBox.get_box_matrix", "sfepy/mesh/splinebox.py:SplineBox.gen_cp_idxs"]}
{"id": "C135", "title": "Projection of functions to facets is the best approximation", "statement": "project_to_facets() returns the DOFs of the only discrete function on the facets that minimizes the weighted sum of squared errors in the surface quadrature points; the error is orthogonal to all discrete functions, and functions of the discrete space are reproduced exactly, provided the weights are positive, the nodes of each facet distinct and the DOFs determined by the values in quadrature points.", "quantifier": "all facet sets, connectivities, bases, weights and functions", "why_tests_cant": "Optimality compares with all discrete functions; tests project a few functions on a few meshes.", "anchors": ["sfepy/discrete/projections.py:project_to_facets"]}
{"id": "C136", "title": "L2 and H1 projections are orthogonal projections", "statement": "The L2 and H1 projections return, from any initial state, the only minimizer of the error in the discrete L2 or H1 norm given by the quadrature; the error is orthogonal to the discrete space, the norm is not increased, and discrete functions are reproduced, so projecting twice is projecting once. The projection by components stores the projection of each component in the DOFs of this component, node by node.", "quantifier": "all spaces, quadratures with positive weights that determine the DOFs, data, initial states and numbers of components", "why_tests_cant": "Orthogonality, optimality and idempotence are statements about all data and all discrete functions.", "anchors": ["sfepy/discrete/projections.py:make_l2_projection_data", "sfepy/discrete/projections.py:make_h1_projection_data", "sfepy/discrete/projections.py:project_by_component", "sfepy/discrete/projections.py:create_mass_matrix"]}
{"id": "C137", "title": "Containers keep objects and names together", "statement": "After any history of assignments by name or index, insertions, appends, extensions, in-place additions, removals by name and updates (failed ones included), a Container has the names of its objects in the order of the objects, and its objects are those of a plain list that went through the same history. c[name] is the first object of that name, c[i] indexes as a list, has_key says exactly whether c[k] succeeds, and c[obj.name] = obj changes what that name gives and nothing else.", "quantifier": "all lists of objects, all naming functions (duplicate names included), all sequences of operations with any arguments", "why_tests_cant": "The invariant between the two internal lists must survive every interleaving of operations, negative and out of range indices and duplicate names.", "anchors": ["sfepy/base/base.py:Container", "sfepy/base/base.py:OneTypeList"]}
{"id": "C138", "title": "Sums of structures", "statement": "a + b of Structs has the attributes of both; every value found in a under a path of attribute names stays, every other value comes from b, structures under the same name are merged by the same rule; a + a = a, the empty Struct is neutral, adding b again changes nothing. The sum is not associative when a name is a structure, a plain value and a structure.", "quantifier": "all pairs of structures of any nesting depth", "why_tests_cant": "Nested attribute trees are unbounded.", "anchors": ["sfepy/base/base.py:Struct.__add__", "sfepy/base/base.py:Struct.__iadd__"]}
{"id": "C139", "title": "Configurations of solvers", "statement": "Every declared option of a solver gets the keyword argument, otherwise the value in the configuration, otherwise the default; the construction is refused exactly if a required option is missing in the configuration (even if given as a keyword argument); undeclared options are dropped unless the solver declares '*', when those of the configuration are passed on. The automatic selection returns the first solver of the list that can be constructed, passes interruptions on and fails exactly if all fail; preset options have precedence over those of the user.", "quantifier": "all lists of declared options, configurations and keyword arguments; all lists of solvers and outcomes of their construction", "why_tests_cant": "The combinations of declared, given and missing options and of available solvers cannot be enumerated.", "anchors": ["sfepy/solvers/solvers.py:Solver.process_conf", "sfepy/solvers/solvers.py:use_first_available", "sfepy/solvers/auto_fallback.py:AutoFallbackSolver"]}
{"id": "C140", "title": "Loops over correctors and coefficients", "statement": "Every entry of a homogenized coefficient is its expression, divided by the volume, evaluated with the row variables set to the sum of the required correctors with the row index and the column variables to those with the column index; nothing is left over from other entries or from earlier values of the variables. The symmetric index set has every pair r <= c once, the normal components first, consistently with coor_to_sym(). Each corrector stored by the loop over the indices solves the problem for the data of its own index, whatever states the other problems left.", "quantifier": "all expressions, lists of variables to set (shared and repeated names included), corrector solutions, row and column index sets, dimensions, initial values of the variables and initial states of the solver", "why_tests_cant": "The variables are shared by all entries, so interference depends on the configuration and on the order of all evaluations.", "anchors": ["sfepy/homogenization/coefs_base.py:CoefMN", "sfepy/homogenization/coefs_base.py:CoefSymSym", "sfepy/homogenization/coefs_base.py:CorrNN", "sfepy/homogenization/utils.py:iter_sym", "sfepy/homogenization/utils.py:coor_to_sym"]}
{"id": "C141", "title": "Homogenized coefficients", "statement": "The coefficient computed from the correctors is symmetric, nonnegative (positive definite if only affine displacements that are no sum of admissible and rigid ones are considered), does not depend on the choice of the correctors, equals the one-sided formula, is the minimum of the energy over all admissible fluctuations, lies between the Reuss and the Voigt bound, grows with the stiffness, repeats the symmetric components for the non-symmetric index set, and is the stiffness itself for a homogeneous material.", "quantifier": "all spaces of admissible displacements, symmetric nonnegative forms, materials and quadratures, correctors that solve the discrete problems, macroscopic strains and stresses", "why_tests_cant": "Bounds, optimality and independence of the choice of correctors are statements about all microstructures and all displacements.", "anchors": ["sfepy/homogenization/coefs_base.py:CoefSymSym", "sfepy/homogenization/coefs_base.py:CorrNN", "sfepy/homogenization/coefs_base.py:ShapeDimDim", "sfepy/homogenization/utils.py:create_pis"]}
{"id": "C142", "title": "Decay, derivative and integral of convolution kernels", "statement": "The mean decay of a kernel starts with one and is the decay itself if all components of the kernel decay synchronously. The time integral of the computed derivative is the change of the kernel; the trapezoidal scheme is exact for kernels affine in time, the forward scheme for constant ones, and it is an upper bound for kernels that do not grow. The exponential kernel's computed derivative and integral are the exact ones for any first time. The initial guess of the exponential fit is exact for exponential data, if the times start with zero.", "quantifier": "all numbers of steps, increasing times, kernels of any shape, exponential coefficients", "why_tests_cant": "Identities in all kernels and all time grids.", "anchors": ["sfepy/homogenization/convolutions.py:ConvolutionKernel", "sfepy/homogenization/convolutions.py:compute_mean_decay", "sfepy/homogenization/convolutions.py:approximate_exponential", "sfepy/homogenization/utils.py:integrate_in_time"]}
{"id": "C143", "title": "Interpolation of kernels for the lags of a time history", "statement": "interp_conv_mat() gives the kernel at zero for the current step and, for each earlier step whose lag - and the lags of all steps after it - is within the memory, the linear interpolation of the kernel at the lag, which is the sample itself at the times of the samples (the first one included) and is exact for kernels affine in time; nothing is given from the first step beyond the memory on. A lag past the end by a rounding error gives the last sample up to the same relative error.", "quantifier": "all increasing sample times, kernels, time histories and current steps", "why_tests_cant": "The edge cases (index -1 for lags at the first sample or past the last one) depend on coincidences of times.", "anchors": ["sfepy/homogenization/utils.py:interp_conv_mat"]}
{"id": "C144", "title": "Sensitivity terms are derivatives with respect to the shape", "statement": "The `de_sd_*`/`ev_sd_*` sensitivity terms (elasticity and diffusion with a symmetric material, div-grad, piezoelectric coupling, Stokes, v.grad s, dot, surface traction) evaluate, for given state gradients and mesh velocity gradient, to the derivative at t = 0 of the corresponding non-sensitivity integrand transported to the domain x + t V(x), including the change of the volume; summed over quadrature points they give the derivative of the integral.", "quantifier": "every dimension, every material tensor (symmetric where stated), every mesh velocity gradient, every state and test gradients, any number of quadrature points", "why_tests_cant": "Tests compare some of the terms to finite differences on one mesh with one velocity; a missing transpose is invisible for particular symmetric gradients.", "anchors": ["sfepy/terms/terms_sensitivity.py:get_nonsym_grad_op", "sfepy/terms/terms_sensitivity.py:ESDLinearElasticTerm", "sfepy/terms/terms_sensitivity.py:ESDPiezoCouplingTerm", "sfepy/terms/terms_sensitivity.py:ESDDiffusionTerm", "sfepy/terms/terms_sensitivity.py:ESDStokesTerm", "sfepy/terms/terms_sensitivity.py:ESDDivGradTerm", "sfepy/terms/terms_sensitivity.py:ESDDotTerm", "sfepy/terms/terms_sensitivity.py:ESDLinearTractionTerm", "sfepy/terms/terms_multilinear.py:sym2nonsym"]}
{"id": "C145", "title": "Contact force law and contact bodies", "statement": "For k > 0 and f0 = 0 or f0 >= 1e-14 the force of dw_contact_plane / dw_contact_sphere is the documented piecewise law; it is never negative, does not decrease with the penetration, and the derivative used in the tangent is its derivative (everywhere for f0 > 0, away from the contact for f0 = 0). The plane distance is the signed distance to the plane and the polygon mask does not change when a point is moved along the normal; the sphere normals are unit vectors; for a sphere of radius at least one every point with a documented non-zero force is in the mask.", "quantifier": "all force parameters, penetrations, planes, spheres and arrays of points", "why_tests_cant": "Tests use one plane/sphere with one parameter set; the branch boundaries, the small radius and a point in the centre are not visited.", "anchors": ["sfepy/terms/terms_surface.py:ContactPlaneTerm", "sfepy/terms/terms_surface.py:ContactSphereTerm", "sfepy/mechanics/contact_bodies.py:ContactPlane", "sfepy/mechanics/contact_bodies.py:ContactSphere"]}
{"id": "C146", "title": "Contact tangents are derivatives of the contact residuals", "statement": "The local vector of dw_contact_plane / dw_contact_sphere is the integral of the documented force in the direction of the normal tested by the basis functions, and the local matrix of the same term is its derivative in every direction of the local state vector, including the change of the sphere normals with the displacement.", "quantifier": "any number of quadrature points, any basis functions, any state and direction, any force parameters (k > 0, f0 = 0 or f0 >= 1e-14), any unit or non-unit plane normal, every sphere of radius at least one, no quadrature point in the sphere centre, points with f0 = 0 not exactly on the surface", "why_tests_cant": "A finite difference test samples one state; a wrong sign or a missing projection in the tangent only slows the Newton convergence.", "anchors": ["sfepy/terms/terms_surface.py:ContactPlaneTerm", "sfepy/terms/terms_surface.py:ContactSphereTerm"]}
{"id": "C147", "title": "Surface constraint and jump terms are their weak forms", "statement": "The local vectors of dw_non_penetration (both modes), dw_non_penetration_p, dw_jump and dw_surface_ndot, tested by any local vector, are the documented surface integrals; the matrices returned for diff_var reproduce the vectors; the two non-penetration modes are adjoint (the saddle point system is symmetric); the penalty matrix is symmetric and positive semi-definite and does not penalize tangential fields.", "quantifier": "any dimension, bases, normals, weights, coefficients, states and test vectors", "why_tests_cant": "Tests run one problem each; a swapped block or sign in one of the matrices changes only the convergence or needs particular data to be seen.", "anchors": ["sfepy/terms/terms_constraints.py:NonPenetrationTerm", "sfepy/terms/terms_constraints.py:NonPenetrationPenaltyTerm", "sfepy/terms/terms_surface.py:SurfaceJumpTerm", "sfepy/terms/terms_surface.py:SufaceNormalDotTerm", "sfepy/discrete/variables.py:expand_basis"]}
{"id": "C148", "title": "Traction evaluation and its sensitivity", "statement": "ev_surface_ltr integrates v times the documented traction (n, p n, f, sigma n in the symmetric storage) over the facets, and ev_sd_surface_ltr integrates v . sigma (div V I - (grad V)^T) n for no traction, a pressure and tensors; a full (D, D) traction is used transposed by the former, and a traction vector not parallel to the normal does not have the sensitivity of the corresponding tensor.", "quantifier": "2D and 3D, all tractions in each of the documented shapes, all fields, normals and mesh velocities", "why_tests_cant": "The tests use a pressure or symmetric tensors, for which the transposition and the order of the product are invisible.", "anchors": ["sfepy/terms/terms_surface.py:LinearTractionTerm", "sfepy/terms/terms_surface.py:SDLinearTractionTerm", "sfepy/mechanics/tensors.py:get_full_indices"]}
{"id": "C149", "title": "Membrane geometry and Mooney-Rivlin law", "statement": "The local coordinate system of a non-degenerate membrane face is orthonormal and its first two axes span the plane of the nodes; C33, the invariants and the Green strain are those of the incompressible in-plane tensor; the Mooney-Rivlin stress is the derivative of the documented energy with respect to the strain components, the tangent is the derivative of the stress, and the reference state is free of stress.", "quantifier": "any non-collinear nodes, all material parameters, all differentiable paths of in-plane tensors with a non-zero determinant", "why_tests_cant": "The balloon test uses one material and an almost spherical state with little shear, so that terms with c12 and some off-diagonal moduli are negligible.", "anchors": ["sfepy/mechanics/membranes.py:create_transformation_matrix", "sfepy/mechanics/membranes.py:get_invariants", "sfepy/mechanics/membranes.py:get_green_strain_sym3d", "sfepy/terms/terms_membrane.py:eval_membrane_mooney_rivlin"]}
{"id": "C150", "title": "The membrane term is variational", "statement": "dw_tl_membrane assembles the gradient of the Mooney-Rivlin energy of the membrane with respect to the global nodal displacements, its matrix is the derivative of that vector, and the matrix is symmetric, for every transformation to local coordinates.", "quantifier": "any number of quadrature points and nodes, all gradients, weights, thicknesses, parameters, transformation matrices and displacements with a non-zero deformed area", "why_tests_cant": "A wrong geometric stiffness or transformation only slows the convergence of the Newton iterations in a test.", "anchors": ["sfepy/terms/terms_membrane.py:TLMembraneTerm", "sfepy/mechanics/membranes.py:describe_deformation", "sfepy/mechanics/membranes.py:get_tangent_stress_matrix", "sfepy/mechanics/membranes.py:transform_asm_vectors", "sfepy/mechanics/membranes.py:transform_asm_matrices"]}
