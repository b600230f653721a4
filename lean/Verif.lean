import Verif.Dof.PropsLayout
import Verif.Dof.PropsExpand
import Verif.Dof.PropsChains
import Verif.Dof.LemmasMap
import Verif.Dof.LemmasTie
import Verif.Dof.LemmasFull
import Verif.Dof.PropsMap
import Verif.Dof.PropsState
import Verif.Asm.Props
import Verif.Asm.PropsReduce
import Verif.Asm.PropsGraph
import Verif.Region.PropsSort
import Verif.Region.PropsParse
import Verif.Region.PropsComplete
import Verif.Region.PropsDomain
import Verif.Time.PropsFixed
import Verif.Time.PropsVariable
import Verif.History.Props
import Verif.History.PropsCache
import Verif.Solver.Model
import Verif.Solver.PropsLs
import Verif.Solver.PropsNewton
import Verif.Solver.Tsc
import Verif.Solver.PropsTsc
import Verif.Dyn.Model
import Verif.Dyn.PropsSchemes
import Verif.Dyn.PropsTangent
import Verif.Dyn.PropsEnergy
import Verif.Dyn.Driver
import Verif.Dyn.PropsDriver
import Verif.Mech.Model
import Verif.Mech.PropsTensor
import Verif.Mech.PropsTransform
import Verif.Mech.PropsStiff
import Verif.Mech.Const
import Verif.Mech.ConstTable
import Verif.Mech.PropsConst
import Verif.CMesh.PropsConn
import Verif.CMesh.PropsIntersect
import Verif.CMesh.PropsPipeline
import Verif.CMesh.PropsTargets
import Verif.CMesh.PropsFacetIdx
import Verif.CMesh.PropsGeom
import Verif.Linalg.PropsCompose
import Verif.Linalg.PropsUtils
import Verif.Sort.PropsRows
import Verif.Fem.PropsDofs
import Verif.Fem.Examples
import Verif.Fem.PropsLagrange
import Verif.Fem.PropsLagTensor
import Verif.Fem.PropsLagGrad
import Verif.Fem.PropsBubble
import Verif.Fem.ExamplesLagrange
import Verif.Fem.PropsContinuous
import Verif.Fem.PropsContTensor
import Verif.Fem.ExamplesField
import Verif.Homog.PropsSort
import Verif.Homog.PropsMulti
import Verif.Homog.PropsChunk
import Verif.Homog.Examples
import Verif.Base.PropsResolve
import Verif.Base.ExamplesResolve
import Verif.Term.PropsRefmap
import Verif.Term.PropsFace
import Verif.Term.ExamplesRefmap
import Verif.Term.PropsScalar
import Verif.Term.PropsDot
import Verif.Term.ExamplesScalar
import Verif.Term.PropsElastic
import Verif.Term.PropsElastic2
import Verif.Term.PropsElastic3
import Verif.Term.ExamplesElastic
import Verif.Term.PropsFlow
import Verif.Term.PropsCoupling
import Verif.Term.ExamplesFlow
import Verif.Term.PropsHyper
import Verif.Term.PropsHyper2
import Verif.Term.PropsHyper3
import Verif.Term.PropsHyper4
import Verif.Term.ExamplesHyper
import Verif.Mat.Examples
import Verif.Mesh.ExamplesGen
import Verif.Mesh.ExamplesRefine
import Verif.Mesh.ExamplesMerge
import Verif.Mesh.ExamplesTile
import Verif.Mesh.ExamplesTools
import Verif.Lcbc.Examples
import Verif.Par.Examples
import Verif.Iga.Examples
import Verif.Eqn.Examples
import Verif.Dg.Limiter
import Verif.Dg.Index
import Verif.Dg.Basis
import Verif.Dg.Steps
import Verif.Dg.Flux
import Verif.Dg.Neighbours
import Verif.Dg.Examples
import Verif.Ml.Einsum
import Verif.Ml.Builder
import Verif.Ml.Spec
import Verif.Ml.Closed
import Verif.Ml.Group
import Verif.Ml.Layout
import Verif.Ml.Core
import Verif.Ml.Eval
import Verif.Ml.Main
import Verif.Ml.Forms
import Verif.Ml.Deriv
import Verif.Ml.Backends
import Verif.Ml.Terms
import Verif.Ml.Tensor
import Verif.Ml.Examples
import Verif.Quad.Spec
import Verif.Quad.Euler
import Verif.Quad.Model
import Verif.Quad.Tables
import Verif.Quad.Enum
import Verif.Quad.Gm
import Verif.Quad.Cubature
import Verif.Quad.Check
import Verif.Quad.CheckBase
import Verif.Quad.CheckLine
import Verif.Quad.CheckTri
import Verif.Quad.CheckRest
import Verif.Quad.Props
import Verif.Quad.Claims
import Verif.Quad.Examples
import Verif.Geo.Model
import Verif.Geo.Simplex
import Verif.Geo.Polygon
import Verif.Geo.Contact
import Verif.Geo.Bodies
import Verif.Geo.Examples
import Verif.Solver.Qevp
import Verif.Mech.Units
import Verif.Fem.PropsContGeneric
import Verif.Poly.Expr
import Verif.Poly.SerTables
import Verif.Poly.Serendip
import Verif.Poly.SerBasic
import Verif.Poly.SerRepro
import Verif.Poly.SerCont
import Verif.Poly.SerContProps
import Verif.Poly.Examples
import Verif.Poly.LobTables
import Verif.Poly.Lobatto
import Verif.Poly.LobProps
import Verif.Poly.LobNodes
import Verif.Poly.LobCont
import Verif.Poly.LobTrace
import Verif.Poly.LobContProps
import Verif.Poly.LobField
import Verif.Poly.ExamplesLob
import Verif.Poly.Bern
import Verif.Poly.BernProps
import Verif.Poly.LegQuad
import Verif.Poly.Sem
import Verif.Poly.SemQuad
import Verif.Poly.SemProps
import Verif.Poly.ExamplesBern
import Verif.Loc.Examples
import Verif.Th.Examples
import Verif.Ls.PropsSym
import Verif.Opt.PropsSemi
import Verif.Lin.Props
import Verif.Cond.Props
import Verif.Cond.PropsGroup
import Verif.Hang.PropsNum
import Verif.Hang.PropsCont
import Verif.Hang.Examples
import Verif.Spl.Props
import Verif.Spl.PropsKnot
import Verif.Prb.Model
import Verif.Prb.Props
import Verif.Prb.PropsPts
import Verif.Box.Model
import Verif.Box.Props
import Verif.Prj.Model
import Verif.Prj.Props
import Verif.Cfg.Props
import Verif.Cfg.PropsConf
import Verif.Coef.PropsHom
import Verif.Conv.Props
import Verif.Sens.Props
import Verif.Ct.PropsTan
import Verif.Srf.Props
import Verif.Mem.PropsTan
