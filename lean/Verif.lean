import Verif.Props.Assembly
import Verif.Props.Csr
import Verif.Props.Layout
import Verif.Props.BC
import Verif.Props.Solve
import Verif.Props.Newton
import Verif.Props.Periodic
import Verif.Props.Cyclic
import Verif.Props.Reduced
import Verif.Props.UnitCell
import Verif.Props.TimeLoop
import Verif.Props.Grid
import Verif.Props.Fit
import Verif.Props.Band
import Verif.Props.Sparse
import Verif.Props.OC
import Verif.Props.Batched
import Verif.Props.Cache
import Verif.Props.Merge
import Verif.Props.AsdOps
import Verif.Props.Extra
import Verif.Props.AmgNewton
import Verif.Props.Mesh
import Verif.Props.Xdmf
import Verif.Props.Lifecycle
import Verif.Props.Options
import Verif.Props.Dispatch
import Verif.Props.Detect
import Verif.Props.Optimizer
import Verif.Props.OptConstraints
import Verif.Props.Mdmm
import Verif.Props.Filters
import Verif.Props.Adaptive
import Verif.Props.Graph
import Verif.Props.Voigt
import Verif.Props.Vars
import Verif.Props.Pytree
import Verif.Props.Elements
import Verif.Props.Geometry
import Verif.Props.MeshQuality
import Verif.Props.Kernels
import Verif.Props.Balance
import Verif.Props.Energy
import Verif.Props.Responses
import Verif.Props.Cohesive
import Verif.Props.CohesiveInterface
import Verif.Model.Stiffness
import Verif.Model.Orientation
import Verif.Props.Orientation
import Verif.Props.Closure
import Verif.Props.Stiffness
import Verif.Props.Averaged
import Verif.Model.Shell
import Verif.Model.Helmholtz
import Verif.Model.Layered
import Verif.Model.Tmc
import Verif.Props.Laminate
import Verif.Props.FormEnergy
import Verif.Props.Plate
import Verif.Props.Layered
import Verif.Props.Tmc
import Verif.Spec.Helmholtz
import Verif.Props.Helmholtz
import Verif.Model.Projection
import Verif.Spec.Projection
import Verif.Props.Projection
import Verif.Model.Sdf
import Verif.Spec.Sdf
import Verif.Props.Sdf
import Verif.Props.Density
import Verif.Props.DensityNewton
import Verif.Model.Copv
import Verif.Props.Copv
import Verif.Model.Buckling
import Verif.Model.CudssBuckling
import Verif.Props.Buckling
import Verif.Props.CudssBuckling
import Verif.Model.Cmg
import Verif.Props.CmgElement
import Verif.Props.CmgLevels
import Verif.Props.CmgSolve
import Verif.Props.CmgDesign
import Verif.Model.Homog
import Verif.Props.Homog
import Verif.Props.HomogDirect
import Verif.Props.ReducedAsm
import Verif.Props.Amg
import Verif.Model.AmgOps
import Verif.Props.AmgOps
import Verif.Props.Reuse
import Verif.Props.Distributed
import Verif.Props.Profiler
import Verif.Props.Import
import Verif.Props.PeriodicBox
import Verif.Props.Hooks
import Verif.Props.Generators
import Verif.Model.BatchedNewton
import Verif.Props.BatchedNewton
import Verif.Model.Sessions
import Verif.Props.Sessions
import Verif.Model.CellPoints
import Verif.Props.CellPoints
import Verif.Model.StiffnessSphere
import Verif.Props.StiffnessSphere
import Verif.Model.SaveSol
import Verif.Props.SaveSol
import Verif.Model.Upsample
import Verif.Props.Upsample
import Verif.Model.Chain
import Verif.Props.Chain
import Verif.Model.BcInput
import Verif.Props.BcInput
import Verif.Props.RkOrder
import Verif.Props.NewtonConverge
import Verif.Props.SolverGradient
import Verif.Props.NestedBatch
import Verif.Props.Implicit
import Verif.Props.NewtonGlobal
import Verif.Model.CallbackNewton
import Verif.Props.CallbackNewton
import Verif.Props.CmgCoarse
import Verif.Props.InexactAdjoint
import Verif.Props.CmgDescent
import Verif.Props.WellPosed
import Verif.Props.RigidBricks
import Verif.Props.PlateMesh
import Verif.Props.ElasticEquilibrium
import Verif.Props.AffineRigid
import Verif.Props.VoxelMesh
