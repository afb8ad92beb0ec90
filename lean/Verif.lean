import Verif.Tree.Props
import Verif.Namespace.Props
import Verif.Hil.Props
import Verif.TreeFile.Props
import Verif.MutualPtr.Props
import Verif.Container.Props
import Verif.RowIndex.Props
import Verif.Tensor.Props
import Verif.MathFn.BisectionProps
import Verif.Vertex.Props
import Verif.Connection.Props
import Verif.Connection.Hanging
import Verif.Basis.Props
import Verif.Basis.Interior
import Verif.Basis.Filter
import Verif.Spatial.Props
import Verif.Pde.Visc
import Verif.Pde.Stored
import Verif.Solver.Props
import Verif.Solver.Farfield
import Verif.Layers.Props
import Verif.History.Props
import Verif.CaseRun.Props
import Verif.Csv.Props
import Verif.Spatial.Exact
import Verif.Solver.Freestream
import Verif.Pde.Upwind
import Verif.Storage.Props
import Verif.Geom.Inters
import Verif.Mesh.Props
import Verif.Adapt.Props
import Verif.Adapt.Props2
import Verif.Adapt.Props3
import Verif.Admis.Props
import Verif.Krylov.Props
import Verif.Atmos.Props
import Verif.Metric.Model
import Verif.Metric.UniformStep
import Verif.Metric.Example
import Verif.Metric.Hanging
import Verif.Metric.HangingExample
import Verif.Polymesh.Example
import Verif.MeshFile.Props
import Verif.TimeStep.Flow
import Verif.Implicit.Props
import Verif.StateFile.Props
import Verif.Synch.Props
import Verif.Stats.Props
import Verif.Stats.ModalProps
import Verif.Stats.SkewProps
import Verif.Split.Props
import Verif.Share.Example
import Verif.Visc.Props
import Verif.Vis.Example
import Verif.Force.Example
import Verif.Free.Use
import Verif.Flow.Example
import Verif.Exact.Example
import Verif.Structured.Example
import Verif.Setup.Example
import Verif.Relax.Example
import Verif.FaceSnap.Example
import Verif.SnapMesh.Example
import Verif.ArtVisc.Example
import Verif.SurfRep.Example
import Verif.Repair.Example
import Verif.Extrude.Example
import Verif.PhysBasis.Example
import Verif.Output.Example
import Verif.Contour.Example
import Verif.Timing.Example
import Verif.Residual.Example
import Verif.CaseMesh.Example
import Verif.Prescribed.Example
import Verif.Hil.Functions
import Verif.Tecplot.Example
import Verif.Lookup.Props
import Verif.Status.Props
import Verif.Cell.Props
import Verif.Settings.Props
import Verif.Solver.OpenFlux
