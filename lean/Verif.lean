import Verif.Mpi.ReductionProps
import Verif.Mpi.UtilsProps
import Verif.Mpi.SerializationProps
import Verif.Tensor.TensorProps
import Verif.Tensor.LUProps
import Verif.Tensor.PolarProps
import Verif.Tensor.Strings
import Verif.Element.HexForces
import Verif.Element.HexLength
import Verif.Material.NeohookeanProps
import Verif.Material.FactoryProps
import Verif.Fields.OutputFieldsProps
import Verif.Fields.BlockDataProps
import Verif.Solver.SparsityProps
import Verif.Solver.CgProps
import Verif.Bc.KinematicProps
import Verif.Assembly.ParallelProps
import Verif.Assembly.TimeStepProps
import Verif.Integrate.ReversibleProps
import Verif.Integrate.QuasistaticDemo
import Verif.Parse.FileNameProps
import Verif.Expr.OptimizeProps
import Verif.Expr.FunctorProps
import Verif.Expr.InsideProps
import Verif.Expr.PrintProps
import Verif.Expr.ConventionalProps
import Verif.Uq.ClosureProps
import Verif.Uq.ScaleProps
import Verif.Uq.ReadProps
import Verif.Uq.DeckProps
import Verif.Uq.TrajectoryProps
import Verif.Uq.TrajectoryDemo
import Verif.Contact.ProjectionProps
import Verif.Contact.ForceProps
import Verif.Contact.EnergyProps
import Verif.Contact.BoxProps
import Verif.Contact.EnergyDemo
import Verif.Contact.SerializeProps
import Verif.Contact.SkinProps
import Verif.Contact.IdProps
import Verif.Contact.ParallelSkinProps
import Verif.Contact.ParallelProps
import Verif.Contact.Bvh
import Verif.Contact.SubmodelProps
import Verif.Contact.MeshProps
import Verif.Contact.OwnerProps
import Verif.Contact.CommandProps
import Verif.Mesh.GenesisProps
import Verif.Mesh.ExodusProps
import Verif.Mesh.ExodusWriteProps
import Verif.Mesh.TextMeshProps
import Verif.Mesh.TextMeshRefute
import Verif.Fields.ViewProps
import Verif.Bc.LineProps
import Verif.Bc.TractionProps
import Verif.Kokkos.KernelProps
import Verif.Kokkos.StatesProps
import Verif.Kokkos.OutputFieldsProps
import Verif.Kokkos.CoherenceProps
import Verif.App.DriverProps
import Verif.Tensor.LogRotProps
import Verif.Tensor.PolarPadeProps
import Verif.Material.NeohookeanPadeProps
import Verif.Fields.DerivedProps
import Verif.Mesh.ExodusStepsProps
import Verif.Contact.ClosestProps
import Verif.Contact.VisualizationProps
import Verif.Integrate.StabilityProps
import Verif.Integrate.CubeProps
import Verif.Assembly.PatchProps
import Verif.Assembly.PatchBoundProps
import Verif.Integrate.InvarianceProps
import Verif.Integrate.CoastProps
import Verif.Integrate.InvarianceDemo
import Verif.Assembly.ObjectiveProps
import Verif.Integrate.ObjectiveDemo
import Verif.Assembly.EnergyProps
import Verif.Integrate.EnergyCubeProps
import Verif.Assembly.CornerProps
import Verif.Integrate.CornerRunProps
import Verif.Assembly.MeshMapProps
import Verif.Integrate.SymmetryProps
import Verif.Integrate.SymmetryDemo
import Verif.Integrate.WorkProps
import Verif.Integrate.WorkDemo
import Verif.Contact.Interface
import Verif.Contact.InterfaceProps
import Verif.Contact.InterfaceRace
import Verif.Contact.InterfaceDemo
import Verif.Mpi.Tpetra
import Verif.Mpi.TpetraProps
import Verif.Mpi.TpetraMatrix
import Verif.Mpi.TpetraMatrixProps
import Verif.Contact.GlobalBox
import Verif.Contact.GlobalBoxProps
import Verif.Integrate.HalfProps
import Verif.Integrate.HalfDemo
import Verif.Element.RigidLemmas
import Verif.Element.RigidProps
import Verif.Solver.LinearStep
import Verif.Solver.SupportedProps
import Verif.Solver.SupportedTolProps
import Verif.Newton.NewtonProps
import Verif.Integrate.ConvergenceLemmas
import Verif.Integrate.ConvergenceProps
import Verif.Integrate.ConvergenceDemo
import Verif.Timing.TimingProps
import Verif.Timing.StampProps
import Verif.Kokkos.WorkArrays
import Verif.Kokkos.WorkArraysProps
import Verif.Integrate.NonFinite
import Verif.Integrate.NonFiniteProps
import Verif.Mpi.Wire
import Verif.Mpi.WireProps
import Verif.Mesh.TextSteps
import Verif.Mesh.TextStepsProps
import Verif.Solver.DenseProps
import Verif.Integrate.Progress
import Verif.Integrate.ProgressProps
import Verif.Integrate.FrequencyProps
import Verif.Integrate.LinearProps
import Verif.Integrate.LinearDemo
import Verif.Integrate.LinearPathProps
import Verif.Integrate.SuperpositionProps
import Verif.App.LifecycleProps
import Verif.Contact.SinglePrecisionProps
import Verif.Integrate.LinearSuperProps
import Verif.Integrate.LinearEnergyProps
import Verif.Integrate.LinearAccuracyProps
import Verif.Integrate.RestProps
import Verif.Integrate.CausalProps
import Verif.Integrate.OrderProps
import Verif.Integrate.TimeOriginProps
