import Verif.MatVec.Props
import Verif.Transpose.Props
import Verif.Algo.Props
import Verif.ILU.PosProps
import Verif.ILU.ScalarProps
import Verif.ILU.AsyncProps
import Verif.ILU.BlockProps
import Verif.Solve.IluProps
import Verif.Solve.SgsProps
import Verif.Solve.BgsProps
import Verif.Levels.Props
import Verif.Relax.Props
import Verif.Reorder.Props
import Verif.Reorder.IluProps
import Verif.Reorder.Mc64Model
import Verif.Reorder.Mc64Spec
import Verif.Reorder.Mc64Props
import Verif.Relax.PetscModel
import Verif.Relax.PetscProps
import Verif.Container.ViewProps
import Verif.Container.AssemblyProps
import Verif.Container.CompareProps
import Verif.Info.Props
import Verif.Heap.Props
import Verif.Heap.MatProps
import Verif.Coo.CsrProps
import Verif.Coo.BsrProps
import Verif.Coo.MMProps
import Verif.Factory.Props
import Verif.Factory.PetscProps
import Verif.Factory.StackProps
import Verif.Sai.Props
import Verif.PetscIO.Props
import Verif.PetscIO.OptProps
import Verif.Arith.RowLemmas
import Verif.Arith.MatVecLemmas
import Verif.Arith.MatVecProps
import Verif.Arith.SolveProps
import Verif.Arith.FacProps
import Verif.Arith.Examples
import Verif.Arith.FlSpec
import Verif.Arith.FlLemmas
import Verif.Arith.FlMatVecProps
import Verif.Arith.FlSolveProps
import Verif.Arith.FlFacProps
import Verif.Arith.FlResidual
import Verif.Arith.FlEx
import Verif.Arith.FlExamples
import Verif.Ints.Model
import Verif.Ints.Lemmas
import Verif.Ints.PosProps
import Verif.Ints.ConvProps
import Verif.Race.Props
import Verif.Race.AsyncModel
import Verif.Race.AsyncLemmas
import Verif.Race.KernelLemmas
import Verif.Race.AsyncProps
import Verif.ILU.DomLemmas
import Verif.Solve.DomProps
import Verif.Base.Dot
import Verif.Async.Simultaneous
import Verif.Solve.SymLemmas
import Verif.Solve.SymProps
import Verif.Relax.EnergyProps
import Verif.Solve.DepthProps
import Verif.Solve.SharpProps
import Verif.Solve.FewProps
import Verif.ILU.SweepLemmas
import Verif.ILU.SweepProps
import Verif.Solve.ApproxLemmas
import Verif.Solve.ApproxProps
import Verif.Relax.PetscApplyModel
import Verif.Relax.PetscApplyProps
import Verif.Relax.WeightProps
import Verif.Krylov.Model
import Verif.Krylov.Spec
import Verif.Krylov.Lemmas
import Verif.Krylov.RichProps
import Verif.Krylov.BicgLemmas
import Verif.Krylov.BicgProps
import Verif.Krylov.GcrLemmas
import Verif.Krylov.GcrProg
import Verif.Krylov.GcrProps
import Verif.Krylov.Props
import Verif.Coo.MMBad
import Verif.Heap.ViewProps
import Verif.Factory.OrderProps
import Verif.Relax.Shrink
import Verif.Arith.FlRelaxProps
import Verif.Arith.FlRelaxExamples
import Verif.Solve.BeforeProps
import Verif.Coo.MMRows
import Verif.Coo.MMRowProps
import Verif.ILU.BlockDomLemmas
import Verif.Solve.BlockDomProps
import Verif.Race.TornModel
import Verif.Race.TornLemmas
import Verif.Race.TornKernels
import Verif.Race.TornProps
import Verif.Race.TornEnds
import Verif.PetscIO.UtilModel
import Verif.PetscIO.UtilProps
import Verif.Krylov.ProgModel
import Verif.Krylov.ProgSpec
import Verif.Krylov.ProgProps
import Verif.Krylov.BlockSpec
import Verif.Krylov.ContractProps
import Verif.Krylov.BlockProps
import Verif.Krylov.RelaxSpec
import Verif.Krylov.RelaxPrecProps
import Verif.Krylov.ReordModel
import Verif.Krylov.ReordSpec
import Verif.Krylov.ReordProps
import Verif.ILU.NoscaleModel
import Verif.ILU.NoscaleProps
import Verif.ConvTest.Model
import Verif.ConvTest.Spec
import Verif.ConvTest.Lemmas
import Verif.ConvTest.CoreLemmas
import Verif.ConvTest.Props
import Verif.Race.SeqExec
import Verif.TriTest.Model
import Verif.TriTest.Spec
import Verif.TriTest.Lemmas
import Verif.TriTest.Props
import Verif.Poisson.Model
import Verif.Poisson.Spec
import Verif.Poisson.Props
import Verif.Poisson.MatProps
import Verif.Poisson.MeshProps
import Verif.Solve.SgsFewProps
import Verif.Solve.BlockFewProps
import Verif.Solve.TornFewProps
import Verif.PetscTest.Props
import Verif.PerfTest.Props
import Verif.PetscTest.SweepProps
import Verif.Poisson.FileProps
import Verif.PetscTest.SingleProps
import Verif.PetscTest.DriverProps
import Verif.PetscTest.SystemProps
import Verif.Audit
