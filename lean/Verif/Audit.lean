import Verif.MatVec.Props
import Verif.Transpose.Props
import Verif.Algo.Props
import Verif.ILU.PosProps
import Verif.ILU.ScalarProps
import Verif.ILU.AsyncProps
import Verif.ILU.BlockProps
import Verif.Solve.IluProps
import Verif.Solve.SgsProps
import Verif.Solve.BgsProps
import Verif.Levels.Props
import Verif.Relax.Props
import Verif.Reorder.Props
import Verif.Reorder.IluProps
import Verif.Reorder.Mc64Model
import Verif.Reorder.Mc64Spec
import Verif.Reorder.Mc64Props
import Verif.Relax.PetscModel
import Verif.Relax.PetscProps
import Verif.Container.ViewProps
import Verif.Container.AssemblyProps
import Verif.Container.CompareProps
import Verif.Info.Props
import Verif.Heap.Props
import Verif.Heap.MatProps
import Verif.Coo.CsrProps
import Verif.Coo.BsrProps
import Verif.Coo.MMProps
import Verif.Factory.Props
import Verif.Factory.PetscProps
import Verif.Factory.StackProps
import Verif.Sai.Props
import Verif.PetscIO.Props
import Verif.PetscIO.OptProps
import Verif.Arith.RowLemmas
import Verif.Arith.MatVecLemmas
import Verif.Arith.MatVecProps
import Verif.Arith.SolveProps
import Verif.Arith.FacProps
import Verif.Arith.Examples
import Verif.Arith.FlSpec
import Verif.Arith.FlLemmas
import Verif.Arith.FlMatVecProps
import Verif.Arith.FlSolveProps
import Verif.Arith.FlFacProps
import Verif.Arith.FlResidual
import Verif.Arith.FlEx
import Verif.Arith.FlExamples
import Verif.Ints.Model
import Verif.Ints.Lemmas
import Verif.Ints.PosProps
import Verif.Ints.ConvProps
import Verif.Race.Props
import Verif.Race.AsyncModel
import Verif.Race.AsyncLemmas
import Verif.Race.KernelLemmas
import Verif.Race.AsyncProps
import Verif.ILU.DomLemmas
import Verif.Solve.DomProps
import Verif.Base.Dot
import Verif.Async.Simultaneous
import Verif.Solve.SymLemmas
import Verif.Solve.SymProps
import Verif.Relax.EnergyProps
import Verif.Solve.DepthProps
import Verif.Solve.SharpProps
import Verif.Solve.FewProps
import Verif.ILU.SweepLemmas
import Verif.ILU.SweepProps
import Verif.Solve.ApproxLemmas
import Verif.Solve.ApproxProps
import Verif.Relax.PetscApplyModel
import Verif.Relax.PetscApplyProps
import Verif.Relax.WeightProps
import Verif.Krylov.Model
import Verif.Krylov.Spec
import Verif.Krylov.Lemmas
import Verif.Krylov.RichProps
import Verif.Krylov.BicgLemmas
import Verif.Krylov.BicgProps
import Verif.Krylov.GcrLemmas
import Verif.Krylov.GcrProg
import Verif.Krylov.GcrProps
import Verif.Krylov.Props
import Verif.Coo.MMBad
import Verif.Heap.ViewProps
import Verif.Factory.OrderProps
import Verif.Relax.Shrink
import Verif.Arith.FlRelaxProps
import Verif.Arith.FlRelaxExamples
import Verif.Solve.BeforeProps
import Verif.Coo.MMRows
import Verif.Coo.MMRowProps
import Verif.ILU.BlockDomLemmas
import Verif.Solve.BlockDomProps
import Verif.Race.TornModel
import Verif.Race.TornLemmas
import Verif.Race.TornKernels
import Verif.Race.TornProps
import Verif.Race.TornEnds
import Verif.PetscIO.UtilModel
import Verif.PetscIO.UtilProps
import Verif.Krylov.ProgModel
import Verif.Krylov.ProgSpec
import Verif.Krylov.ProgProps
import Verif.Krylov.BlockSpec
import Verif.Krylov.ContractProps
import Verif.Krylov.BlockProps
import Verif.Krylov.RelaxSpec
import Verif.Krylov.RelaxPrecProps
import Verif.Krylov.ReordModel
import Verif.Krylov.ReordSpec
import Verif.Krylov.ReordProps
import Verif.ILU.NoscaleModel
import Verif.ILU.NoscaleProps
import Verif.ConvTest.Model
import Verif.ConvTest.Spec
import Verif.ConvTest.Lemmas
import Verif.ConvTest.CoreLemmas
import Verif.ConvTest.Props
import Verif.Race.SeqExec
import Verif.TriTest.Model
import Verif.TriTest.Spec
import Verif.TriTest.Lemmas
import Verif.TriTest.Props
import Verif.Poisson.Model
import Verif.Poisson.Spec
import Verif.Poisson.Props
import Verif.Poisson.MatProps
import Verif.Poisson.MeshProps
import Verif.Solve.SgsFewProps
import Verif.Solve.BlockFewProps
import Verif.Solve.TornFewProps
import Verif.PetscTest.Props
import Verif.PerfTest.Props
import Verif.PetscTest.SweepProps
import Verif.Poisson.FileProps
import Verif.PetscTest.SingleProps
import Verif.PetscTest.DriverProps
import Verif.PetscTest.SystemProps

/-!
# Axioms of the claimed theorems

For every theorem named in `MANIFEST.json`, the axioms it depends on, as reported by `#print axioms`. The build fails if
one of the reports differs from the text above it. Generated from the manifest.
-/

/-- info: 'Blasted.csr_apply_correct' depends on axioms: [propext, Classical.choice, Quot.sound] -/
#guard_msgs (whitespace := lax) in
#print axioms Blasted.csr_apply_correct

/-- info: 'Blasted.csr_apply_interleaved' depends on axioms: [propext, Classical.choice, Quot.sound] -/
#guard_msgs (whitespace := lax) in
#print axioms Blasted.csr_apply_interleaved

/-- info: 'Blasted.bsr_apply_correct' depends on axioms: [propext, Classical.choice, Quot.sound] -/
#guard_msgs (whitespace := lax) in
#print axioms Blasted.bsr_apply_correct

/-- info: 'Blasted.csr_gemv3_correct' depends on axioms: [propext, Classical.choice, Quot.sound] -/
#guard_msgs (whitespace := lax) in
#print axioms Blasted.csr_gemv3_correct

/-- info: 'Blasted.csr_gemv3_interleaved' depends on axioms: [propext, Classical.choice, Quot.sound] -/
#guard_msgs (whitespace := lax) in
#print axioms Blasted.csr_gemv3_interleaved

/-- info: 'Blasted.bsr_gemv3_correct' depends on axioms: [propext, Classical.choice, Quot.sound] -/
#guard_msgs (whitespace := lax) in
#print axioms Blasted.bsr_gemv3_correct

/-- info: 'Blasted.bcsc_gemv3_correct' depends on axioms: [propext, Classical.choice, Quot.sound] -/
#guard_msgs (whitespace := lax) in
#print axioms Blasted.bcsc_gemv3_correct

/-- info: 'Blasted.bcsc_gemv3_eq_bsr_gemv3' depends on axioms: [propext, Classical.choice, Quot.sound] -/
#guard_msgs (whitespace := lax) in
#print axioms Blasted.bcsc_gemv3_eq_bsr_gemv3

/-- info: 'Blasted.convert_BSR_to_BSC_correct' depends on axioms: [propext, Classical.choice, Quot.sound] -/
#guard_msgs (whitespace := lax) in
#print axioms Blasted.convert_BSR_to_BSC_correct

/-- info: 'Blasted.convert_BSR_to_BSC_same_matrix' depends on axioms: [propext, Classical.choice, Quot.sound] -/
#guard_msgs (whitespace := lax) in
#print axioms Blasted.convert_BSR_to_BSC_same_matrix

/-- info: 'Blasted.convert_BSR_to_BSC_1based_correct' depends on axioms: [propext, Classical.choice, Quot.sound] -/
#guard_msgs (whitespace := lax) in
#print axioms Blasted.convert_BSR_to_BSC_1based_correct

/-- info: 'Blasted.column_adjacency_correct' depends on axioms: [propext, Classical.choice, Quot.sound] -/
#guard_msgs (whitespace := lax) in
#print axioms Blasted.column_adjacency_correct

/-- info: 'Blasted.sort_block_inner_correct' depends on axioms: [propext, Classical.choice, Quot.sound] -/
#guard_msgs (whitespace := lax) in
#print axioms Blasted.sort_block_inner_correct

/-- info: 'Blasted.sort_block_inner_strict' depends on axioms: [propext, Classical.choice, Quot.sound] -/
#guard_msgs (whitespace := lax) in
#print axioms Blasted.sort_block_inner_strict

/-- info: 'Blasted.inclusive_scan_correct' depends on axioms: [propext, Classical.choice, Quot.sound] -/
#guard_msgs (whitespace := lax) in
#print axioms Blasted.inclusive_scan_correct

/-- info: 'Blasted.prefix_sum_correct_partial' depends on axioms: [propext, Classical.choice, Quot.sound] -/
#guard_msgs (whitespace := lax) in
#print axioms Blasted.prefix_sum_correct_partial

/-- info: 'Blasted.prefix_sum_small' depends on axioms: [propext, Classical.choice, Quot.sound] -/
#guard_msgs (whitespace := lax) in
#print axioms Blasted.prefix_sum_small

/-- info: 'Blasted.prefix_sum_ub' depends on axioms: [propext, Classical.choice, Quot.sound] -/
#guard_msgs (whitespace := lax) in
#print axioms Blasted.prefix_sum_ub

/-- info: 'Blasted.prefix_sum_wrong' depends on axioms: [propext, Classical.choice, Quot.sound] -/
#guard_msgs (whitespace := lax) in
#print axioms Blasted.prefix_sum_wrong

/-- info: 'Blasted.prefix_sum_levels_ok' depends on axioms: [propext, Classical.choice, Quot.sound] -/
#guard_msgs (whitespace := lax) in
#print axioms Blasted.prefix_sum_levels_ok

/-- info: 'Blasted.async_ilu_iteration_converges' depends on axioms: [propext, Classical.choice, Quot.sound] -/
#guard_msgs (whitespace := lax) in
#print axioms Blasted.async_ilu_iteration_converges

/-- info: 'Blasted.ilu_near_iteration_converges' depends on axioms: [propext, Classical.choice, Quot.sound] -/
#guard_msgs (whitespace := lax) in
#print axioms Blasted.ilu_near_iteration_converges

/-- info: 'Blasted.exists_execIteration' depends on axioms: [propext, Classical.choice, Quot.sound] -/
#guard_msgs (whitespace := lax) in
#print axioms Blasted.exists_execIteration

/-- info: 'Blasted.async_sgs_iteration_converges' depends on axioms: [propext, Classical.choice, Quot.sound] -/
#guard_msgs (whitespace := lax) in
#print axioms Blasted.async_sgs_iteration_converges

/-- info: 'Blasted.async_sgs_iteration_converges_lag' depends on axioms: [propext, Classical.choice, Quot.sound] -/
#guard_msgs (whitespace := lax) in
#print axioms Blasted.async_sgs_iteration_converges_lag

/-- info: 'Blasted.async_block_sgs_iteration_converges' depends on axioms: [propext, Classical.choice, Quot.sound] -/
#guard_msgs (whitespace := lax) in
#print axioms Blasted.async_block_sgs_iteration_converges

/-- info: 'Blasted.torn_sgs_contracts' depends on axioms: [propext, Classical.choice, Quot.sound] -/
#guard_msgs (whitespace := lax) in
#print axioms Blasted.torn_sgs_contracts

/-- info: 'Blasted.torn_sgs_iteration_converges' depends on axioms: [propext, Classical.choice, Quot.sound] -/
#guard_msgs (whitespace := lax) in
#print axioms Blasted.torn_sgs_iteration_converges

/-- info: 'Blasted.exists_sgsExecResult' depends on axioms: [propext, Classical.choice, Quot.sound] -/
#guard_msgs (whitespace := lax) in
#print axioms Blasted.exists_sgsExecResult

/-- info: 'Blasted.exists_sgsTornResult' depends on axioms: [propext, Classical.choice, Quot.sound] -/
#guard_msgs (whitespace := lax) in
#print axioms Blasted.exists_sgsTornResult

/-- info: 'Blasted.exists_corrIteration' depends on axioms: [propext, Classical.choice, Quot.sound] -/
#guard_msgs (whitespace := lax) in
#print axioms Blasted.exists_corrIteration

/-- info: 'Blasted.block_ilu_few_sweeps' depends on axioms: [propext, Classical.choice, Quot.sound] -/
#guard_msgs (whitespace := lax) in
#print axioms Blasted.block_ilu_few_sweeps

/-- info: 'Blasted.block_ilu_few_sweeps_exec' depends on axioms: [propext, Classical.choice, Quot.sound] -/
#guard_msgs (whitespace := lax) in
#print axioms Blasted.block_ilu_few_sweeps_exec

/-- info: 'Blasted.block_ilu_few_iteration_converges' depends on axioms: [propext, Classical.choice, Quot.sound] -/
#guard_msgs (whitespace := lax) in
#print axioms Blasted.block_ilu_few_iteration_converges

/-- info: 'Blasted.exists_asyncBlockIluApply' depends on axioms: [propext, Classical.choice, Quot.sound] -/
#guard_msgs (whitespace := lax) in
#print axioms Blasted.exists_asyncBlockIluApply

/-- info: 'Blasted.torn_block_ilu_few_sweeps' depends on axioms: [propext, Classical.choice, Quot.sound] -/
#guard_msgs (whitespace := lax) in
#print axioms Blasted.torn_block_ilu_few_sweeps

/-- info: 'Blasted.torn_block_ilu_few_sweeps_exec' depends on axioms: [propext, Classical.choice, Quot.sound] -/
#guard_msgs (whitespace := lax) in
#print axioms Blasted.torn_block_ilu_few_sweeps_exec

/-- info: 'Blasted.torn_block_ilu_few_iteration_converges' depends on axioms: [propext, Classical.choice, Quot.sound] -/
#guard_msgs (whitespace := lax) in
#print axioms Blasted.torn_block_ilu_few_iteration_converges

/-- info: 'Blasted.exists_tornIluExec' depends on axioms: [propext, Classical.choice, Quot.sound] -/
#guard_msgs (whitespace := lax) in
#print axioms Blasted.exists_tornIluExec

/-- info: 'Blasted.comparison_passes_iff' depends on axioms: [propext, Classical.choice, Quot.sound] -/
#guard_msgs (whitespace := lax) in
#print axioms Blasted.comparison_passes_iff

/-- info: 'Blasted.comparison_needs_type' depends on axioms: [propext, Classical.choice, Quot.sound] -/
#guard_msgs (whitespace := lax) in
#print axioms Blasted.comparison_needs_type

/-- info: 'Blasted.comparison_without_runs' depends on axioms: [propext, Classical.choice, Quot.sound] -/
#guard_msgs (whitespace := lax) in
#print axioms Blasted.comparison_without_runs

/-- info: 'Blasted.comparison_rounds_mean' depends on axioms: [propext, Classical.choice, Quot.sound] -/
#guard_msgs (whitespace := lax) in
#print axioms Blasted.comparison_rounds_mean

/-- info: 'Blasted.set_sweeps_sound' depends on axioms: [propext, Classical.choice, Quot.sound] -/
#guard_msgs (whitespace := lax) in
#print axioms Blasted.set_sweeps_sound

/-- info: 'Blasted.set_sweeps_returns' depends on axioms: [propext, Classical.choice, Quot.sound] -/
#guard_msgs (whitespace := lax) in
#print axioms Blasted.set_sweeps_returns

/-- info: 'Blasted.block_size_correct' depends on axioms: [propext] -/
#guard_msgs (whitespace := lax) in
#print axioms Blasted.block_size_correct

/-- info: 'Blasted.perf_line_correct' depends on axioms: [propext, Classical.choice, Quot.sound] -/
#guard_msgs (whitespace := lax) in
#print axioms Blasted.perf_line_correct

/-- info: 'Blasted.perf_line_failed' depends on axioms: [propext, Classical.choice, Quot.sound] -/
#guard_msgs (whitespace := lax) in
#print axioms Blasted.perf_line_failed

/-- info: 'Blasted.perf_first_fails' depends on axioms: [propext, Classical.choice, Quot.sound] -/
#guard_msgs (whitespace := lax) in
#print axioms Blasted.perf_first_fails

/-- info: 'Blasted.perf_threads_ignored' depends on axioms: [propext, Classical.choice, Quot.sound] -/
#guard_msgs (whitespace := lax) in
#print axioms Blasted.perf_threads_ignored

/-- info: 'Blasted.perf_program_same_lines' depends on axioms: [propext, Classical.choice, Quot.sound] -/
#guard_msgs (whitespace := lax) in
#print axioms Blasted.perf_program_same_lines

/-- info: 'Blasted.perf_params_iff' depends on axioms: [propext, Quot.sound] -/
#guard_msgs (whitespace := lax) in
#print axioms Blasted.perf_params_iff

/-- info: 'Blasted.perf_average_above_maximum' depends on axioms: [propext, Classical.choice, Quot.sound] -/
#guard_msgs (whitespace := lax) in
#print axioms Blasted.perf_average_above_maximum

/-- info: 'Blasted.sweep_setting_correct' depends on axioms: [propext, Classical.choice, Quot.sound] -/
#guard_msgs (whitespace := lax) in
#print axioms Blasted.sweep_setting_correct

/-- info: 'Blasted.sweep_setting_limit' depends on axioms: [propext, Classical.choice, Quot.sound] -/
#guard_msgs (whitespace := lax) in
#print axioms Blasted.sweep_setting_limit

/-- info: 'Blasted.sweep_setting_failed' depends on axioms: [propext, Classical.choice, Quot.sound] -/
#guard_msgs (whitespace := lax) in
#print axioms Blasted.sweep_setting_failed

/-- info: 'Blasted.sweep_setting_without_runs' depends on axioms: [propext, Classical.choice, Quot.sound] -/
#guard_msgs (whitespace := lax) in
#print axioms Blasted.sweep_setting_without_runs

/-- info: 'Blasted.sweep_table_correct' depends on axioms: [propext, Classical.choice, Quot.sound] -/
#guard_msgs (whitespace := lax) in
#print axioms Blasted.sweep_table_correct

/-- info: 'Blasted.sweep_table_returns' depends on axioms: [propext, Classical.choice, Quot.sound] -/
#guard_msgs (whitespace := lax) in
#print axioms Blasted.sweep_table_returns

/-- info: 'Blasted.comparison_c_passes_iff' depends on axioms: [propext, Classical.choice, Quot.sound] -/
#guard_msgs (whitespace := lax) in
#print axioms Blasted.comparison_c_passes_iff

/-- info: 'Blasted.comparison_c_unreadable' depends on axioms: [propext, Classical.choice, Quot.sound] -/
#guard_msgs (whitespace := lax) in
#print axioms Blasted.comparison_c_unreadable

/-- info: 'Blasted.control_file_read' depends on axioms: [propext, Classical.choice, Quot.sound] -/
#guard_msgs (whitespace := lax) in
#print axioms Blasted.control_file_read

/-- info: 'Blasted.control_file_truncated' depends on axioms: [propext, Classical.choice, Quot.sound] -/
#guard_msgs (whitespace := lax) in
#print axioms Blasted.control_file_truncated

/-- info: 'Blasted.control_file_bad_points' depends on axioms: [propext, Classical.choice, Quot.sound] -/
#guard_msgs (whitespace := lax) in
#print axioms Blasted.control_file_bad_points

/-- info: 'Blasted.control_file_bad_corner' depends on axioms: [propext, Classical.choice, Quot.sound] -/
#guard_msgs (whitespace := lax) in
#print axioms Blasted.control_file_bad_corner

/-- info: 'Blasted.control_file_long_heading' depends on axioms: [propext, Quot.sound] -/
#guard_msgs (whitespace := lax) in
#print axioms Blasted.control_file_long_heading

/-- info: 'Blasted.single_correct' depends on axioms: [propext, Classical.choice, Quot.sound] -/
#guard_msgs (whitespace := lax) in
#print axioms Blasted.single_correct

/-- info: 'Blasted.single_failed' depends on axioms: [propext, Classical.choice, Quot.sound] -/
#guard_msgs (whitespace := lax) in
#print axioms Blasted.single_failed

/-- info: 'Blasted.single_message_iff' depends on axioms: [propext, Classical.choice, Quot.sound] -/
#guard_msgs (whitespace := lax) in
#print axioms Blasted.single_message_iff

/-- info: 'Blasted.single_without_runs' depends on axioms: [propext, Quot.sound] -/
#guard_msgs (whitespace := lax) in
#print axioms Blasted.single_without_runs

/-- info: 'Blasted.single_negative_runs' depends on axioms: [propext, Quot.sound] -/
#guard_msgs (whitespace := lax) in
#print axioms Blasted.single_negative_runs

/-- info: 'Blasted.single_unreadable' depends on axioms: [propext, Quot.sound] -/
#guard_msgs (whitespace := lax) in
#print axioms Blasted.single_unreadable

/-- info: 'Blasted.problem_choice_correct' depends on axioms: [propext, Classical.choice, Quot.sound] -/
#guard_msgs (whitespace := lax) in
#print axioms Blasted.problem_choice_correct

/-- info: 'Blasted.problem_choice_first' depends on axioms: [propext, Classical.choice, Quot.sound] -/
#guard_msgs (whitespace := lax) in
#print axioms Blasted.problem_choice_first

/-- info: 'Blasted.problem_choice_second' depends on axioms: [propext, Classical.choice, Quot.sound] -/
#guard_msgs (whitespace := lax) in
#print axioms Blasted.problem_choice_second

/-- info: 'Blasted.problem_choice_beyond' depends on axioms: [propext, Classical.choice, Quot.sound] -/
#guard_msgs (whitespace := lax) in
#print axioms Blasted.problem_choice_beyond

/-- info: 'Blasted.problem_choice_missing' depends on axioms: [propext, Classical.choice, Quot.sound] -/
#guard_msgs (whitespace := lax) in
#print axioms Blasted.problem_choice_missing

/-- info: 'Blasted.conv_driver_correct' depends on axioms: [propext, Classical.choice, Quot.sound] -/
#guard_msgs (whitespace := lax) in
#print axioms Blasted.conv_driver_correct

/-- info: 'Blasted.conv_driver_ignores_code' depends on axioms: [propext, Classical.choice, Quot.sound] -/
#guard_msgs (whitespace := lax) in
#print axioms Blasted.conv_driver_ignores_code

/-- info: 'Blasted.conv_driver_cleanup' depends on axioms: [propext, Classical.choice, Quot.sound] -/
#guard_msgs (whitespace := lax) in
#print axioms Blasted.conv_driver_cleanup

/-- info: 'Blasted.conv_driver_refuses' depends on axioms: [propext, Classical.choice, Quot.sound] -/
#guard_msgs (whitespace := lax) in
#print axioms Blasted.conv_driver_refuses

/-- info: 'Blasted.conv_driver_help_refused' depends on axioms: [propext, Classical.choice, Quot.sound] -/
#guard_msgs (whitespace := lax) in
#print axioms Blasted.conv_driver_help_refused

/-- info: 'Blasted.conv_driver_few_arguments' depends on axioms: [propext, Classical.choice, Quot.sound] -/
#guard_msgs (whitespace := lax) in
#print axioms Blasted.conv_driver_few_arguments

/-- info: 'Blasted.conv_driver_option_missing' depends on axioms: [propext, Classical.choice, Quot.sound] -/
#guard_msgs (whitespace := lax) in
#print axioms Blasted.conv_driver_option_missing

/-- info: 'Blasted.invert_permutation_correct' depends on axioms: [propext, Classical.choice, Quot.sound] -/
#guard_msgs (whitespace := lax) in
#print axioms Blasted.invert_permutation_correct

/-- info: 'Blasted.set_ordering_correct' depends on axioms: [propext, Classical.choice, Quot.sound] -/
#guard_msgs (whitespace := lax) in
#print axioms Blasted.set_ordering_correct

/-- info: 'Blasted.set_ordering_valid' depends on axioms: [propext, Classical.choice, Quot.sound] -/
#guard_msgs (whitespace := lax) in
#print axioms Blasted.set_ordering_valid

/-- info: 'Blasted.set_ordering_no_check' depends on axioms: [propext] -/
#guard_msgs (whitespace := lax) in
#print axioms Blasted.set_ordering_no_check

/-- info: 'Blasted.read_system_iff' depends on axioms: [propext, Classical.choice, Quot.sound] -/
#guard_msgs (whitespace := lax) in
#print axioms Blasted.read_system_iff

/-- info: 'Blasted.petsc_test_iff' depends on axioms: [propext, Classical.choice, Quot.sound] -/
#guard_msgs (whitespace := lax) in
#print axioms Blasted.petsc_test_iff

/-- info: 'Blasted.petsc_test_cleanup' depends on axioms: [propext, Classical.choice, Quot.sound] -/
#guard_msgs (whitespace := lax) in
#print axioms Blasted.petsc_test_cleanup

/-- info: 'Blasted.petsc_test_missing_files' depends on axioms: [propext, Classical.choice, Quot.sound] -/
#guard_msgs (whitespace := lax) in
#print axioms Blasted.petsc_test_missing_files

/-- info: 'Blasted.apply_ordering_forward' depends on axioms: [propext, Classical.choice, Quot.sound] -/
#guard_msgs (whitespace := lax) in
#print axioms Blasted.apply_ordering_forward

/-- info: 'Blasted.apply_ordering_inverse' depends on axioms: [propext, Classical.choice, Quot.sound] -/
#guard_msgs (whitespace := lax) in
#print axioms Blasted.apply_ordering_inverse

/-- info: 'Blasted.apply_ordering_roundtrip' depends on axioms: [propext, Classical.choice, Quot.sound] -/
#guard_msgs (whitespace := lax) in
#print axioms Blasted.apply_ordering_roundtrip

/-- info: 'Blasted.apply_ordering_forward_bentry' depends on axioms: [propext, Classical.choice, Quot.sound] -/
#guard_msgs (whitespace := lax) in
#print axioms Blasted.apply_ordering_forward_bentry

/-- info: 'Blasted.apply_ordering_vec_correct' depends on axioms: [propext, Classical.choice, Quot.sound] -/
#guard_msgs (whitespace := lax) in
#print axioms Blasted.apply_ordering_vec_correct

/-- info: 'Blasted.apply_ordering_vec_roundtrip' depends on axioms: [propext, Classical.choice, Quot.sound] -/
#guard_msgs (whitespace := lax) in
#print axioms Blasted.apply_ordering_vec_roundtrip

/-- info: 'Blasted.reordered_system' depends on axioms: [propext, Classical.choice, Quot.sound] -/
#guard_msgs (whitespace := lax) in
#print axioms Blasted.reordered_system

/-- info: 'Blasted.apply_scaling_forward' depends on axioms: [propext, Classical.choice, Quot.sound] -/
#guard_msgs (whitespace := lax) in
#print axioms Blasted.apply_scaling_forward

/-- info: 'Blasted.apply_scaling_inverse' depends on axioms: [propext, Classical.choice, Quot.sound] -/
#guard_msgs (whitespace := lax) in
#print axioms Blasted.apply_scaling_inverse

/-- info: 'Blasted.apply_scaling_roundtrip' depends on axioms: [propext, Classical.choice, Quot.sound] -/
#guard_msgs (whitespace := lax) in
#print axioms Blasted.apply_scaling_roundtrip

/-- info: 'Blasted.apply_scaling_vec_correct' depends on axioms: [propext, Classical.choice, Quot.sound] -/
#guard_msgs (whitespace := lax) in
#print axioms Blasted.apply_scaling_vec_correct

/-- info: 'Blasted.apply_scaling_vec_roundtrip' depends on axioms: [propext, Classical.choice, Quot.sound] -/
#guard_msgs (whitespace := lax) in
#print axioms Blasted.apply_scaling_vec_roundtrip

/-- info: 'Blasted.apply_scaling_zero_factor' depends on axioms: [propext, Classical.choice, Quot.sound] -/
#guard_msgs (whitespace := lax) in
#print axioms Blasted.apply_scaling_zero_factor

/-- info: 'Blasted.reorder_scale_forward' depends on axioms: [propext, Classical.choice, Quot.sound] -/
#guard_msgs (whitespace := lax) in
#print axioms Blasted.reorder_scale_forward

/-- info: 'Blasted.reorder_scale_roundtrip' depends on axioms: [propext, Classical.choice, Quot.sound] -/
#guard_msgs (whitespace := lax) in
#print axioms Blasted.reorder_scale_roundtrip

/-- info: 'Blasted.reorder_scale_diag_partial' depends on axioms: [propext, Classical.choice, Quot.sound] -/
#guard_msgs (whitespace := lax) in
#print axioms Blasted.reorder_scale_diag_partial

/-- info: 'Blasted.reorder_scale_diagind_stale' depends on axioms: [propext, Classical.choice, Quot.sound] -/
#guard_msgs (whitespace := lax) in
#print axioms Blasted.reorder_scale_diagind_stale

/-- info: 'Blasted.reord_ilu_compute_exact' depends on axioms: [propext, Classical.choice, Quot.sound] -/
#guard_msgs (whitespace := lax) in
#print axioms Blasted.reord_ilu_compute_exact

/-- info: 'Blasted.reord_ilu_apply_general' depends on axioms: [propext, Classical.choice, Quot.sound] -/
#guard_msgs (whitespace := lax) in
#print axioms Blasted.reord_ilu_apply_general

/-- info: 'Blasted.reord_ilu_solves_partial' depends on axioms: [propext, Classical.choice, Quot.sound] -/
#guard_msgs (whitespace := lax) in
#print axioms Blasted.reord_ilu_solves_partial

/-- info: 'Blasted.reord_ilu_solves_async_partial' depends on axioms: [propext, Classical.choice, Quot.sound] -/
#guard_msgs (whitespace := lax) in
#print axioms Blasted.reord_ilu_solves_async_partial

/-- info: 'Blasted.reord_ilu_apply_wrong' depends on axioms: [propext, Classical.choice, Quot.sound] -/
#guard_msgs (whitespace := lax) in
#print axioms Blasted.reord_ilu_apply_wrong

/-- info: 'Blasted.reord_ilu_stale_diag' depends on axioms: [propext, Classical.choice, Quot.sound] -/
#guard_msgs (whitespace := lax) in
#print axioms Blasted.reord_ilu_stale_diag

/-- info: 'Blasted.compute_ILU_positions_correct' depends on axioms: [propext, Classical.choice, Quot.sound] -/
#guard_msgs (whitespace := lax) in
#print axioms Blasted.compute_ILU_positions_correct

/-- info: 'Blasted.scalar_ilu_compute_exact' depends on axioms: [propext, Classical.choice, Quot.sound] -/
#guard_msgs (whitespace := lax) in
#print axioms Blasted.scalar_ilu_compute_exact

/-- info: 'Blasted.scalar_ilu_compute_complete' depends on axioms: [propext, Classical.choice, Quot.sound] -/
#guard_msgs (whitespace := lax) in
#print axioms Blasted.scalar_ilu_compute_complete

/-- info: 'Blasted.scalar_ilu_compute_no_ub_partial' depends on axioms: [propext, Classical.choice, Quot.sound] -/
#guard_msgs (whitespace := lax) in
#print axioms Blasted.scalar_ilu_compute_no_ub_partial

/-- info: 'Blasted.scalar_ilu_scaled_sgs_ub' depends on axioms: [propext, Classical.choice, Quot.sound] -/
#guard_msgs (whitespace := lax) in
#print axioms Blasted.scalar_ilu_scaled_sgs_ub

/-- info: 'Blasted.block_ilu_compute_exact' depends on axioms: [propext, Classical.choice, Quot.sound] -/
#guard_msgs (whitespace := lax) in
#print axioms Blasted.block_ilu_compute_exact

/-- info: 'Blasted.block_ilu_compute_complete' depends on axioms: [propext, Classical.choice, Quot.sound] -/
#guard_msgs (whitespace := lax) in
#print axioms Blasted.block_ilu_compute_complete

/-- info: 'Blasted.block_ilu_compute_no_ub' depends on axioms: [propext, Classical.choice, Quot.sound] -/
#guard_msgs (whitespace := lax) in
#print axioms Blasted.block_ilu_compute_no_ub

/-- info: 'Blasted.scalar_ilu_compute_independent' depends on axioms: [propext, Classical.choice, Quot.sound] -/
#guard_msgs (whitespace := lax) in
#print axioms Blasted.scalar_ilu_compute_independent

/-- info: 'Blasted.scalar_ilu_history_independent' depends on axioms: [propext, Classical.choice, Quot.sound] -/
#guard_msgs (whitespace := lax) in
#print axioms Blasted.scalar_ilu_history_independent

/-- info: 'Blasted.block_ilu_compute_independent' depends on axioms: [propext, Classical.choice, Quot.sound] -/
#guard_msgs (whitespace := lax) in
#print axioms Blasted.block_ilu_compute_independent

/-- info: 'Blasted.block_ilu_history_independent' depends on axioms: [propext, Classical.choice, Quot.sound] -/
#guard_msgs (whitespace := lax) in
#print axioms Blasted.block_ilu_history_independent

/-- info: 'Blasted.async_ilu_exact_is_fixed' depends on axioms: [propext, Classical.choice, Quot.sound] -/
#guard_msgs (whitespace := lax) in
#print axioms Blasted.async_ilu_exact_is_fixed

/-- info: 'Blasted.async_ilu_fixed_is_exact' depends on axioms: [propext, Classical.choice, Quot.sound] -/
#guard_msgs (whitespace := lax) in
#print axioms Blasted.async_ilu_fixed_is_exact

/-- info: 'Blasted.async_ilu_rounds_exact' depends on axioms: [propext, Classical.choice, Quot.sound] -/
#guard_msgs (whitespace := lax) in
#print axioms Blasted.async_ilu_rounds_exact

/-- info: 'Blasted.async_ilu_sweeps_exact' depends on axioms: [propext, Classical.choice, Quot.sound] -/
#guard_msgs (whitespace := lax) in
#print axioms Blasted.async_ilu_sweeps_exact

/-- info: 'Blasted.async_ilu_nowait_not_exact' depends on axioms: [propext, Classical.choice, Quot.sound] -/
#guard_msgs (whitespace := lax) in
#print axioms Blasted.async_ilu_nowait_not_exact

/-- info: 'Blasted.remNorm_eq_zero_iff' depends on axioms: [propext, Classical.choice, Quot.sound] -/
#guard_msgs (whitespace := lax) in
#print axioms Blasted.remNorm_eq_zero_iff

/-- info: 'Blasted.scalar_ilu_residual_correct' depends on axioms: [propext, Classical.choice, Quot.sound] -/
#guard_msgs (whitespace := lax) in
#print axioms Blasted.scalar_ilu_residual_correct

/-- info: 'Blasted.scalar_ilu_compute_info' depends on axioms: [propext, Classical.choice, Quot.sound] -/
#guard_msgs (whitespace := lax) in
#print axioms Blasted.scalar_ilu_compute_info

/-- info: 'Blasted.blockRemNorm_eq_zero_iff' depends on axioms: [propext, Classical.choice, Quot.sound] -/
#guard_msgs (whitespace := lax) in
#print axioms Blasted.blockRemNorm_eq_zero_iff

/-- info: 'Blasted.block_ilu_residual_correct' depends on axioms: [propext, Classical.choice, Quot.sound] -/
#guard_msgs (whitespace := lax) in
#print axioms Blasted.block_ilu_residual_correct

/-- info: 'Blasted.block_ilu_compute_info' depends on axioms: [propext, Classical.choice, Quot.sound] -/
#guard_msgs (whitespace := lax) in
#print axioms Blasted.block_ilu_compute_info

/-- info: 'Blasted.scalar_ilu_init_original' depends on axioms: [propext, Classical.choice, Quot.sound] -/
#guard_msgs (whitespace := lax) in
#print axioms Blasted.scalar_ilu_init_original

/-- info: 'Blasted.scalar_ilu_init_zero_is_original' depends on axioms: [propext, Classical.choice, Quot.sound] -/
#guard_msgs (whitespace := lax) in
#print axioms Blasted.scalar_ilu_init_zero_is_original

/-- info: 'Blasted.scalar_ilu_init_zero_not_zero' depends on axioms: [propext, Classical.choice, Quot.sound] -/
#guard_msgs (whitespace := lax) in
#print axioms Blasted.scalar_ilu_init_zero_not_zero

/-- info: 'Blasted.scalar_ilu_init_none' depends on axioms: [propext, Classical.choice, Quot.sound] -/
#guard_msgs (whitespace := lax) in
#print axioms Blasted.scalar_ilu_init_none

/-- info: 'Blasted.scalar_ilu_init_sgs_partial' depends on axioms: [propext, Classical.choice, Quot.sound] -/
#guard_msgs (whitespace := lax) in
#print axioms Blasted.scalar_ilu_init_sgs_partial

/-- info: 'Blasted.block_ilu_inits' depends on axioms: [propext, Classical.choice, Quot.sound] -/
#guard_msgs (whitespace := lax) in
#print axioms Blasted.block_ilu_inits

/-- info: 'Blasted.scalar_ilu_apply_correct' depends on axioms: [propext, Classical.choice, Quot.sound] -/
#guard_msgs (whitespace := lax) in
#print axioms Blasted.scalar_ilu_apply_correct

/-- info: 'Blasted.scalar_ilu_apply_independent' depends on axioms: [propext, Classical.choice, Quot.sound] -/
#guard_msgs (whitespace := lax) in
#print axioms Blasted.scalar_ilu_apply_independent

/-- info: 'Blasted.scalar_ilu_apply_none' depends on axioms: [propext, Classical.choice, Quot.sound] -/
#guard_msgs (whitespace := lax) in
#print axioms Blasted.scalar_ilu_apply_none

/-- info: 'Blasted.scalar_ilu_apply_divzero' depends on axioms: [propext, Classical.choice, Quot.sound] -/
#guard_msgs (whitespace := lax) in
#print axioms Blasted.scalar_ilu_apply_divzero

/-- info: 'Blasted.block_ilu_apply_correct' depends on axioms: [propext, Classical.choice, Quot.sound] -/
#guard_msgs (whitespace := lax) in
#print axioms Blasted.block_ilu_apply_correct

/-- info: 'Blasted.block_ilu_apply_independent' depends on axioms: [propext, Classical.choice, Quot.sound] -/
#guard_msgs (whitespace := lax) in
#print axioms Blasted.block_ilu_apply_independent

/-- info: 'Blasted.block_ilu_apply_none' depends on axioms: [propext, Classical.choice, Quot.sound] -/
#guard_msgs (whitespace := lax) in
#print axioms Blasted.block_ilu_apply_none

/-- info: 'Blasted.scalar_ilu_apply_async_rank' depends on axioms: [propext, Classical.choice, Quot.sound] -/
#guard_msgs (whitespace := lax) in
#print axioms Blasted.scalar_ilu_apply_async_rank

/-- info: 'Blasted.scalar_ilu_apply_async_exact' depends on axioms: [propext, Classical.choice, Quot.sound] -/
#guard_msgs (whitespace := lax) in
#print axioms Blasted.scalar_ilu_apply_async_exact

/-- info: 'Blasted.scalar_ilu_apply_async_fixed' depends on axioms: [propext, Classical.choice, Quot.sound] -/
#guard_msgs (whitespace := lax) in
#print axioms Blasted.scalar_ilu_apply_async_fixed

/-- info: 'Blasted.block_ilu_apply_async_exact' depends on axioms: [propext, Classical.choice, Quot.sound] -/
#guard_msgs (whitespace := lax) in
#print axioms Blasted.block_ilu_apply_async_exact

/-- info: 'Blasted.block_ilu_apply_async_fixed' depends on axioms: [propext, Classical.choice, Quot.sound] -/
#guard_msgs (whitespace := lax) in
#print axioms Blasted.block_ilu_apply_async_fixed

/-- info: 'Blasted.scalar_ilu_apply_levels' depends on axioms: [propext, Classical.choice, Quot.sound] -/
#guard_msgs (whitespace := lax) in
#print axioms Blasted.scalar_ilu_apply_levels

/-- info: 'Blasted.scalar_ilu_apply_levels_async' depends on axioms: [propext, Classical.choice, Quot.sound] -/
#guard_msgs (whitespace := lax) in
#print axioms Blasted.scalar_ilu_apply_levels_async

/-- info: 'Blasted.block_ilu_apply_levels' depends on axioms: [propext, Classical.choice, Quot.sound] -/
#guard_msgs (whitespace := lax) in
#print axioms Blasted.block_ilu_apply_levels

/-- info: 'Blasted.block_ilu_apply_levels_async' depends on axioms: [propext, Classical.choice, Quot.sound] -/
#guard_msgs (whitespace := lax) in
#print axioms Blasted.block_ilu_apply_levels_async

/-- info: 'Blasted.scalar_level_ilu_eq_sequential' depends on axioms: [propext, Classical.choice, Quot.sound] -/
#guard_msgs (whitespace := lax) in
#print axioms Blasted.scalar_level_ilu_eq_sequential

/-- info: 'Blasted.block_level_ilu_eq_sequential' depends on axioms: [propext, Classical.choice, Quot.sound] -/
#guard_msgs (whitespace := lax) in
#print axioms Blasted.block_level_ilu_eq_sequential

/-- info: 'Blasted.sgs_apply_correct' depends on axioms: [propext, Classical.choice, Quot.sound] -/
#guard_msgs (whitespace := lax) in
#print axioms Blasted.sgs_apply_correct

/-- info: 'Blasted.scalar_sgs_solves' depends on axioms: [propext, Classical.choice, Quot.sound] -/
#guard_msgs (whitespace := lax) in
#print axioms Blasted.scalar_sgs_solves

/-- info: 'Blasted.block_sgs_solves' depends on axioms: [propext, Classical.choice, Quot.sound] -/
#guard_msgs (whitespace := lax) in
#print axioms Blasted.block_sgs_solves

/-- info: 'Blasted.jacobi_setup_correct' depends on axioms: [propext, Classical.choice, Quot.sound] -/
#guard_msgs (whitespace := lax) in
#print axioms Blasted.jacobi_setup_correct

/-- info: 'Blasted.jacobi_setup_divzero' depends on axioms: [propext, Classical.choice, Quot.sound] -/
#guard_msgs (whitespace := lax) in
#print axioms Blasted.jacobi_setup_divzero

/-- info: 'Blasted.sgs_setup_correct' depends on axioms: [propext, Classical.choice, Quot.sound] -/
#guard_msgs (whitespace := lax) in
#print axioms Blasted.sgs_setup_correct

/-- info: 'Blasted.sgs_apply_levels' depends on axioms: [propext, Classical.choice, Quot.sound] -/
#guard_msgs (whitespace := lax) in
#print axioms Blasted.sgs_apply_levels

/-- info: 'Blasted.sgs_apply_levels_async' depends on axioms: [propext, Classical.choice, Quot.sound] -/
#guard_msgs (whitespace := lax) in
#print axioms Blasted.sgs_apply_levels_async

/-- info: 'Blasted.level_sgs_solves' depends on axioms: [propext, Classical.choice, Quot.sound] -/
#guard_msgs (whitespace := lax) in
#print axioms Blasted.level_sgs_solves

/-- info: 'Blasted.level_sgs_recompute_solves' depends on axioms: [propext, Classical.choice, Quot.sound] -/
#guard_msgs (whitespace := lax) in
#print axioms Blasted.level_sgs_recompute_solves

/-- info: 'Blasted.sgs_apply_async_rank' depends on axioms: [propext, Classical.choice, Quot.sound] -/
#guard_msgs (whitespace := lax) in
#print axioms Blasted.sgs_apply_async_rank

/-- info: 'Blasted.sgs_apply_async_exact' depends on axioms: [propext, Classical.choice, Quot.sound] -/
#guard_msgs (whitespace := lax) in
#print axioms Blasted.sgs_apply_async_exact

/-- info: 'Blasted.csc_bgs_apply_correct' depends on axioms: [propext, Classical.choice, Quot.sound] -/
#guard_msgs (whitespace := lax) in
#print axioms Blasted.csc_bgs_apply_correct

/-- info: 'Blasted.csc_bgs_compute_correct' depends on axioms: [propext, Classical.choice, Quot.sound] -/
#guard_msgs (whitespace := lax) in
#print axioms Blasted.csc_bgs_compute_correct

/-- info: 'Blasted.csc_bgs_apply_eq_rows' depends on axioms: [propext, Classical.choice, Quot.sound] -/
#guard_msgs (whitespace := lax) in
#print axioms Blasted.csc_bgs_apply_eq_rows

/-- info: 'Blasted.computeLevels_correct' depends on axioms: [propext, Classical.choice, Quot.sound] -/
#guard_msgs (whitespace := lax) in
#print axioms Blasted.computeLevels_correct

/-- info: 'Blasted.computeLevels_nonsymmetric_diverges' depends on axioms: [propext, Classical.choice, Quot.sound] -/
#guard_msgs (whitespace := lax) in
#print axioms Blasted.computeLevels_nonsymmetric_diverges

/-- info: 'Blasted.computeLevels_nonsymmetric_throws' depends on axioms: [propext, Quot.sound] -/
#guard_msgs (whitespace := lax) in
#print axioms Blasted.computeLevels_nonsymmetric_throws

/-- info: 'Blasted.computeLevels_unsorted_dependent' depends on axioms: [propext, Classical.choice, Quot.sound] -/
#guard_msgs (whitespace := lax) in
#print axioms Blasted.computeLevels_unsorted_dependent

/-- info: 'Blasted.lower_view_correct' depends on axioms: [propext, Classical.choice, Quot.sound] -/
#guard_msgs (whitespace := lax) in
#print axioms Blasted.lower_view_correct

/-- info: 'Blasted.upper_view_correct' depends on axioms: [propext, Classical.choice, Quot.sound] -/
#guard_msgs (whitespace := lax) in
#print axioms Blasted.upper_view_correct

/-- info: 'Blasted.triangular_views_sum' depends on axioms: [propext, Classical.choice, Quot.sound] -/
#guard_msgs (whitespace := lax) in
#print axioms Blasted.triangular_views_sum

/-- info: 'Blasted.triangular_views_share' depends on axioms: [propext] -/
#guard_msgs (whitespace := lax) in
#print axioms Blasted.triangular_views_share

/-- info: 'Blasted.lower_view_apply_ub' depends on axioms: [propext, Classical.choice, Quot.sound] -/
#guard_msgs (whitespace := lax) in
#print axioms Blasted.lower_view_apply_ub

/-- info: 'Blasted.lower_raw_view_memory' depends on axioms: [propext, Classical.choice, Quot.sound] -/
#guard_msgs (whitespace := lax) in
#print axioms Blasted.lower_raw_view_memory

/-- info: 'Blasted.upper_raw_view_memory' depends on axioms: [propext, Classical.choice, Quot.sound] -/
#guard_msgs (whitespace := lax) in
#print axioms Blasted.upper_raw_view_memory

/-- info: 'Blasted.lower_storage_view_memory' depends on axioms: [propext, Classical.choice, Quot.sound] -/
#guard_msgs (whitespace := lax) in
#print axioms Blasted.lower_storage_view_memory

/-- info: 'Blasted.upper_storage_view_memory' depends on axioms: [propext, Classical.choice, Quot.sound] -/
#guard_msgs (whitespace := lax) in
#print axioms Blasted.upper_storage_view_memory

/-- info: 'Blasted.jacobi_apply_correct' depends on axioms: [propext, Classical.choice, Quot.sound] -/
#guard_msgs (whitespace := lax) in
#print axioms Blasted.jacobi_apply_correct

/-- info: 'Blasted.jacobi_relax_correct' depends on axioms: [propext, Classical.choice, Quot.sound] -/
#guard_msgs (whitespace := lax) in
#print axioms Blasted.jacobi_relax_correct

/-- info: 'Blasted.jacobi_relax_fixed' depends on axioms: [propext, Classical.choice, Quot.sound] -/
#guard_msgs (whitespace := lax) in
#print axioms Blasted.jacobi_relax_fixed

/-- info: 'Blasted.jacobi_relax_converse' depends on axioms: [propext, Classical.choice, Quot.sound] -/
#guard_msgs (whitespace := lax) in
#print axioms Blasted.jacobi_relax_converse

/-- info: 'Blasted.chaotic_relax_correct' depends on axioms: [propext, Classical.choice, Quot.sound] -/
#guard_msgs (whitespace := lax) in
#print axioms Blasted.chaotic_relax_correct

/-- info: 'Blasted.sgs_relax_correct' depends on axioms: [propext, Classical.choice, Quot.sound] -/
#guard_msgs (whitespace := lax) in
#print axioms Blasted.sgs_relax_correct

/-- info: 'Blasted.level_sgs_relax_correct' depends on axioms: [propext, Classical.choice, Quot.sound] -/
#guard_msgs (whitespace := lax) in
#print axioms Blasted.level_sgs_relax_correct

/-- info: 'Blasted.level_sgs_relax_async' depends on axioms: [propext, Classical.choice, Quot.sound] -/
#guard_msgs (whitespace := lax) in
#print axioms Blasted.level_sgs_relax_async

/-- info: 'Blasted.symmetric_sweep' depends on axioms: [propext, Classical.choice, Quot.sound] -/
#guard_msgs (whitespace := lax) in
#print axioms Blasted.symmetric_sweep

/-- info: 'Blasted.relax_fixed' depends on axioms: [propext, Classical.choice, Quot.sound] -/
#guard_msgs (whitespace := lax) in
#print axioms Blasted.relax_fixed

/-- info: 'Blasted.relax_fixed_async' depends on axioms: [propext, Classical.choice, Quot.sound] -/
#guard_msgs (whitespace := lax) in
#print axioms Blasted.relax_fixed_async

/-- info: 'Blasted.chaotic_relax_fixed_async' depends on axioms: [propext, Classical.choice, Quot.sound] -/
#guard_msgs (whitespace := lax) in
#print axioms Blasted.chaotic_relax_fixed_async

/-- info: 'Blasted.sgs_relax_fixed_async' depends on axioms: [propext, Classical.choice, Quot.sound] -/
#guard_msgs (whitespace := lax) in
#print axioms Blasted.sgs_relax_fixed_async

/-- info: 'Blasted.relax_converse' depends on axioms: [propext, Classical.choice, Quot.sound] -/
#guard_msgs (whitespace := lax) in
#print axioms Blasted.relax_converse

/-- info: 'Blasted.relax_converse_async' depends on axioms: [propext, Classical.choice, Quot.sound] -/
#guard_msgs (whitespace := lax) in
#print axioms Blasted.relax_converse_async

/-- info: 'Blasted.chaotic_error_bounded' depends on axioms: [propext, Classical.choice, Quot.sound] -/
#guard_msgs (whitespace := lax) in
#print axioms Blasted.chaotic_error_bounded

/-- info: 'Blasted.chaotic_converges' depends on axioms: [propext, Classical.choice, Quot.sound] -/
#guard_msgs (whitespace := lax) in
#print axioms Blasted.chaotic_converges

/-- info: 'Blasted.sgs_relax_converges' depends on axioms: [propext, Classical.choice, Quot.sound] -/
#guard_msgs (whitespace := lax) in
#print axioms Blasted.sgs_relax_converges

/-- info: 'Blasted.chaotic_limit' depends on axioms: [propext, Classical.choice, Quot.sound] -/
#guard_msgs (whitespace := lax) in
#print axioms Blasted.chaotic_limit

/-- info: 'Blasted.jacobi_converges' depends on axioms: [propext, Classical.choice, Quot.sound] -/
#guard_msgs (whitespace := lax) in
#print axioms Blasted.jacobi_converges

/-- info: 'Blasted.block_chaotic_converges' depends on axioms: [propext, Classical.choice, Quot.sound] -/
#guard_msgs (whitespace := lax) in
#print axioms Blasted.block_chaotic_converges

/-- info: 'Blasted.coo_to_csr_correct' depends on axioms: [propext, Classical.choice, Quot.sound] -/
#guard_msgs (whitespace := lax) in
#print axioms Blasted.coo_to_csr_correct

/-- info: 'Blasted.coo_to_csr_sorted' depends on axioms: [propext, Classical.choice, Quot.sound] -/
#guard_msgs (whitespace := lax) in
#print axioms Blasted.coo_to_csr_sorted

/-- info: 'Blasted.coo_to_csr_unique' depends on axioms: [propext, Classical.choice, Quot.sound] -/
#guard_msgs (whitespace := lax) in
#print axioms Blasted.coo_to_csr_unique

/-- info: 'Blasted.coo_to_csr_diag_uninitialised' depends on axioms: [propext, Classical.choice, Quot.sound] -/
#guard_msgs (whitespace := lax) in
#print axioms Blasted.coo_to_csr_diag_uninitialised

/-- info: 'Blasted.coo_to_bsr_correct_partial' depends on axioms: [propext, Classical.choice, Quot.sound] -/
#guard_msgs (whitespace := lax) in
#print axioms Blasted.coo_to_bsr_correct_partial

/-- info: 'Blasted.coo_to_bsr_unique' depends on axioms: [propext, Classical.choice, Quot.sound] -/
#guard_msgs (whitespace := lax) in
#print axioms Blasted.coo_to_bsr_unique

/-- info: 'Blasted.coo_to_bsr_sorted' depends on axioms: [propext, Classical.choice, Quot.sound] -/
#guard_msgs (whitespace := lax) in
#print axioms Blasted.coo_to_bsr_sorted

/-- info: 'Blasted.coo_to_bsr_rejects' depends on axioms: [propext, Quot.sound] -/
#guard_msgs (whitespace := lax) in
#print axioms Blasted.coo_to_bsr_rejects

/-- info: 'Blasted.coo_to_bsr_unsorted' depends on axioms: [propext, Classical.choice, Quot.sound] -/
#guard_msgs (whitespace := lax) in
#print axioms Blasted.coo_to_bsr_unsorted

/-- info: 'Blasted.unsorted_blocks_ignored' depends on axioms: [propext, Classical.choice, Quot.sound] -/
#guard_msgs (whitespace := lax) in
#print axioms Blasted.unsorted_blocks_ignored

/-- info: 'Blasted.coo_duplicates_differ' depends on axioms: [propext, Classical.choice, Quot.sound] -/
#guard_msgs (whitespace := lax) in
#print axioms Blasted.coo_duplicates_differ

/-- info: 'Blasted.coo_to_bsr_first_empty_aborts' depends on axioms: [propext, Classical.choice, Quot.sound] -/
#guard_msgs (whitespace := lax) in
#print axioms Blasted.coo_to_bsr_first_empty_aborts

/-- info: 'Blasted.read_matrix_market_correct_partial' depends on axioms: [propext, Classical.choice, Quot.sound] -/
#guard_msgs (whitespace := lax) in
#print axioms Blasted.read_matrix_market_correct_partial

/-- info: 'Blasted.read_matrix_market_order_irrelevant' depends on axioms: [propext, Classical.choice, Quot.sound] -/
#guard_msgs (whitespace := lax) in
#print axioms Blasted.read_matrix_market_order_irrelevant

/-- info: 'Blasted.read_matrix_market_empty_row_aborts' depends on axioms: [propext, Classical.choice, Quot.sound] -/
#guard_msgs (whitespace := lax) in
#print axioms Blasted.read_matrix_market_empty_row_aborts

/-- info: 'Blasted.read_matrix_market_no_entries_ub' depends on axioms: [propext, Classical.choice, Quot.sound] -/
#guard_msgs (whitespace := lax) in
#print axioms Blasted.read_matrix_market_no_entries_ub

/-- info: 'Blasted.read_matrix_market_hangs' depends on axioms: [propext, Classical.choice, Quot.sound] -/
#guard_msgs (whitespace := lax) in
#print axioms Blasted.read_matrix_market_hangs

/-- info: 'Blasted.read_complex_misread' depends on axioms: [propext, Classical.choice, Quot.sound] -/
#guard_msgs (whitespace := lax) in
#print axioms Blasted.read_complex_misread

/-- info: 'Blasted.mm_description_standard_partial' depends on axioms: [propext, Classical.choice, Quot.sound] -/
#guard_msgs (whitespace := lax) in
#print axioms Blasted.mm_description_standard_partial

/-- info: 'Blasted.mm_description_iff' depends on axioms: [propext, Classical.choice, Quot.sound] -/
#guard_msgs (whitespace := lax) in
#print axioms Blasted.mm_description_iff

/-- info: 'Blasted.mm_description_rejects_pattern' depends on axioms: [propext, Classical.choice, Quot.sound] -/
#guard_msgs (whitespace := lax) in
#print axioms Blasted.mm_description_rejects_pattern

/-- info: 'Blasted.mm_description_rejects_skew' depends on axioms: [propext, Classical.choice, Quot.sound] -/
#guard_msgs (whitespace := lax) in
#print axioms Blasted.mm_description_rejects_skew

/-- info: 'Blasted.mm_description_accepts_nonstandard' depends on axioms: [propext, Classical.choice, Quot.sound] -/
#guard_msgs (whitespace := lax) in
#print axioms Blasted.mm_description_accepts_nonstandard

/-- info: 'Blasted.mm_description_case_sensitive' depends on axioms: [propext, Classical.choice, Quot.sound] -/
#guard_msgs (whitespace := lax) in
#print axioms Blasted.mm_description_case_sensitive

/-- info: 'Blasted.read_matrix_market_rejects' depends on axioms: [propext, Classical.choice, Quot.sound] -/
#guard_msgs (whitespace := lax) in
#print axioms Blasted.read_matrix_market_rejects

/-- info: 'Blasted.arrayview_history_safe' depends on axioms: [propext, Classical.choice, Quot.sound] -/
#guard_msgs (whitespace := lax) in
#print axioms Blasted.arrayview_history_safe

/-- info: 'Blasted.arrayview_history_no_leak' depends on axioms: [propext, Classical.choice, Quot.sound] -/
#guard_msgs (whitespace := lax) in
#print axioms Blasted.arrayview_history_no_leak

/-- info: 'Blasted.arrayview_history_owner' depends on axioms: [propext, Classical.choice, Quot.sound] -/
#guard_msgs (whitespace := lax) in
#print axioms Blasted.arrayview_history_owner

/-- info: 'Blasted.arrayview_owner_access' depends on axioms: [propext, Classical.choice, Quot.sound] -/
#guard_msgs (whitespace := lax) in
#print axioms Blasted.arrayview_owner_access

/-- info: 'Blasted.arrayview_read_outcomes' depends on axioms: [propext, Quot.sound] -/
#guard_msgs (whitespace := lax) in
#print axioms Blasted.arrayview_read_outcomes

/-- info: 'Blasted.arrayview_write_outcomes' depends on axioms: [propext, Quot.sound] -/
#guard_msgs (whitespace := lax) in
#print axioms Blasted.arrayview_write_outcomes

/-- info: 'Blasted.arrayview_double_owner_ub' depends on axioms: [propext, Quot.sound] -/
#guard_msgs (whitespace := lax) in
#print axioms Blasted.arrayview_double_owner_ub

/-- info: 'Blasted.arrayview_use_after_destroy_ub' depends on axioms: [propext, Classical.choice, Quot.sound] -/
#guard_msgs (whitespace := lax) in
#print axioms Blasted.arrayview_use_after_destroy_ub

/-- info: 'Blasted.arrayview_foreign_ownership_ub' depends on axioms: [propext, Classical.choice, Quot.sound] -/
#guard_msgs (whitespace := lax) in
#print axioms Blasted.arrayview_foreign_ownership_ub

/-- info: 'Blasted.left_sai_pattern_correct' depends on axioms: [propext, Classical.choice, Quot.sound] -/
#guard_msgs (whitespace := lax) in
#print axioms Blasted.left_sai_pattern_correct

/-- info: 'Blasted.left_incomplete_sai_pattern_correct' depends on axioms: [propext, Classical.choice, Quot.sound] -/
#guard_msgs (whitespace := lax) in
#print axioms Blasted.left_incomplete_sai_pattern_correct

/-- info: 'Blasted.isai_exact_on_pattern' depends on axioms: [propext, Classical.choice, Quot.sound] -/
#guard_msgs (whitespace := lax) in
#print axioms Blasted.isai_exact_on_pattern

/-- info: 'Blasted.sai_row_minimal' depends on axioms: [propext, Classical.choice, Quot.sound] -/
#guard_msgs (whitespace := lax) in
#print axioms Blasted.sai_row_minimal

/-- info: 'Blasted.compute_sai_any_order' depends on axioms: [propext, Classical.choice, Quot.sound] -/
#guard_msgs (whitespace := lax) in
#print axioms Blasted.compute_sai_any_order

/-- info: 'Blasted.compute_isai_returns' depends on axioms: [propext, Classical.choice, Quot.sound] -/
#guard_msgs (whitespace := lax) in
#print axioms Blasted.compute_isai_returns

/-- info: 'Blasted.compute_sai_asserts_dense' depends on axioms: [propext, Classical.choice, Quot.sound] -/
#guard_msgs (whitespace := lax) in
#print axioms Blasted.compute_sai_asserts_dense

/-- info: 'Blasted.compute_sai_asserts_abort_tridiagonal' depends on axioms: [propext, Classical.choice, Quot.sound] -/
#guard_msgs (whitespace := lax) in
#print axioms Blasted.compute_sai_asserts_abort_tridiagonal

/-- info: 'Blasted.solver_type_from_string_correct' depends on axioms: [propext] -/
#guard_msgs (whitespace := lax) in
#print axioms Blasted.solver_type_from_string_correct

/-- info: 'Blasted.solver_type_from_string_throws' depends on axioms: [propext] -/
#guard_msgs (whitespace := lax) in
#print axioms Blasted.solver_type_from_string_throws

/-- info: 'Blasted.solver_type_from_string_injective' depends on axioms: [propext, Quot.sound] -/
#guard_msgs (whitespace := lax) in
#print axioms Blasted.solver_type_from_string_injective

/-- info: 'Blasted.init_from_string_correct' depends on axioms: [propext, Classical.choice, Quot.sound] -/
#guard_msgs (whitespace := lax) in
#print axioms Blasted.init_from_string_correct

/-- info: 'Blasted.create_preconditioner_iff' depends on axioms: [propext, Quot.sound] -/
#guard_msgs (whitespace := lax) in
#print axioms Blasted.create_preconditioner_iff

/-- info: 'Blasted.create_preconditioner_bad_cast' depends on axioms: [propext] -/
#guard_msgs (whitespace := lax) in
#print axioms Blasted.create_preconditioner_bad_cast

/-- info: 'Blasted.create_preconditioner_correct' depends on axioms: [propext, Quot.sound] -/
#guard_msgs (whitespace := lax) in
#print axioms Blasted.create_preconditioner_correct

/-- info: 'Blasted.create_relaxation_available' depends on axioms: [propext, Quot.sound] -/
#guard_msgs (whitespace := lax) in
#print axioms Blasted.create_relaxation_available

/-- info: 'Blasted.create_preconditioner_ignores_relax' depends on axioms: [propext] -/
#guard_msgs (whitespace := lax) in
#print axioms Blasted.create_preconditioner_ignores_relax

/-- info: 'Blasted.petsc_options_correct_partial' depends on axioms: [propext, Classical.choice, Quot.sound] -/
#guard_msgs (whitespace := lax) in
#print axioms Blasted.petsc_options_correct_partial

/-- info: 'Blasted.petsc_seqilu0_sweeps_wrong' depends on axioms: [propext, Classical.choice, Quot.sound] -/
#guard_msgs (whitespace := lax) in
#print axioms Blasted.petsc_seqilu0_sweeps_wrong

/-- info: 'Blasted.petsc_both_sequential_becomes_ilu' depends on axioms: [propext, Classical.choice, Quot.sound] -/
#guard_msgs (whitespace := lax) in
#print axioms Blasted.petsc_both_sequential_becomes_ilu

/-- info: 'Blasted.petsc_one_sequential_rejected' depends on axioms: [propext, Classical.choice, Quot.sound] -/
#guard_msgs (whitespace := lax) in
#print axioms Blasted.petsc_one_sequential_rejected

/-- info: 'Blasted.petsc_type_name_checked' depends on axioms: [propext, Classical.choice, Quot.sound] -/
#guard_msgs (whitespace := lax) in
#print axioms Blasted.petsc_type_name_checked

/-- info: 'Blasted.petsc_sweeps_required' depends on axioms: [propext, Classical.choice, Quot.sound] -/
#guard_msgs (whitespace := lax) in
#print axioms Blasted.petsc_sweeps_required

/-- info: 'Blasted.petsc_options_required' depends on axioms: [propext, Classical.choice, Quot.sound] -/
#guard_msgs (whitespace := lax) in
#print axioms Blasted.petsc_options_required

/-- info: 'Blasted.bsr_submit_block' depends on axioms: [propext, Classical.choice, Quot.sound] -/
#guard_msgs (whitespace := lax) in
#print axioms Blasted.bsr_submit_block

/-- info: 'Blasted.bsr_update_block' depends on axioms: [propext, Classical.choice, Quot.sound] -/
#guard_msgs (whitespace := lax) in
#print axioms Blasted.bsr_update_block

/-- info: 'Blasted.bsr_update_diag_block' depends on axioms: [propext, Classical.choice, Quot.sound] -/
#guard_msgs (whitespace := lax) in
#print axioms Blasted.bsr_update_diag_block

/-- info: 'Blasted.bsr_update_isAdds' depends on axioms: [propext, Classical.choice, Quot.sound] -/
#guard_msgs (whitespace := lax) in
#print axioms Blasted.bsr_update_isAdds

/-- info: 'Blasted.bsr_updates_concurrent' depends on axioms: [propext, Classical.choice, Quot.sound] -/
#guard_msgs (whitespace := lax) in
#print axioms Blasted.bsr_updates_concurrent

/-- info: 'Blasted.csr_submit_block' depends on axioms: [propext, Classical.choice, Quot.sound] -/
#guard_msgs (whitespace := lax) in
#print axioms Blasted.csr_submit_block

/-- info: 'Blasted.csr_update_block_stride' depends on axioms: [propext, Classical.choice, Quot.sound] -/
#guard_msgs (whitespace := lax) in
#print axioms Blasted.csr_update_block_stride

/-- info: 'Blasted.csr_update_block_partial' depends on axioms: [propext, Classical.choice, Quot.sound] -/
#guard_msgs (whitespace := lax) in
#print axioms Blasted.csr_update_block_partial

/-- info: 'Blasted.csr_update_diag_block' depends on axioms: [propext, Classical.choice, Quot.sound] -/
#guard_msgs (whitespace := lax) in
#print axioms Blasted.csr_update_diag_block

/-- info: 'Blasted.csr_update_isAdds' depends on axioms: [propext, Classical.choice, Quot.sound] -/
#guard_msgs (whitespace := lax) in
#print axioms Blasted.csr_update_isAdds

/-- info: 'Blasted.csr_updates_concurrent' depends on axioms: [propext, Classical.choice, Quot.sound] -/
#guard_msgs (whitespace := lax) in
#print axioms Blasted.csr_updates_concurrent

/-- info: 'Blasted.csr_update_block_rect_wrong' depends on axioms: [propext, Quot.sound] -/
#guard_msgs (whitespace := lax) in
#print axioms Blasted.csr_update_block_rect_wrong

/-- info: 'Blasted.csr_update_block_rect_ub' depends on axioms: [propext, Quot.sound] -/
#guard_msgs (whitespace := lax) in
#print axioms Blasted.csr_update_block_rect_ub

/-- info: 'Blasted.bsr_set_all_zero' depends on axioms: [propext, Classical.choice, Quot.sound] -/
#guard_msgs (whitespace := lax) in
#print axioms Blasted.bsr_set_all_zero

/-- info: 'Blasted.csr_set_all_zero' depends on axioms: [propext, Classical.choice, Quot.sound] -/
#guard_msgs (whitespace := lax) in
#print axioms Blasted.csr_set_all_zero

/-- info: 'Blasted.bsr_set_diag_zero' depends on axioms: [propext, Classical.choice, Quot.sound] -/
#guard_msgs (whitespace := lax) in
#print axioms Blasted.bsr_set_diag_zero

/-- info: 'Blasted.csr_set_diag_zero' depends on axioms: [propext, Classical.choice, Quot.sound] -/
#guard_msgs (whitespace := lax) in
#print axioms Blasted.csr_set_diag_zero

/-- info: 'Blasted.bsr_scale_all' depends on axioms: [propext, Classical.choice, Quot.sound] -/
#guard_msgs (whitespace := lax) in
#print axioms Blasted.bsr_scale_all

/-- info: 'Blasted.csr_scale_all' depends on axioms: [propext, Classical.choice, Quot.sound] -/
#guard_msgs (whitespace := lax) in
#print axioms Blasted.csr_scale_all

/-- info: 'Blasted.is_equal_correct' depends on axioms: [propext, Classical.choice, Quot.sound] -/
#guard_msgs (whitespace := lax) in
#print axioms Blasted.is_equal_correct

/-- info: 'Blasted.is_equal_true_flag_unreliable' depends on axioms: [propext] -/
#guard_msgs (whitespace := lax) in
#print axioms Blasted.is_equal_true_flag_unreliable

/-- info: 'Blasted.is_equal_empty_aborts' depends on axioms: [propext] -/
#guard_msgs (whitespace := lax) in
#print axioms Blasted.is_equal_empty_aborts

/-- info: 'Blasted.diagonal_dominance_correct' depends on axioms: [propext, Classical.choice, Quot.sound] -/
#guard_msgs (whitespace := lax) in
#print axioms Blasted.diagonal_dominance_correct

/-- info: 'Blasted.diagonal_dominance_positive' depends on axioms: [propext, Classical.choice, Quot.sound] -/
#guard_msgs (whitespace := lax) in
#print axioms Blasted.diagonal_dominance_positive

/-- info: 'Blasted.zero_diagonal_row' depends on axioms: [propext, Classical.choice, Quot.sound] -/
#guard_msgs (whitespace := lax) in
#print axioms Blasted.zero_diagonal_row

/-- info: 'Blasted.num_zero_diagonals' depends on axioms: [propext, Classical.choice, Quot.sound] -/
#guard_msgs (whitespace := lax) in
#print axioms Blasted.num_zero_diagonals

/-- info: 'Blasted.diagonal_product' depends on axioms: [propext, Classical.choice, Quot.sound] -/
#guard_msgs (whitespace := lax) in
#print axioms Blasted.diagonal_product

/-- info: 'Blasted.diagonal_abs_sum' depends on axioms: [propext, Classical.choice, Quot.sound] -/
#guard_msgs (whitespace := lax) in
#print axioms Blasted.diagonal_abs_sum

/-- info: 'Blasted.abs_min_diagonal' depends on axioms: [propext, Classical.choice, Quot.sound] -/
#guard_msgs (whitespace := lax) in
#print axioms Blasted.abs_min_diagonal

/-- info: 'Blasted.abs_max_diagonal' depends on axioms: [propext, Classical.choice, Quot.sound] -/
#guard_msgs (whitespace := lax) in
#print axioms Blasted.abs_max_diagonal

/-- info: 'Blasted.bsr_copy_correct' depends on axioms: [propext, Classical.choice, Quot.sound] -/
#guard_msgs (whitespace := lax) in
#print axioms Blasted.bsr_copy_correct

/-- info: 'Blasted.csr_copy_correct' depends on axioms: [propext, Classical.choice, Quot.sound] -/
#guard_msgs (whitespace := lax) in
#print axioms Blasted.csr_copy_correct

/-- info: 'Blasted.copy_raw_correct' depends on axioms: [propext, Classical.choice, Quot.sound] -/
#guard_msgs (whitespace := lax) in
#print axioms Blasted.copy_raw_correct

/-- info: 'Blasted.copy_raw_destroy' depends on axioms: [propext, Classical.choice, Quot.sound] -/
#guard_msgs (whitespace := lax) in
#print axioms Blasted.copy_raw_destroy

/-- info: 'Blasted.copy_raw_destroy_ub' depends on axioms: [propext, Classical.choice, Quot.sound] -/
#guard_msgs (whitespace := lax) in
#print axioms Blasted.copy_raw_destroy_ub

/-- info: 'Blasted.set_structure_correct' depends on axioms: [propext, Classical.choice, Quot.sound] -/
#guard_msgs (whitespace := lax) in
#print axioms Blasted.set_structure_correct

/-- info: 'Blasted.csr_of_structure_correct' depends on axioms: [propext, Classical.choice, Quot.sound] -/
#guard_msgs (whitespace := lax) in
#print axioms Blasted.csr_of_structure_correct

/-- info: 'Blasted.bsr_of_arrays_correct' depends on axioms: [propext, Classical.choice, Quot.sound] -/
#guard_msgs (whitespace := lax) in
#print axioms Blasted.bsr_of_arrays_correct

/-- info: 'Blasted.bsr_of_raw_partial' depends on axioms: [propext, Classical.choice, Quot.sound] -/
#guard_msgs (whitespace := lax) in
#print axioms Blasted.bsr_of_raw_partial

/-- info: 'Blasted.HasStructure.full' depends on axioms: [propext, Classical.choice, Quot.sound] -/
#guard_msgs (whitespace := lax) in
#print axioms Blasted.HasStructure.full

/-- info: 'Blasted.HasStructure.hasDiag' depends on axioms: [propext, Classical.choice, Quot.sound] -/
#guard_msgs (whitespace := lax) in
#print axioms Blasted.HasStructure.hasDiag

/-- info: 'Blasted.set_structure_diag_uninitialised' depends on axioms: [propext, Classical.choice, Quot.sound] -/
#guard_msgs (whitespace := lax) in
#print axioms Blasted.set_structure_diag_uninitialised

/-- info: 'Blasted.bsr_of_structure_empty' depends on axioms: [propext, Classical.choice, Quot.sound] -/
#guard_msgs (whitespace := lax) in
#print axioms Blasted.bsr_of_structure_empty

/-- info: 'Blasted.bsr_of_structure_wrong' depends on axioms: [propext, Classical.choice, Quot.sound] -/
#guard_msgs (whitespace := lax) in
#print axioms Blasted.bsr_of_structure_wrong

/-- info: 'Blasted.csr_of_arrays_ub' depends on axioms: [propext, Quot.sound] -/
#guard_msgs (whitespace := lax) in
#print axioms Blasted.csr_of_arrays_ub

/-- info: 'Blasted.csr_of_arrays_nnz' depends on axioms: [propext, Quot.sound] -/
#guard_msgs (whitespace := lax) in
#print axioms Blasted.csr_of_arrays_nnz

/-- info: 'Blasted.bsr_of_raw_last_pointer_aborts' depends on axioms: [propext, Quot.sound] -/
#guard_msgs (whitespace := lax) in
#print axioms Blasted.bsr_of_raw_last_pointer_aborts

/-- info: 'Blasted.csr_of_raw_leaks' depends on axioms: [propext, Classical.choice, Quot.sound] -/
#guard_msgs (whitespace := lax) in
#print axioms Blasted.csr_of_raw_leaks

/-- info: 'Blasted.csr_of_raw_gaps_abort' depends on axioms: [propext, Quot.sound] -/
#guard_msgs (whitespace := lax) in
#print axioms Blasted.csr_of_raw_gaps_abort

/-- info: 'Blasted.matrix_move_correct' depends on axioms: [propext, Quot.sound] -/
#guard_msgs (whitespace := lax) in
#print axioms Blasted.matrix_move_correct

/-- info: 'Blasted.matrix_move_to_const_correct' depends on axioms: [propext, Quot.sound] -/
#guard_msgs (whitespace := lax) in
#print axioms Blasted.matrix_move_to_const_correct

/-- info: 'Blasted.share_with_const_correct' depends on axioms: [propext, Classical.choice, Quot.sound] -/
#guard_msgs (whitespace := lax) in
#print axioms Blasted.share_with_const_correct

/-- info: 'Blasted.share_with_const_empty_aborts' depends on axioms: [propext, Quot.sound] -/
#guard_msgs (whitespace := lax) in
#print axioms Blasted.share_with_const_empty_aborts

/-- info: 'Blasted.create_raw_view_correct' depends on axioms: [propext, Classical.choice, Quot.sound] -/
#guard_msgs (whitespace := lax) in
#print axioms Blasted.create_raw_view_correct

/-- info: 'Blasted.create_raw_view_empty_aborts' depends on axioms: [propext, Quot.sound] -/
#guard_msgs (whitespace := lax) in
#print axioms Blasted.create_raw_view_empty_aborts

/-- info: 'Blasted.scalar_ilu_apply_linear' depends on axioms: [propext, Classical.choice, Quot.sound] -/
#guard_msgs (whitespace := lax) in
#print axioms Blasted.scalar_ilu_apply_linear

/-- info: 'Blasted.block_ilu_apply_linear' depends on axioms: [propext, Classical.choice, Quot.sound] -/
#guard_msgs (whitespace := lax) in
#print axioms Blasted.block_ilu_apply_linear

/-- info: 'Blasted.sgs_apply_independent' depends on axioms: [propext, Classical.choice, Quot.sound] -/
#guard_msgs (whitespace := lax) in
#print axioms Blasted.sgs_apply_independent

/-- info: 'Blasted.sgs_apply_linear' depends on axioms: [propext, Classical.choice, Quot.sound] -/
#guard_msgs (whitespace := lax) in
#print axioms Blasted.sgs_apply_linear

/-- info: 'Blasted.jacobi_apply_linear' depends on axioms: [propext, Classical.choice, Quot.sound] -/
#guard_msgs (whitespace := lax) in
#print axioms Blasted.jacobi_apply_linear

/-- info: 'Blasted.no_prec_apply_copies' depends on axioms: [propext, Classical.choice, Quot.sound] -/
#guard_msgs (whitespace := lax) in
#print axioms Blasted.no_prec_apply_copies

/-- info: 'Blasted.csc_bgs_apply_linear' depends on axioms: [propext, Classical.choice, Quot.sound] -/
#guard_msgs (whitespace := lax) in
#print axioms Blasted.csc_bgs_apply_linear

/-- info: 'Blasted.chaotic_apply_linear_partial' depends on axioms: [propext, Classical.choice, Quot.sound] -/
#guard_msgs (whitespace := lax) in
#print axioms Blasted.chaotic_apply_linear_partial

/-- info: 'Blasted.chaotic_apply_depends_on_output' depends on axioms: [propext, Classical.choice, Quot.sound] -/
#guard_msgs (whitespace := lax) in
#print axioms Blasted.chaotic_apply_depends_on_output

/-- info: 'Blasted.setup_blasted_stack_correct' depends on axioms: [propext, Classical.choice, Quot.sound] -/
#guard_msgs (whitespace := lax) in
#print axioms Blasted.setup_blasted_stack_correct

/-- info: 'Blasted.stack_life_cycle_releases_partial' depends on axioms: [propext, Classical.choice, Quot.sound] -/
#guard_msgs (whitespace := lax) in
#print axioms Blasted.stack_life_cycle_releases_partial

/-- info: 'Blasted.shell_life_cycle_releases' depends on axioms: [propext, Classical.choice, Quot.sound] -/
#guard_msgs (whitespace := lax) in
#print axioms Blasted.shell_life_cycle_releases

/-- info: 'Blasted.stack_life_cycle_leaks' depends on axioms: [propext, Classical.choice, Quot.sound] -/
#guard_msgs (whitespace := lax) in
#print axioms Blasted.stack_life_cycle_leaks

/-- info: 'Blasted.user_factory_life_cycle' depends on axioms: [propext, Classical.choice, Quot.sound] -/
#guard_msgs (whitespace := lax) in
#print axioms Blasted.user_factory_life_cycle

/-- info: 'Blasted.setup_ext_ignores_factory' depends on axioms: [propext, Classical.choice, Quot.sound] -/
#guard_msgs (whitespace := lax) in
#print axioms Blasted.setup_ext_ignores_factory

/-- info: 'Blasted.setup_ext_wrapper_replaces_factory' depends on axioms: [propext, Classical.choice, Quot.sound] -/
#guard_msgs (whitespace := lax) in
#print axioms Blasted.setup_ext_wrapper_replaces_factory

/-- info: 'Blasted.setup_relaxation_from_garbage' depends on axioms: [propext, Classical.choice, Quot.sound] -/
#guard_msgs (whitespace := lax) in
#print axioms Blasted.setup_relaxation_from_garbage

/-- info: 'Blasted.maxnorm_correct_partial' depends on axioms: [propext, Quot.sound] -/
#guard_msgs (whitespace := lax) in
#print axioms Blasted.maxnorm_correct_partial

/-- info: 'Blasted.maxnorm_deterministic' depends on axioms: [propext, Quot.sound] -/
#guard_msgs (whitespace := lax) in
#print axioms Blasted.maxnorm_deterministic

/-- info: 'Blasted.maxnorm_zero_wrong' depends on axioms: [propext, Classical.choice, Quot.sound] -/
#guard_msgs (whitespace := lax) in
#print axioms Blasted.maxnorm_zero_wrong

/-- info: 'Blasted.scalar_ilu_solves' depends on axioms: [propext, Classical.choice, Quot.sound] -/
#guard_msgs (whitespace := lax) in
#print axioms Blasted.scalar_ilu_solves

/-- info: 'Blasted.scalar_ilu_solves_complete' depends on axioms: [propext, Classical.choice, Quot.sound] -/
#guard_msgs (whitespace := lax) in
#print axioms Blasted.scalar_ilu_solves_complete

/-- info: 'Blasted.block_ilu_solves' depends on axioms: [propext, Classical.choice, Quot.sound] -/
#guard_msgs (whitespace := lax) in
#print axioms Blasted.block_ilu_solves

/-- info: 'Blasted.construct_from_file_csr' depends on axioms: [propext, Classical.choice, Quot.sound] -/
#guard_msgs (whitespace := lax) in
#print axioms Blasted.construct_from_file_csr

/-- info: 'Blasted.construct_from_file_bsr' depends on axioms: [propext, Classical.choice, Quot.sound] -/
#guard_msgs (whitespace := lax) in
#print axioms Blasted.construct_from_file_bsr

/-- info: 'Blasted.read_dense_correct' depends on axioms: [propext, Classical.choice, Quot.sound] -/
#guard_msgs (whitespace := lax) in
#print axioms Blasted.read_dense_correct

/-- info: 'Blasted.compute_preconditioner_reuses' depends on axioms: [propext, Classical.choice, Quot.sound] -/
#guard_msgs (whitespace := lax) in
#print axioms Blasted.compute_preconditioner_reuses

/-- info: 'Blasted.compute_after_failed_setup_ub' depends on axioms: [propext, Classical.choice, Quot.sound] -/
#guard_msgs (whitespace := lax) in
#print axioms Blasted.compute_after_failed_setup_ub

/-- info: 'Blasted.create_precinfo_partial' depends on axioms: [propext] -/
#guard_msgs (whitespace := lax) in
#print axioms Blasted.create_precinfo_partial

/-- info: 'Blasted.create_scalar_level_ilu_precinfo_wrong' depends on axioms: [propext, Quot.sound] -/
#guard_msgs (whitespace := lax) in
#print axioms Blasted.create_scalar_level_ilu_precinfo_wrong

/-- info: 'Blasted.petsc_throw_zero_iff' depends on axioms: [propext] -/
#guard_msgs (whitespace := lax) in
#print axioms Blasted.petsc_throw_zero_iff

/-- info: 'Blasted.parse_int_correct' depends on axioms: [propext, Quot.sound] -/
#guard_msgs (whitespace := lax) in
#print axioms Blasted.parse_int_correct

/-- info: 'Blasted.parse_bool_correct' depends on axioms: [propext, Quot.sound] -/
#guard_msgs (whitespace := lax) in
#print axioms Blasted.parse_bool_correct

/-- info: 'Blasted.parse_optional_real_correct' depends on axioms: [propext, Quot.sound] -/
#guard_msgs (whitespace := lax) in
#print axioms Blasted.parse_optional_real_correct

/-- info: 'Blasted.parse_is_defined_correct' depends on axioms: [propext, Quot.sound] -/
#guard_msgs (whitespace := lax) in
#print axioms Blasted.parse_is_defined_correct

/-- info: 'Blasted.parse_string_correct' depends on axioms: [propext, Quot.sound] -/
#guard_msgs (whitespace := lax) in
#print axioms Blasted.parse_string_correct

/-- info: 'Blasted.parse_string_whole' depends on axioms: [propext, Quot.sound] -/
#guard_msgs (whitespace := lax) in
#print axioms Blasted.parse_string_whole

/-- info: 'Blasted.parse_int_array_correct' depends on axioms: [propext, Classical.choice, Quot.sound] -/
#guard_msgs (whitespace := lax) in
#print axioms Blasted.parse_int_array_correct

/-- info: 'Blasted.parse_optional_int_array_correct_partial' depends on axioms: [propext, Classical.choice, Quot.sound] -/
#guard_msgs (whitespace := lax) in
#print axioms Blasted.parse_optional_int_array_correct_partial

/-- info: 'Blasted.parse_optional_int_array_throws' depends on axioms: [propext, Quot.sound] -/
#guard_msgs (whitespace := lax) in
#print axioms Blasted.parse_optional_int_array_throws

/-- info: 'Blasted.parse_string_cut' depends on axioms: [propext, Quot.sound] -/
#guard_msgs (whitespace := lax) in
#print axioms Blasted.parse_string_cut

/-- info: 'Blasted.parse_string_leaks' depends on axioms: [propext] -/
#guard_msgs (whitespace := lax) in
#print axioms Blasted.parse_string_leaks

/-- info: 'Blasted.parse_int_array_no_room' depends on axioms: [propext] -/
#guard_msgs (whitespace := lax) in
#print axioms Blasted.parse_int_array_no_room

/-- info: 'Blasted.file_input_throw_iff' depends on axioms: [propext, Quot.sound] -/
#guard_msgs (whitespace := lax) in
#print axioms Blasted.file_input_throw_iff

/-- info: 'Blasted.read_mat_correct' depends on axioms: [propext, Classical.choice, Quot.sound] -/
#guard_msgs (whitespace := lax) in
#print axioms Blasted.read_mat_correct

/-- info: 'Blasted.read_mat_via_sr_correct_partial' depends on axioms: [propext, Classical.choice, Quot.sound] -/
#guard_msgs (whitespace := lax) in
#print axioms Blasted.read_mat_via_sr_correct_partial

/-- info: 'Blasted.read_mat_agree' depends on axioms: [propext, Classical.choice, Quot.sound] -/
#guard_msgs (whitespace := lax) in
#print axioms Blasted.read_mat_agree

/-- info: 'Blasted.read_mat_via_sr_one_process' depends on axioms: [propext, Classical.choice, Quot.sound] -/
#guard_msgs (whitespace := lax) in
#print axioms Blasted.read_mat_via_sr_one_process

/-- info: 'Blasted.read_vec_correct' depends on axioms: [propext, Classical.choice, Quot.sound] -/
#guard_msgs (whitespace := lax) in
#print axioms Blasted.read_vec_correct

/-- info: 'Blasted.read_vec_like_matrix' depends on axioms: [propext, Classical.choice, Quot.sound] -/
#guard_msgs (whitespace := lax) in
#print axioms Blasted.read_vec_like_matrix

/-- info: 'Blasted.read_mat_error_lost' depends on axioms: [propext, Classical.choice, Quot.sound] -/
#guard_msgs (whitespace := lax) in
#print axioms Blasted.read_mat_error_lost

/-- info: 'Blasted.read_mat_via_sr_not_square' depends on axioms: [propext, Classical.choice, Quot.sound] -/
#guard_msgs (whitespace := lax) in
#print axioms Blasted.read_mat_via_sr_not_square

/-- info: 'Blasted.deterministic_of_disjoint' depends on axioms: [propext, Classical.choice, Quot.sound] -/
#guard_msgs (whitespace := lax) in
#print axioms Blasted.deterministic_of_disjoint

/-- info: 'Blasted.csr_apply_race_free' depends on axioms: [propext, Classical.choice, Quot.sound] -/
#guard_msgs (whitespace := lax) in
#print axioms Blasted.csr_apply_race_free

/-- info: 'Blasted.csr_gemv3_race_free' depends on axioms: [propext, Classical.choice, Quot.sound] -/
#guard_msgs (whitespace := lax) in
#print axioms Blasted.csr_gemv3_race_free

/-- info: 'Blasted.bsr_apply_race_free' depends on axioms: [propext, Classical.choice, Quot.sound] -/
#guard_msgs (whitespace := lax) in
#print axioms Blasted.bsr_apply_race_free

/-- info: 'Blasted.bsr_gemv3_race_free' depends on axioms: [propext, Classical.choice, Quot.sound] -/
#guard_msgs (whitespace := lax) in
#print axioms Blasted.bsr_gemv3_race_free

/-- info: 'Blasted.scalar_level_ilu_race_free' depends on axioms: [propext, Classical.choice, Quot.sound] -/
#guard_msgs (whitespace := lax) in
#print axioms Blasted.scalar_level_ilu_race_free

/-- info: 'Blasted.block_level_ilu_race_free' depends on axioms: [propext, Classical.choice, Quot.sound] -/
#guard_msgs (whitespace := lax) in
#print axioms Blasted.block_level_ilu_race_free

/-- info: 'Blasted.level_sgs_race_free' depends on axioms: [propext, Classical.choice, Quot.sound] -/
#guard_msgs (whitespace := lax) in
#print axioms Blasted.level_sgs_race_free

/-- info: 'Blasted.jacobi_apply_race_free' depends on axioms: [propext, Classical.choice, Quot.sound] -/
#guard_msgs (whitespace := lax) in
#print axioms Blasted.jacobi_apply_race_free

/-- info: 'Blasted.async_lower_solve_races' depends on axioms: [propext, Quot.sound] -/
#guard_msgs (whitespace := lax) in
#print axioms Blasted.async_lower_solve_races

/-- info: 'Blasted.csr_apply_any' depends on axioms: [propext, Classical.choice, Quot.sound] -/
#guard_msgs (whitespace := lax) in
#print axioms Blasted.csr_apply_any

/-- info: 'Blasted.csr_gemv3_any' depends on axioms: [propext, Classical.choice, Quot.sound] -/
#guard_msgs (whitespace := lax) in
#print axioms Blasted.csr_gemv3_any

/-- info: 'Blasted.bsr_apply_any' depends on axioms: [propext, Classical.choice, Quot.sound] -/
#guard_msgs (whitespace := lax) in
#print axioms Blasted.bsr_apply_any

/-- info: 'Blasted.bsr_gemv3_any' depends on axioms: [propext, Classical.choice, Quot.sound] -/
#guard_msgs (whitespace := lax) in
#print axioms Blasted.bsr_gemv3_any

/-- info: 'Blasted.scalar_ilu_apply_same_bits' depends on axioms: [propext, Classical.choice, Quot.sound] -/
#guard_msgs (whitespace := lax) in
#print axioms Blasted.scalar_ilu_apply_same_bits

/-- info: 'Blasted.block_ilu_apply_same_bits' depends on axioms: [propext, Classical.choice, Quot.sound] -/
#guard_msgs (whitespace := lax) in
#print axioms Blasted.block_ilu_apply_same_bits

/-- info: 'Blasted.sgs_apply_same_bits' depends on axioms: [propext, Classical.choice, Quot.sound] -/
#guard_msgs (whitespace := lax) in
#print axioms Blasted.sgs_apply_same_bits

/-- info: 'Blasted.jacobi_apply_any' depends on axioms: [propext, Classical.choice, Quot.sound] -/
#guard_msgs (whitespace := lax) in
#print axioms Blasted.jacobi_apply_any

/-- info: 'Blasted.ilu_sweeps_same_bits' depends on axioms: [propext, Classical.choice, Quot.sound] -/
#guard_msgs (whitespace := lax) in
#print axioms Blasted.ilu_sweeps_same_bits

/-- info: 'Blasted.async_ilu_same_bits' depends on axioms: [propext, Classical.choice, Quot.sound] -/
#guard_msgs (whitespace := lax) in
#print axioms Blasted.async_ilu_same_bits

/-- info: 'Blasted.async_ilu_stays_same_bits' depends on axioms: [propext, Classical.choice, Quot.sound] -/
#guard_msgs (whitespace := lax) in
#print axioms Blasted.async_ilu_stays_same_bits

/-- info: 'Blasted.csr_apply_rounding' depends on axioms: [propext, Classical.choice, Quot.sound] -/
#guard_msgs (whitespace := lax) in
#print axioms Blasted.csr_apply_rounding

/-- info: 'Blasted.csr_gemv3_rounding' depends on axioms: [propext, Classical.choice, Quot.sound] -/
#guard_msgs (whitespace := lax) in
#print axioms Blasted.csr_gemv3_rounding

/-- info: 'Blasted.bsr_apply_rounding' depends on axioms: [propext, Classical.choice, Quot.sound] -/
#guard_msgs (whitespace := lax) in
#print axioms Blasted.bsr_apply_rounding

/-- info: 'Blasted.bsr_gemv3_rounding' depends on axioms: [propext, Classical.choice, Quot.sound] -/
#guard_msgs (whitespace := lax) in
#print axioms Blasted.bsr_gemv3_rounding

/-- info: 'Blasted.gam_le' depends on axioms: [propext, Classical.choice, Quot.sound] -/
#guard_msgs (whitespace := lax) in
#print axioms Blasted.gam_le

/-- info: 'Blasted.scalar_ilu_apply_rounding' depends on axioms: [propext, Classical.choice, Quot.sound] -/
#guard_msgs (whitespace := lax) in
#print axioms Blasted.scalar_ilu_apply_rounding

/-- info: 'Blasted.sgs_apply_rounding' depends on axioms: [propext, Classical.choice, Quot.sound] -/
#guard_msgs (whitespace := lax) in
#print axioms Blasted.sgs_apply_rounding

/-- info: 'Blasted.jacobi_apply_rounding' depends on axioms: [propext, Classical.choice, Quot.sound] -/
#guard_msgs (whitespace := lax) in
#print axioms Blasted.jacobi_apply_rounding

/-- info: 'Blasted.scalar_ilu_rounding' depends on axioms: [propext, Classical.choice, Quot.sound] -/
#guard_msgs (whitespace := lax) in
#print axioms Blasted.scalar_ilu_rounding

/-- info: 'Blasted.async_scalar_ilu_rounding' depends on axioms: [propext, Classical.choice, Quot.sound] -/
#guard_msgs (whitespace := lax) in
#print axioms Blasted.async_scalar_ilu_rounding

/-- info: 'Blasted.scalar_ilu_residual' depends on axioms: [propext, Classical.choice, Quot.sound] -/
#guard_msgs (whitespace := lax) in
#print axioms Blasted.scalar_ilu_residual

/-- info: 'Blasted.async_scalar_ilu_residual' depends on axioms: [propext, Classical.choice, Quot.sound] -/
#guard_msgs (whitespace := lax) in
#print axioms Blasted.async_scalar_ilu_residual

/-- info: 'Blasted.ilu_positions_int_partial' depends on axioms: [propext, Classical.choice, Quot.sound] -/
#guard_msgs (whitespace := lax) in
#print axioms Blasted.ilu_positions_int_partial

/-- info: 'Blasted.ilu_positions_overflow' depends on axioms: [propext, Classical.choice, Quot.sound] -/
#guard_msgs (whitespace := lax) in
#print axioms Blasted.ilu_positions_overflow

/-- info: 'Blasted.inclusive_scan_int' depends on axioms: [propext, Classical.choice, Quot.sound] -/
#guard_msgs (whitespace := lax) in
#print axioms Blasted.inclusive_scan_int

/-- info: 'Blasted.column_adjacency_int' depends on axioms: [propext, Classical.choice, Quot.sound] -/
#guard_msgs (whitespace := lax) in
#print axioms Blasted.column_adjacency_int

/-- info: 'Blasted.convert_BSR_to_BSC_int' depends on axioms: [propext, Quot.sound] -/
#guard_msgs (whitespace := lax) in
#print axioms Blasted.convert_BSR_to_BSC_int

/-- info: 'Blasted.convert_BSR_to_BSC_1based_int' depends on axioms: [propext, Classical.choice, Quot.sound] -/
#guard_msgs (whitespace := lax) in
#print axioms Blasted.convert_BSR_to_BSC_1based_int

/-- info: 'Blasted.coo_to_bsr_int_partial' depends on axioms: [propext, Classical.choice, Quot.sound] -/
#guard_msgs (whitespace := lax) in
#print axioms Blasted.coo_to_bsr_int_partial

/-- info: 'Blasted.coo_to_bsr_overflow' depends on axioms: [propext, Classical.choice, Quot.sound] -/
#guard_msgs (whitespace := lax) in
#print axioms Blasted.coo_to_bsr_overflow

/-- info: 'Blasted.async_exec_terminates' depends on axioms: [propext, Classical.choice, Quot.sound] -/
#guard_msgs (whitespace := lax) in
#print axioms Blasted.async_exec_terminates

/-- info: 'Blasted.async_exec_exists' depends on axioms: [propext, Classical.choice, Quot.sound] -/
#guard_msgs (whitespace := lax) in
#print axioms Blasted.async_exec_exists

/-- info: 'Blasted.async_exec_nowait' depends on axioms: [propext, Classical.choice, Quot.sound] -/
#guard_msgs (whitespace := lax) in
#print axioms Blasted.async_exec_nowait

/-- info: 'Blasted.async_exec_lag' depends on axioms: [propext, Classical.choice, Quot.sound] -/
#guard_msgs (whitespace := lax) in
#print axioms Blasted.async_exec_lag

/-- info: 'Blasted.async_exec_interleaving' depends on axioms: [propext, Classical.choice, Quot.sound] -/
#guard_msgs (whitespace := lax) in
#print axioms Blasted.async_exec_interleaving

/-- info: 'Blasted.async_ilu_exec_exact' depends on axioms: [propext, Classical.choice, Quot.sound] -/
#guard_msgs (whitespace := lax) in
#print axioms Blasted.async_ilu_exec_exact

/-- info: 'Blasted.async_ilu_exec_fixed' depends on axioms: [propext, Classical.choice, Quot.sound] -/
#guard_msgs (whitespace := lax) in
#print axioms Blasted.async_ilu_exec_fixed

/-- info: 'Blasted.async_ilu_exec_terminates' depends on axioms: [propext, Classical.choice, Quot.sound] -/
#guard_msgs (whitespace := lax) in
#print axioms Blasted.async_ilu_exec_terminates

/-- info: 'Blasted.async_scalar_ilu_apply_exec' depends on axioms: [propext, Classical.choice, Quot.sound] -/
#guard_msgs (whitespace := lax) in
#print axioms Blasted.async_scalar_ilu_apply_exec

/-- info: 'Blasted.async_block_ilu_apply_exec' depends on axioms: [propext, Classical.choice, Quot.sound] -/
#guard_msgs (whitespace := lax) in
#print axioms Blasted.async_block_ilu_apply_exec

/-- info: 'Blasted.async_sgs_apply_exec' depends on axioms: [propext, Classical.choice, Quot.sound] -/
#guard_msgs (whitespace := lax) in
#print axioms Blasted.async_sgs_apply_exec

/-- info: 'Blasted.async_relax_exec_fixed' depends on axioms: [propext, Classical.choice, Quot.sound] -/
#guard_msgs (whitespace := lax) in
#print axioms Blasted.async_relax_exec_fixed

/-- info: 'Blasted.async_relax_exec_converse' depends on axioms: [propext, Classical.choice, Quot.sound] -/
#guard_msgs (whitespace := lax) in
#print axioms Blasted.async_relax_exec_converse

/-- info: 'Blasted.async_relax_exec_converges' depends on axioms: [propext, Classical.choice, Quot.sound] -/
#guard_msgs (whitespace := lax) in
#print axioms Blasted.async_relax_exec_converges

/-- info: 'Blasted.async_relax_exec_limit' depends on axioms: [propext, Classical.choice, Quot.sound] -/
#guard_msgs (whitespace := lax) in
#print axioms Blasted.async_relax_exec_limit

/-- info: 'Blasted.async_exec_initial' depends on axioms: [propext, Classical.choice, Quot.sound] -/
#guard_msgs (whitespace := lax) in
#print axioms Blasted.async_exec_initial

/-- info: 'Blasted.async_exec_sequential' depends on axioms: [propext, Classical.choice, Quot.sound] -/
#guard_msgs (whitespace := lax) in
#print axioms Blasted.async_exec_sequential

/-- info: 'Blasted.async_ilu_exec_late' depends on axioms: [propext, Classical.choice, Quot.sound] -/
#guard_msgs (whitespace := lax) in
#print axioms Blasted.async_ilu_exec_late

/-- info: 'Blasted.mc64_compute_correct_partial' depends on axioms: [propext, Classical.choice, Quot.sound] -/
#guard_msgs (whitespace := lax) in
#print axioms Blasted.mc64_compute_correct_partial

/-- info: 'Blasted.mc64_invalid_job' depends on axioms: [propext, Classical.choice, Quot.sound] -/
#guard_msgs (whitespace := lax) in
#print axioms Blasted.mc64_invalid_job

/-- info: 'Blasted.mc64_input' depends on axioms: [propext, Classical.choice, Quot.sound] -/
#guard_msgs (whitespace := lax) in
#print axioms Blasted.mc64_input

/-- info: 'Blasted.large_diagonal_product' depends on axioms: [propext, Classical.choice, Quot.sound] -/
#guard_msgs (whitespace := lax) in
#print axioms Blasted.large_diagonal_product

/-- info: 'Blasted.mc64_work_sizes_int' depends on axioms: [propext, Quot.sound] -/
#guard_msgs (whitespace := lax) in
#print axioms Blasted.mc64_work_sizes_int

/-- info: 'Blasted.mc64_job1_undefined' depends on axioms: [propext, Classical.choice, Quot.sound] -/
#guard_msgs (whitespace := lax) in
#print axioms Blasted.mc64_job1_undefined

/-- info: 'Blasted.petsc_richardson_correct' depends on axioms: [propext, Classical.choice, Quot.sound] -/
#guard_msgs (whitespace := lax) in
#print axioms Blasted.petsc_richardson_correct

/-- info: 'Blasted.petsc_richardson_fixed' depends on axioms: [propext, Classical.choice, Quot.sound] -/
#guard_msgs (whitespace := lax) in
#print axioms Blasted.petsc_richardson_fixed

/-- info: 'Blasted.petsc_richardson_converges' depends on axioms: [propext, Classical.choice, Quot.sound] -/
#guard_msgs (whitespace := lax) in
#print axioms Blasted.petsc_richardson_converges

/-- info: 'Blasted.petsc_richardson_unavailable' depends on axioms: [propext, Classical.choice, Quot.sound] -/
#guard_msgs (whitespace := lax) in
#print axioms Blasted.petsc_richardson_unavailable

/-- info: 'Blasted.petsc_richardson_ilu_throws' depends on axioms: [propext, Classical.choice, Quot.sound] -/
#guard_msgs (whitespace := lax) in
#print axioms Blasted.petsc_richardson_ilu_throws

/-- info: 'Blasted.petsc_richardson_noprec' depends on axioms: [propext, Classical.choice, Quot.sound] -/
#guard_msgs (whitespace := lax) in
#print axioms Blasted.petsc_richardson_noprec

/-- info: 'Blasted.compute_total_times_correct' depends on axioms: [propext] -/
#guard_msgs (whitespace := lax) in
#print axioms Blasted.compute_total_times_correct

/-- info: 'Blasted.scalar_ilu_dominant_compute' depends on axioms: [propext, Classical.choice, Quot.sound] -/
#guard_msgs (whitespace := lax) in
#print axioms Blasted.scalar_ilu_dominant_compute

/-- info: 'Blasted.scalar_ilu_dominant_async' depends on axioms: [propext, Classical.choice, Quot.sound] -/
#guard_msgs (whitespace := lax) in
#print axioms Blasted.scalar_ilu_dominant_async

/-- info: 'Blasted.ilu_correction_contracts' depends on axioms: [propext, Classical.choice, Quot.sound] -/
#guard_msgs (whitespace := lax) in
#print axioms Blasted.ilu_correction_contracts

/-- info: 'Blasted.ilu_iteration_converges' depends on axioms: [propext, Classical.choice, Quot.sound] -/
#guard_msgs (whitespace := lax) in
#print axioms Blasted.ilu_iteration_converges

/-- info: 'Blasted.ilu_apply_nonneg' depends on axioms: [propext, Classical.choice, Quot.sound] -/
#guard_msgs (whitespace := lax) in
#print axioms Blasted.ilu_apply_nonneg

/-- info: 'Blasted.ilu_correction_monotone' depends on axioms: [propext, Classical.choice, Quot.sound] -/
#guard_msgs (whitespace := lax) in
#print axioms Blasted.ilu_correction_monotone

/-- info: 'Blasted.sgs_apply_symmetric' depends on axioms: [propext, Classical.choice, Quot.sound] -/
#guard_msgs (whitespace := lax) in
#print axioms Blasted.sgs_apply_symmetric

/-- info: 'Blasted.sgs_apply_positive' depends on axioms: [propext, Classical.choice, Quot.sound] -/
#guard_msgs (whitespace := lax) in
#print axioms Blasted.sgs_apply_positive

/-- info: 'Blasted.jacobi_apply_symmetric' depends on axioms: [propext, Classical.choice, Quot.sound] -/
#guard_msgs (whitespace := lax) in
#print axioms Blasted.jacobi_apply_symmetric

/-- info: 'Blasted.block_sgs_apply_symmetric' depends on axioms: [propext, Classical.choice, Quot.sound] -/
#guard_msgs (whitespace := lax) in
#print axioms Blasted.block_sgs_apply_symmetric

/-- info: 'Blasted.block_sgs_apply_positive' depends on axioms: [propext, Classical.choice, Quot.sound] -/
#guard_msgs (whitespace := lax) in
#print axioms Blasted.block_sgs_apply_positive

/-- info: 'Blasted.ilu_apply_symmetric' depends on axioms: [propext, Classical.choice, Quot.sound] -/
#guard_msgs (whitespace := lax) in
#print axioms Blasted.ilu_apply_symmetric

/-- info: 'Blasted.ilu_apply_positive' depends on axioms: [propext, Classical.choice, Quot.sound] -/
#guard_msgs (whitespace := lax) in
#print axioms Blasted.ilu_apply_positive

/-- info: 'Blasted.ilu_apply_spd_dominant' depends on axioms: [propext, Classical.choice, Quot.sound] -/
#guard_msgs (whitespace := lax) in
#print axioms Blasted.ilu_apply_spd_dominant

/-- info: 'Blasted.block_ilu_apply_symmetric' depends on axioms: [propext, Classical.choice, Quot.sound] -/
#guard_msgs (whitespace := lax) in
#print axioms Blasted.block_ilu_apply_symmetric

/-- info: 'Blasted.block_ilu_apply_positive' depends on axioms: [propext, Classical.choice, Quot.sound] -/
#guard_msgs (whitespace := lax) in
#print axioms Blasted.block_ilu_apply_positive

/-- info: 'Blasted.ilu_apply_indefinite' depends on axioms: [propext, Classical.choice, Quot.sound] -/
#guard_msgs (whitespace := lax) in
#print axioms Blasted.ilu_apply_indefinite

/-- info: 'Blasted.sgs_apply_async_unsymmetric' depends on axioms: [propext, Classical.choice, Quot.sound] -/
#guard_msgs (whitespace := lax) in
#print axioms Blasted.sgs_apply_async_unsymmetric

/-- info: 'Blasted.spd_setup' depends on axioms: [propext, Classical.choice, Quot.sound] -/
#guard_msgs (whitespace := lax) in
#print axioms Blasted.spd_setup

/-- info: 'Blasted.spd_method_converges' depends on axioms: [propext, Classical.choice, Quot.sound] -/
#guard_msgs (whitespace := lax) in
#print axioms Blasted.spd_method_converges

/-- info: 'Blasted.spd_method_limit' depends on axioms: [propext, Classical.choice, Quot.sound] -/
#guard_msgs (whitespace := lax) in
#print axioms Blasted.spd_method_limit

/-- info: 'Blasted.spd_method_strict' depends on axioms: [propext, Classical.choice, Quot.sound] -/
#guard_msgs (whitespace := lax) in
#print axioms Blasted.spd_method_strict

/-- info: 'Blasted.spd_petsc_richardson' depends on axioms: [propext, Classical.choice, Quot.sound] -/
#guard_msgs (whitespace := lax) in
#print axioms Blasted.spd_petsc_richardson

/-- info: 'Blasted.block_spd_setup' depends on axioms: [propext, Classical.choice, Quot.sound] -/
#guard_msgs (whitespace := lax) in
#print axioms Blasted.block_spd_setup

/-- info: 'Blasted.block_spd_method_converges' depends on axioms: [propext, Classical.choice, Quot.sound] -/
#guard_msgs (whitespace := lax) in
#print axioms Blasted.block_spd_method_converges

/-- info: 'Blasted.block_spd_method_limit' depends on axioms: [propext, Classical.choice, Quot.sound] -/
#guard_msgs (whitespace := lax) in
#print axioms Blasted.block_spd_method_limit

/-- info: 'Blasted.block_spd_petsc_richardson' depends on axioms: [propext, Classical.choice, Quot.sound] -/
#guard_msgs (whitespace := lax) in
#print axioms Blasted.block_spd_petsc_richardson

/-- info: 'Blasted.spd_relax_diverges' depends on axioms: [propext, Classical.choice, Quot.sound] -/
#guard_msgs (whitespace := lax) in
#print axioms Blasted.spd_relax_diverges

/-- info: 'Blasted.scalar_petsc_apply_correct' depends on axioms: [propext, Classical.choice, Quot.sound] -/
#guard_msgs (whitespace := lax) in
#print axioms Blasted.scalar_petsc_apply_correct

/-- info: 'Blasted.block_petsc_apply_correct' depends on axioms: [propext, Classical.choice, Quot.sound] -/
#guard_msgs (whitespace := lax) in
#print axioms Blasted.block_petsc_apply_correct

/-- info: 'Blasted.scalar_petsc_applies_correct' depends on axioms: [propext, Classical.choice, Quot.sound] -/
#guard_msgs (whitespace := lax) in
#print axioms Blasted.scalar_petsc_applies_correct

/-- info: 'Blasted.block_petsc_applies_correct' depends on axioms: [propext, Classical.choice, Quot.sound] -/
#guard_msgs (whitespace := lax) in
#print axioms Blasted.block_petsc_applies_correct

/-- info: 'Blasted.petsc_apply_wrong_size' does not depend on any axioms -/
#guard_msgs (whitespace := lax) in
#print axioms Blasted.petsc_apply_wrong_size

/-- info: 'Blasted.petsc_ilu_end_to_end' depends on axioms: [propext, Classical.choice, Quot.sound] -/
#guard_msgs (whitespace := lax) in
#print axioms Blasted.petsc_ilu_end_to_end

/-- info: 'Blasted.petsc_apply_gs_depends_on_output' depends on axioms: [propext, Classical.choice, Quot.sound] -/
#guard_msgs (whitespace := lax) in
#print axioms Blasted.petsc_apply_gs_depends_on_output

/-- info: 'Blasted.weighted_error_bounded' depends on axioms: [propext, Classical.choice, Quot.sound] -/
#guard_msgs (whitespace := lax) in
#print axioms Blasted.weighted_error_bounded

/-- info: 'Blasted.weighted_relax_converges' depends on axioms: [propext, Classical.choice, Quot.sound] -/
#guard_msgs (whitespace := lax) in
#print axioms Blasted.weighted_relax_converges

/-- info: 'Blasted.weighted_petsc_richardson' depends on axioms: [propext, Classical.choice, Quot.sound] -/
#guard_msgs (whitespace := lax) in
#print axioms Blasted.weighted_petsc_richardson

/-- info: 'Blasted.weighted_relax_limit' depends on axioms: [propext, Classical.choice, Quot.sound] -/
#guard_msgs (whitespace := lax) in
#print axioms Blasted.weighted_relax_limit

/-- info: 'Blasted.mmat_of_converges' depends on axioms: [propext, Classical.choice, Quot.sound] -/
#guard_msgs (whitespace := lax) in
#print axioms Blasted.mmat_of_converges

/-- info: 'Blasted.zmat_relax_all_or_none' depends on axioms: [propext, Classical.choice, Quot.sound] -/
#guard_msgs (whitespace := lax) in
#print axioms Blasted.zmat_relax_all_or_none

/-- info: 'Blasted.threads_may_destroy_convergence' depends on axioms: [propext, Classical.choice, Quot.sound] -/
#guard_msgs (whitespace := lax) in
#print axioms Blasted.threads_may_destroy_convergence

/-- info: 'Blasted.async_ilu_depth' depends on axioms: [propext, Classical.choice, Quot.sound] -/
#guard_msgs (whitespace := lax) in
#print axioms Blasted.async_ilu_depth

/-- info: 'Blasted.async_ilu_levels' depends on axioms: [propext, Classical.choice, Quot.sound] -/
#guard_msgs (whitespace := lax) in
#print axioms Blasted.async_ilu_levels

/-- info: 'Blasted.scalar_ilu_apply_depth' depends on axioms: [propext, Classical.choice, Quot.sound] -/
#guard_msgs (whitespace := lax) in
#print axioms Blasted.scalar_ilu_apply_depth

/-- info: 'Blasted.sgs_apply_depth' depends on axioms: [propext, Classical.choice, Quot.sound] -/
#guard_msgs (whitespace := lax) in
#print axioms Blasted.sgs_apply_depth

/-- info: 'Blasted.block_ilu_apply_depth' depends on axioms: [propext, Classical.choice, Quot.sound] -/
#guard_msgs (whitespace := lax) in
#print axioms Blasted.block_ilu_apply_depth

/-- info: 'Blasted.depthOk_two_colours' depends on axioms: [propext, Classical.choice, Quot.sound] -/
#guard_msgs (whitespace := lax) in
#print axioms Blasted.depthOk_two_colours

/-- info: 'Blasted.async_ilu_sharp' depends on axioms: [propext, Classical.choice, Quot.sound] -/
#guard_msgs (whitespace := lax) in
#print axioms Blasted.async_ilu_sharp

/-- info: 'Blasted.scalar_ilu_apply_lower_sharp' depends on axioms: [propext, Classical.choice, Quot.sound] -/
#guard_msgs (whitespace := lax) in
#print axioms Blasted.scalar_ilu_apply_lower_sharp

/-- info: 'Blasted.scalar_ilu_apply_upper_sharp' depends on axioms: [propext, Classical.choice, Quot.sound] -/
#guard_msgs (whitespace := lax) in
#print axioms Blasted.scalar_ilu_apply_upper_sharp

/-- info: 'Blasted.sgs_apply_sharp' depends on axioms: [propext, Classical.choice, Quot.sound] -/
#guard_msgs (whitespace := lax) in
#print axioms Blasted.sgs_apply_sharp

/-- info: 'Blasted.exTri_four_rounds' depends on axioms: [propext, Classical.choice, Quot.sound] -/
#guard_msgs (whitespace := lax) in
#print axioms Blasted.exTri_four_rounds

/-- info: 'Blasted.richardson_correct' depends on axioms: [propext, Classical.choice, Quot.sound] -/
#guard_msgs (whitespace := lax) in
#print axioms Blasted.richardson_correct

/-- info: 'Blasted.richardson_converges' depends on axioms: [propext, Classical.choice, Quot.sound] -/
#guard_msgs (whitespace := lax) in
#print axioms Blasted.richardson_converges

/-- info: 'Blasted.richardson_reaches' depends on axioms: [propext, Classical.choice, Quot.sound] -/
#guard_msgs (whitespace := lax) in
#print axioms Blasted.richardson_reaches

/-- info: 'Blasted.richardson_contracting_converges' depends on axioms: [propext, Classical.choice, Quot.sound] -/
#guard_msgs (whitespace := lax) in
#print axioms Blasted.richardson_contracting_converges

/-- info: 'Blasted.richardson_exact_prec' depends on axioms: [propext, Classical.choice, Quot.sound] -/
#guard_msgs (whitespace := lax) in
#print axioms Blasted.richardson_exact_prec

/-- info: 'Blasted.richardson_exact_ilu_converges' depends on axioms: [propext, Classical.choice, Quot.sound] -/
#guard_msgs (whitespace := lax) in
#print axioms Blasted.richardson_exact_ilu_converges

/-- info: 'Blasted.richardson_ilu_converges' depends on axioms: [propext, Classical.choice, Quot.sound] -/
#guard_msgs (whitespace := lax) in
#print axioms Blasted.richardson_ilu_converges

/-- info: 'Blasted.richardson_stale_norm' depends on axioms: [propext, Classical.choice, Quot.sound] -/
#guard_msgs (whitespace := lax) in
#print axioms Blasted.richardson_stale_norm

/-- info: 'Blasted.bicgstab_correct' depends on axioms: [propext, Classical.choice, Quot.sound] -/
#guard_msgs (whitespace := lax) in
#print axioms Blasted.bicgstab_correct

/-- info: 'Blasted.bicgstab_finite' depends on axioms: [propext, Classical.choice, Quot.sound] -/
#guard_msgs (whitespace := lax) in
#print axioms Blasted.bicgstab_finite

/-- info: 'Blasted.bicgstab_exact_guess' depends on axioms: [propext, Classical.choice, Quot.sound] -/
#guard_msgs (whitespace := lax) in
#print axioms Blasted.bicgstab_exact_guess

/-- info: 'Blasted.bicgstab_exact_prec' depends on axioms: [propext, Classical.choice, Quot.sound] -/
#guard_msgs (whitespace := lax) in
#print axioms Blasted.bicgstab_exact_prec

/-- info: 'Blasted.gcr_correct' depends on axioms: [propext, Classical.choice, Quot.sound] -/
#guard_msgs (whitespace := lax) in
#print axioms Blasted.gcr_correct

/-- info: 'Blasted.gcr_monotone' depends on axioms: [propext, Classical.choice, Quot.sound] -/
#guard_msgs (whitespace := lax) in
#print axioms Blasted.gcr_monotone

/-- info: 'Blasted.gcr_finite' depends on axioms: [propext, Classical.choice, Quot.sound] -/
#guard_msgs (whitespace := lax) in
#print axioms Blasted.gcr_finite

/-- info: 'Blasted.gcr_converges' depends on axioms: [propext, Classical.choice, Quot.sound] -/
#guard_msgs (whitespace := lax) in
#print axioms Blasted.gcr_converges

/-- info: 'Blasted.gcr_exact_prec' depends on axioms: [propext, Classical.choice, Quot.sound] -/
#guard_msgs (whitespace := lax) in
#print axioms Blasted.gcr_exact_prec

/-- info: 'Blasted.gcr_exact_guess' depends on axioms: [propext, Classical.choice, Quot.sound] -/
#guard_msgs (whitespace := lax) in
#print axioms Blasted.gcr_exact_guess

/-- info: 'Blasted.gcr_no_restart_ub' depends on axioms: [propext, Classical.choice, Quot.sound] -/
#guard_msgs (whitespace := lax) in
#print axioms Blasted.gcr_no_restart_ub

/-- info: 'Blasted.read_matrix_market_size_line' depends on axioms: [propext, Classical.choice, Quot.sound] -/
#guard_msgs (whitespace := lax) in
#print axioms Blasted.read_matrix_market_size_line

/-- info: 'Blasted.read_matrix_market_accepted_sizes' depends on axioms: [propext, Classical.choice, Quot.sound] -/
#guard_msgs (whitespace := lax) in
#print axioms Blasted.read_matrix_market_accepted_sizes

/-- info: 'Blasted.read_matrix_market_truncated_ub' depends on axioms: [propext, Classical.choice, Quot.sound] -/
#guard_msgs (whitespace := lax) in
#print axioms Blasted.read_matrix_market_truncated_ub

/-- info: 'Blasted.read_matrix_market_row_range_unchecked' depends on axioms: [propext, Classical.choice, Quot.sound] -/
#guard_msgs (whitespace := lax) in
#print axioms Blasted.read_matrix_market_row_range_unchecked

/-- info: 'Blasted.read_matrix_market_column_range_unchecked' depends on axioms: [propext, Classical.choice, Quot.sound] -/
#guard_msgs (whitespace := lax) in
#print axioms Blasted.read_matrix_market_column_range_unchecked

/-- info: 'Blasted.read_matrix_market_missing_value' depends on axioms: [propext, Classical.choice, Quot.sound] -/
#guard_msgs (whitespace := lax) in
#print axioms Blasted.read_matrix_market_missing_value

/-- info: 'Blasted.read_matrix_market_index_overflow_ub' depends on axioms: [propext, Classical.choice, Quot.sound] -/
#guard_msgs (whitespace := lax) in
#print axioms Blasted.read_matrix_market_index_overflow_ub

/-- info: 'Blasted.list_destroyed_first_ub' depends on axioms: [propext, Classical.choice, Quot.sound] -/
#guard_msgs (whitespace := lax) in
#print axioms Blasted.list_destroyed_first_ub

/-- info: 'Blasted.solver_destroyed_dangling' depends on axioms: [propext, Classical.choice, Quot.sound] -/
#guard_msgs (whitespace := lax) in
#print axioms Blasted.solver_destroyed_dangling

/-- info: 'Blasted.cleanup_twice_ub' depends on axioms: [propext, Classical.choice, Quot.sound] -/
#guard_msgs (whitespace := lax) in
#print axioms Blasted.cleanup_twice_ub

/-- info: 'Blasted.list_destroyed_twice' depends on axioms: [propext, Classical.choice, Quot.sound] -/
#guard_msgs (whitespace := lax) in
#print axioms Blasted.list_destroyed_twice

/-- info: 'Blasted.relax_row_rounding' depends on axioms: [propext, Classical.choice, Quot.sound] -/
#guard_msgs (whitespace := lax) in
#print axioms Blasted.relax_row_rounding

/-- info: 'Blasted.relax_rounding_bounded' depends on axioms: [propext, Classical.choice, Quot.sound] -/
#guard_msgs (whitespace := lax) in
#print axioms Blasted.relax_rounding_bounded

/-- info: 'Blasted.relax_rounding_converges' depends on axioms: [propext, Classical.choice, Quot.sound] -/
#guard_msgs (whitespace := lax) in
#print axioms Blasted.relax_rounding_converges

/-- info: 'Blasted.relax_rounding_limit' depends on axioms: [propext, Classical.choice, Quot.sound] -/
#guard_msgs (whitespace := lax) in
#print axioms Blasted.relax_rounding_limit

/-- info: 'Blasted.relax_rounding_exists' depends on axioms: [propext, Classical.choice, Quot.sound] -/
#guard_msgs (whitespace := lax) in
#print axioms Blasted.relax_rounding_exists

/-- info: 'Blasted.rounded_limits_differ' depends on axioms: [propext, Classical.choice, Quot.sound] -/
#guard_msgs (whitespace := lax) in
#print axioms Blasted.rounded_limits_differ

/-- info: 'Blasted.jacobi_apply_before_compute' depends on axioms: [propext, Classical.choice, Quot.sound] -/
#guard_msgs (whitespace := lax) in
#print axioms Blasted.jacobi_apply_before_compute

/-- info: 'Blasted.sgs_apply_before_compute' depends on axioms: [propext, Classical.choice, Quot.sound] -/
#guard_msgs (whitespace := lax) in
#print axioms Blasted.sgs_apply_before_compute

/-- info: 'Blasted.level_sgs_apply_before_compute' depends on axioms: [propext, Quot.sound] -/
#guard_msgs (whitespace := lax) in
#print axioms Blasted.level_sgs_apply_before_compute

/-- info: 'Blasted.relaxations_before_compute' depends on axioms: [propext, Classical.choice, Quot.sound] -/
#guard_msgs (whitespace := lax) in
#print axioms Blasted.relaxations_before_compute

/-- info: 'Blasted.ilu_apply_before_compute' depends on axioms: [propext, Classical.choice, Quot.sound] -/
#guard_msgs (whitespace := lax) in
#print axioms Blasted.ilu_apply_before_compute

/-- info: 'Blasted.level_ilu_apply_before_compute' depends on axioms: [propext, Classical.choice, Quot.sound] -/
#guard_msgs (whitespace := lax) in
#print axioms Blasted.level_ilu_apply_before_compute

/-- info: 'Blasted.reord_apply_before_compute' depends on axioms: [propext, Classical.choice, Quot.sound] -/
#guard_msgs (whitespace := lax) in
#print axioms Blasted.reord_apply_before_compute

/-- info: 'Blasted.read_rows_rejected' depends on axioms: [propext, Classical.choice, Quot.sound] -/
#guard_msgs (whitespace := lax) in
#print axioms Blasted.read_rows_rejected

/-- info: 'Blasted.read_rows_accepted' depends on axioms: [propext, Classical.choice, Quot.sound] -/
#guard_msgs (whitespace := lax) in
#print axioms Blasted.read_rows_accepted

/-- info: 'Blasted.read_rows_accepted_iff' depends on axioms: [propext, Classical.choice, Quot.sound] -/
#guard_msgs (whitespace := lax) in
#print axioms Blasted.read_rows_accepted_iff

/-- info: 'Blasted.release_merges_rows' depends on axioms: [propext, Classical.choice, Quot.sound] -/
#guard_msgs (whitespace := lax) in
#print axioms Blasted.release_merges_rows

/-- info: 'Blasted.block_ilu_dominant_compute' depends on axioms: [propext, Classical.choice, Quot.sound] -/
#guard_msgs (whitespace := lax) in
#print axioms Blasted.block_ilu_dominant_compute

/-- info: 'Blasted.block_ilu_scalar_dominant_compute' depends on axioms: [propext, Classical.choice, Quot.sound] -/
#guard_msgs (whitespace := lax) in
#print axioms Blasted.block_ilu_scalar_dominant_compute

/-- info: 'Blasted.block_ilu_dominant_async' depends on axioms: [propext, Classical.choice, Quot.sound] -/
#guard_msgs (whitespace := lax) in
#print axioms Blasted.block_ilu_dominant_async

/-- info: 'Blasted.block_ilu_correction_contracts' depends on axioms: [propext, Classical.choice, Quot.sound] -/
#guard_msgs (whitespace := lax) in
#print axioms Blasted.block_ilu_correction_contracts

/-- info: 'Blasted.block_ilu_iteration_converges' depends on axioms: [propext, Classical.choice, Quot.sound] -/
#guard_msgs (whitespace := lax) in
#print axioms Blasted.block_ilu_iteration_converges

/-- info: 'Blasted.block_ilu_object_contracts' depends on axioms: [propext, Classical.choice, Quot.sound] -/
#guard_msgs (whitespace := lax) in
#print axioms Blasted.block_ilu_object_contracts

/-- info: 'Blasted.torn_ilu_exact' depends on axioms: [propext, Classical.choice, Quot.sound] -/
#guard_msgs (whitespace := lax) in
#print axioms Blasted.torn_ilu_exact

/-- info: 'Blasted.torn_ilu_fixed' depends on axioms: [propext, Classical.choice, Quot.sound] -/
#guard_msgs (whitespace := lax) in
#print axioms Blasted.torn_ilu_fixed

/-- info: 'Blasted.torn_block_ilu_apply' depends on axioms: [propext, Classical.choice, Quot.sound] -/
#guard_msgs (whitespace := lax) in
#print axioms Blasted.torn_block_ilu_apply

/-- info: 'Blasted.torn_sgs_apply' depends on axioms: [propext, Classical.choice, Quot.sound] -/
#guard_msgs (whitespace := lax) in
#print axioms Blasted.torn_sgs_apply

/-- info: 'Blasted.torn_relax_fixed' depends on axioms: [propext, Classical.choice, Quot.sound] -/
#guard_msgs (whitespace := lax) in
#print axioms Blasted.torn_relax_fixed

/-- info: 'Blasted.torn_relax_converges' depends on axioms: [propext, Classical.choice, Quot.sound] -/
#guard_msgs (whitespace := lax) in
#print axioms Blasted.torn_relax_converges

/-- info: 'Blasted.torn_exec_terminates' depends on axioms: [propext, Classical.choice, Quot.sound] -/
#guard_msgs (whitespace := lax) in
#print axioms Blasted.torn_exec_terminates

/-- info: 'Blasted.torn_exec_exists' depends on axioms: [propext, Classical.choice, Quot.sound] -/
#guard_msgs (whitespace := lax) in
#print axioms Blasted.torn_exec_exists

/-- info: 'Blasted.torn_exec_interleaving' depends on axioms: [propext, Classical.choice, Quot.sound] -/
#guard_msgs (whitespace := lax) in
#print axioms Blasted.torn_exec_interleaving

/-- info: 'Blasted.ends_iluCompT' depends on axioms: [propext, Classical.choice, Quot.sound] -/
#guard_msgs (whitespace := lax) in
#print axioms Blasted.ends_iluCompT

/-- info: 'Blasted.ends_unitLowerT' depends on axioms: [propext, Classical.choice, Quot.sound] -/
#guard_msgs (whitespace := lax) in
#print axioms Blasted.ends_unitLowerT

/-- info: 'Blasted.ends_blockUpperT' depends on axioms: [propext, Classical.choice, Quot.sound] -/
#guard_msgs (whitespace := lax) in
#print axioms Blasted.ends_blockUpperT

/-- info: 'Blasted.ends_bgsT' depends on axioms: [propext, Classical.choice, Quot.sound] -/
#guard_msgs (whitespace := lax) in
#print axioms Blasted.ends_bgsT

/-- info: 'Blasted.ends_relaxT' depends on axioms: [propext, Classical.choice, Quot.sound] -/
#guard_msgs (whitespace := lax) in
#print axioms Blasted.ends_relaxT

/-- info: 'Blasted.torn_reads_happen' depends on axioms: [propext, Classical.choice, Quot.sound] -/
#guard_msgs (whitespace := lax) in
#print axioms Blasted.torn_reads_happen

/-- info: 'Blasted.util_converts_partial' depends on axioms: [propext, Classical.choice, Quot.sound] -/
#guard_msgs (whitespace := lax) in
#print axioms Blasted.util_converts_partial

/-- info: 'Blasted.util_converts_exact_partial' depends on axioms: [propext, Classical.choice, Quot.sound] -/
#guard_msgs (whitespace := lax) in
#print axioms Blasted.util_converts_exact_partial

/-- info: 'Blasted.util_too_few_arguments' depends on axioms: [propext, Classical.choice, Quot.sound] -/
#guard_msgs (whitespace := lax) in
#print axioms Blasted.util_too_few_arguments

/-- info: 'Blasted.util_one_process' depends on axioms: [propext, Classical.choice, Quot.sound] -/
#guard_msgs (whitespace := lax) in
#print axioms Blasted.util_one_process

/-- info: 'Blasted.util_long_name_overflows' depends on axioms: [propext, Classical.choice, Quot.sound] -/
#guard_msgs (whitespace := lax) in
#print axioms Blasted.util_long_name_overflows

/-- info: 'Blasted.util_long_exact_name_overflows' depends on axioms: [propext, Classical.choice, Quot.sound] -/
#guard_msgs (whitespace := lax) in
#print axioms Blasted.util_long_exact_name_overflows

/-- info: 'Blasted.util_exact_name_cut_off' depends on axioms: [propext, Classical.choice, Quot.sound] -/
#guard_msgs (whitespace := lax) in
#print axioms Blasted.util_exact_name_cut_off

/-- info: 'Blasted.util_rhs_too_long' depends on axioms: [propext, Classical.choice, Quot.sound] -/
#guard_msgs (whitespace := lax) in
#print axioms Blasted.util_rhs_too_long

/-- info: 'Blasted.util_rhs_not_writable' depends on axioms: [propext, Classical.choice, Quot.sound] -/
#guard_msgs (whitespace := lax) in
#print axioms Blasted.util_rhs_not_writable

/-- info: 'Blasted.util_changes_only_pmat' depends on axioms: [propext, Classical.choice, Quot.sound] -/
#guard_msgs (whitespace := lax) in
#print axioms Blasted.util_changes_only_pmat

/-- info: 'Blasted.solve_program_sound' depends on axioms: [propext, Classical.choice, Quot.sound] -/
#guard_msgs (whitespace := lax) in
#print axioms Blasted.solve_program_sound

/-- info: 'Blasted.solve_program_ilu_converges' depends on axioms: [propext, Classical.choice, Quot.sound] -/
#guard_msgs (whitespace := lax) in
#print axioms Blasted.solve_program_ilu_converges

/-- info: 'Blasted.solve_program_ilu_passes' depends on axioms: [propext, Classical.choice, Quot.sound] -/
#guard_msgs (whitespace := lax) in
#print axioms Blasted.solve_program_ilu_passes

/-- info: 'Blasted.solve_program_seqilu0_converges' depends on axioms: [propext, Classical.choice, Quot.sound] -/
#guard_msgs (whitespace := lax) in
#print axioms Blasted.solve_program_seqilu0_converges

/-- info: 'Blasted.solve_program_contracting_converges' depends on axioms: [propext, Classical.choice, Quot.sound] -/
#guard_msgs (whitespace := lax) in
#print axioms Blasted.solve_program_contracting_converges

/-- info: 'Blasted.solve_program_contracting_passes' depends on axioms: [propext, Classical.choice, Quot.sound] -/
#guard_msgs (whitespace := lax) in
#print axioms Blasted.solve_program_contracting_passes

/-- info: 'Blasted.solve_program_block_ilu_converges' depends on axioms: [propext, Classical.choice, Quot.sound] -/
#guard_msgs (whitespace := lax) in
#print axioms Blasted.solve_program_block_ilu_converges

/-- info: 'Blasted.solve_program_block_ilu_passes' depends on axioms: [propext, Classical.choice, Quot.sound] -/
#guard_msgs (whitespace := lax) in
#print axioms Blasted.solve_program_block_ilu_passes

/-- info: 'Blasted.solve_program_block_seqilu0_converges' depends on axioms: [propext, Classical.choice, Quot.sound] -/
#guard_msgs (whitespace := lax) in
#print axioms Blasted.solve_program_block_seqilu0_converges

/-- info: 'Blasted.solve_program_relax_converges' depends on axioms: [propext, Classical.choice, Quot.sound] -/
#guard_msgs (whitespace := lax) in
#print axioms Blasted.solve_program_relax_converges

/-- info: 'Blasted.solve_program_relax_passes' depends on axioms: [propext, Classical.choice, Quot.sound] -/
#guard_msgs (whitespace := lax) in
#print axioms Blasted.solve_program_relax_passes

/-- info: 'Blasted.solve_program_block_relax_converges' depends on axioms: [propext, Classical.choice, Quot.sound] -/
#guard_msgs (whitespace := lax) in
#print axioms Blasted.solve_program_block_relax_converges

/-- info: 'Blasted.solve_program_block_relax_passes' depends on axioms: [propext, Classical.choice, Quot.sound] -/
#guard_msgs (whitespace := lax) in
#print axioms Blasted.solve_program_block_relax_passes

/-- info: 'Blasted.solve_program_one_thread_relax_converges' depends on axioms: [propext, Classical.choice, Quot.sound] -/
#guard_msgs (whitespace := lax) in
#print axioms Blasted.solve_program_one_thread_relax_converges

/-- info: 'Blasted.solve_program_one_thread_block_relax_converges' depends on axioms: [propext, Classical.choice, Quot.sound] -/
#guard_msgs (whitespace := lax) in
#print axioms Blasted.solve_program_one_thread_block_relax_converges

/-- info: 'Blasted.relax_object_contracts' depends on axioms: [propext, Classical.choice, Quot.sound] -/
#guard_msgs (whitespace := lax) in
#print axioms Blasted.relax_object_contracts

/-- info: 'Blasted.block_relax_object_contracts' depends on axioms: [propext, Classical.choice, Quot.sound] -/
#guard_msgs (whitespace := lax) in
#print axioms Blasted.block_relax_object_contracts

/-- info: 'Blasted.solve_program_settings' depends on axioms: [propext] -/
#guard_msgs (whitespace := lax) in
#print axioms Blasted.solve_program_settings

/-- info: 'Blasted.solve_program_short_reference_ub' depends on axioms: [propext, Classical.choice, Quot.sound] -/
#guard_msgs (whitespace := lax) in
#print axioms Blasted.solve_program_short_reference_ub

/-- info: 'Blasted.solve_program_short_rhs_ub' depends on axioms: [propext, Classical.choice, Quot.sound] -/
#guard_msgs (whitespace := lax) in
#print axioms Blasted.solve_program_short_rhs_ub

/-- info: 'Blasted.solve_program_unknown_word' depends on axioms: [propext, Classical.choice, Quot.sound] -/
#guard_msgs (whitespace := lax) in
#print axioms Blasted.solve_program_unknown_word

/-- info: 'Blasted.solve_program_unknown_solver' depends on axioms: [propext, Classical.choice, Quot.sound] -/
#guard_msgs (whitespace := lax) in
#print axioms Blasted.solve_program_unknown_solver

/-- info: 'Blasted.solve_program_cscbgs_blocks' depends on axioms: [propext, Classical.choice, Quot.sound] -/
#guard_msgs (whitespace := lax) in
#print axioms Blasted.solve_program_cscbgs_blocks

/-- info: 'Blasted.solve_program_choice' depends on axioms: [propext, Classical.choice, Quot.sound] -/
#guard_msgs (whitespace := lax) in
#print axioms Blasted.solve_program_choice

/-- info: 'Blasted.poisson_lhs_correct' depends on axioms: [propext, Classical.choice, Quot.sound] -/
#guard_msgs (whitespace := lax) in
#print axioms Blasted.poisson_lhs_correct

/-- info: 'Blasted.poisson_mmat' depends on axioms: [propext, Classical.choice, Quot.sound] -/
#guard_msgs (whitespace := lax) in
#print axioms Blasted.poisson_mmat

/-- info: 'Blasted.poisson_relax_solves' depends on axioms: [propext, Classical.choice, Quot.sound] -/
#guard_msgs (whitespace := lax) in
#print axioms Blasted.poisson_relax_solves

/-- info: 'Blasted.poisson_ilu_converges' depends on axioms: [propext, Classical.choice, Quot.sound] -/
#guard_msgs (whitespace := lax) in
#print axioms Blasted.poisson_ilu_converges

/-- info: 'Blasted.poisson_mesh_correct' depends on axioms: [propext, Classical.choice, Quot.sound] -/
#guard_msgs (whitespace := lax) in
#print axioms Blasted.poisson_mesh_correct

/-- info: 'Blasted.poisson_interior_count' depends on axioms: [propext, Quot.sound] -/
#guard_msgs (whitespace := lax) in
#print axioms Blasted.poisson_interior_count

/-- info: 'Blasted.poisson_mesh_size' depends on axioms: [propext, Classical.choice, Quot.sound] -/
#guard_msgs (whitespace := lax) in
#print axioms Blasted.poisson_mesh_size

/-- info: 'Blasted.poisson_rhs_partial' depends on axioms: [propext, Classical.choice, Quot.sound] -/
#guard_msgs (whitespace := lax) in
#print axioms Blasted.poisson_rhs_partial

/-- info: 'Blasted.poisson_rhs_shifted' depends on axioms: [propext, Classical.choice, Quot.sound] -/
#guard_msgs (whitespace := lax) in
#print axioms Blasted.poisson_rhs_shifted

/-- info: 'Blasted.poisson_norm_partial' depends on axioms: [propext, Classical.choice, Quot.sound] -/
#guard_msgs (whitespace := lax) in
#print axioms Blasted.poisson_norm_partial

/-- info: 'Blasted.poisson_norm_ub' depends on axioms: [propext, Classical.choice, Quot.sound] -/
#guard_msgs (whitespace := lax) in
#print axioms Blasted.poisson_norm_ub

/-- info: 'Blasted.exactSolution_laplacian' depends on axioms: [propext, Classical.choice, Quot.sound] -/
#guard_msgs (whitespace := lax) in
#print axioms Blasted.exactSolution_laplacian

/-- info: 'Blasted.noscale_factorize_agrees' depends on axioms: [propext, Classical.choice, Quot.sound] -/
#guard_msgs (whitespace := lax) in
#print axioms Blasted.noscale_factorize_agrees

/-- info: 'Blasted.noscale_factorize_exact' depends on axioms: [propext, Classical.choice, Quot.sound] -/
#guard_msgs (whitespace := lax) in
#print axioms Blasted.noscale_factorize_exact

/-- info: 'Blasted.noscale_factorize_dominant' depends on axioms: [propext, Classical.choice, Quot.sound] -/
#guard_msgs (whitespace := lax) in
#print axioms Blasted.noscale_factorize_dominant

/-- info: 'Blasted.partially_async_test_sound' depends on axioms: [propext, Classical.choice, Quot.sound] -/
#guard_msgs (whitespace := lax) in
#print axioms Blasted.partially_async_test_sound

/-- info: 'Blasted.fully_async_test_sound' depends on axioms: [propext, Classical.choice, Quot.sound] -/
#guard_msgs (whitespace := lax) in
#print axioms Blasted.fully_async_test_sound

/-- info: 'Blasted.partially_async_test_passes' depends on axioms: [propext, Classical.choice, Quot.sound] -/
#guard_msgs (whitespace := lax) in
#print axioms Blasted.partially_async_test_passes

/-- info: 'Blasted.fully_async_test_passes' depends on axioms: [propext, Classical.choice, Quot.sound] -/
#guard_msgs (whitespace := lax) in
#print axioms Blasted.fully_async_test_passes

/-- info: 'Blasted.async_tests_pass_exact' depends on axioms: [propext, Classical.choice, Quot.sound] -/
#guard_msgs (whitespace := lax) in
#print axioms Blasted.async_tests_pass_exact

/-- info: 'Blasted.async_tests_refuse_initialization' depends on axioms: [propext, Classical.choice, Quot.sound] -/
#guard_msgs (whitespace := lax) in
#print axioms Blasted.async_tests_refuse_initialization

/-- info: 'Blasted.async_tests_abort_without_error' depends on axioms: [propext, Classical.choice, Quot.sound] -/
#guard_msgs (whitespace := lax) in
#print axioms Blasted.async_tests_abort_without_error

/-- info: 'Blasted.async_tests_abort_on_triangular' depends on axioms: [propext, Classical.choice, Quot.sound] -/
#guard_msgs (whitespace := lax) in
#print axioms Blasted.async_tests_abort_on_triangular

/-- info: 'Blasted.fully_async_test_may_fail' depends on axioms: [propext, Classical.choice, Quot.sound] -/
#guard_msgs (whitespace := lax) in
#print axioms Blasted.fully_async_test_may_fail

/-- info: 'Blasted.triangular_test_solutions' depends on axioms: [propext, Classical.choice, Quot.sound] -/
#guard_msgs (whitespace := lax) in
#print axioms Blasted.triangular_test_solutions

/-- info: 'Blasted.triangular_test_outcome' depends on axioms: [propext, Classical.choice, Quot.sound] -/
#guard_msgs (whitespace := lax) in
#print axioms Blasted.triangular_test_outcome

/-- info: 'Blasted.triangular_test_outcome_exact' depends on axioms: [propext, Classical.choice, Quot.sound] -/
#guard_msgs (whitespace := lax) in
#print axioms Blasted.triangular_test_outcome_exact

/-- info: 'Blasted.triangular_test_bad_name' depends on axioms: [propext, Classical.choice, Quot.sound] -/
#guard_msgs (whitespace := lax) in
#print axioms Blasted.triangular_test_bad_name

/-- info: 'Blasted.triangular_test_passes' depends on axioms: [propext, Classical.choice, Quot.sound] -/
#guard_msgs (whitespace := lax) in
#print axioms Blasted.triangular_test_passes

/-- info: 'Blasted.triangular_test_passes_exact' depends on axioms: [propext, Classical.choice, Quot.sound] -/
#guard_msgs (whitespace := lax) in
#print axioms Blasted.triangular_test_passes_exact

/-- info: 'Blasted.triangular_test_may_fail' depends on axioms: [propext, Classical.choice, Quot.sound] -/
#guard_msgs (whitespace := lax) in
#print axioms Blasted.triangular_test_may_fail

/-- info: 'Blasted.reordered_ilu_options_partial' does not depend on any axioms -/
#guard_msgs (whitespace := lax) in
#print axioms Blasted.reordered_ilu_options_partial

/-- info: 'Blasted.reordered_ilu_threads_wrong' does not depend on any axioms -/
#guard_msgs (whitespace := lax) in
#print axioms Blasted.reordered_ilu_threads_wrong

/-- info: 'Blasted.reordered_ilu_threads_wrong_result' depends on axioms: [propext, Classical.choice, Quot.sound] -/
#guard_msgs (whitespace := lax) in
#print axioms Blasted.reordered_ilu_threads_wrong_result

/-- info: 'Blasted.reord_program_sound' depends on axioms: [propext, Classical.choice, Quot.sound] -/
#guard_msgs (whitespace := lax) in
#print axioms Blasted.reord_program_sound

/-- info: 'Blasted.reord_program_exact' depends on axioms: [propext, Classical.choice, Quot.sound] -/
#guard_msgs (whitespace := lax) in
#print axioms Blasted.reord_program_exact

/-- info: 'Blasted.reord_program_bcgs_exact' depends on axioms: [propext, Classical.choice, Quot.sound] -/
#guard_msgs (whitespace := lax) in
#print axioms Blasted.reord_program_bcgs_exact

/-- info: 'Blasted.reord_program_words' depends on axioms: [propext, Classical.choice, Quot.sound] -/
#guard_msgs (whitespace := lax) in
#print axioms Blasted.reord_program_words

/-- info: 'Blasted.reord_main' depends on axioms: [propext, Classical.choice, Quot.sound] -/
#guard_msgs (whitespace := lax) in
#print axioms Blasted.reord_main

/-- info: 'Blasted.trivial_reordering' depends on axioms: [propext, Classical.choice, Quot.sound] -/
#guard_msgs (whitespace := lax) in
#print axioms Blasted.trivial_reordering

/-- info: 'Blasted.SwapsTwo.valid' depends on axioms: [propext, Classical.choice, Quot.sound] -/
#guard_msgs (whitespace := lax) in
#print axioms Blasted.SwapsTwo.valid

/-- info: 'Blasted.ilu_few_sweeps' depends on axioms: [propext, Classical.choice, Quot.sound] -/
#guard_msgs (whitespace := lax) in
#print axioms Blasted.ilu_few_sweeps

/-- info: 'Blasted.ilu_few_sweeps_exec' depends on axioms: [propext, Classical.choice, Quot.sound] -/
#guard_msgs (whitespace := lax) in
#print axioms Blasted.ilu_few_sweeps_exec

/-- info: 'Blasted.ilu_few_iteration_converges' depends on axioms: [propext, Classical.choice, Quot.sound] -/
#guard_msgs (whitespace := lax) in
#print axioms Blasted.ilu_few_iteration_converges

/-- info: 'Blasted.sgs_few_sweeps' depends on axioms: [propext, Classical.choice, Quot.sound] -/
#guard_msgs (whitespace := lax) in
#print axioms Blasted.sgs_few_sweeps

/-- info: 'Blasted.async_ilu_few_sweeps' depends on axioms: [propext, Classical.choice, Quot.sound] -/
#guard_msgs (whitespace := lax) in
#print axioms Blasted.async_ilu_few_sweeps

/-- info: 'Blasted.async_ilu_few_sweeps_exec' depends on axioms: [propext, Classical.choice, Quot.sound] -/
#guard_msgs (whitespace := lax) in
#print axioms Blasted.async_ilu_few_sweeps_exec

/-- info: 'Blasted.async_ilu_sweeps_needed' depends on axioms: [propext, Classical.choice, Quot.sound] -/
#guard_msgs (whitespace := lax) in
#print axioms Blasted.async_ilu_sweeps_needed

/-- info: 'Blasted.async_ilu_pivots_bounded' depends on axioms: [propext, Classical.choice, Quot.sound] -/
#guard_msgs (whitespace := lax) in
#print axioms Blasted.async_ilu_pivots_bounded

/-- info: 'Blasted.async_ilu_pivots_exec' depends on axioms: [propext, Classical.choice, Quot.sound] -/
#guard_msgs (whitespace := lax) in
#print axioms Blasted.async_ilu_pivots_exec

/-- info: 'Blasted.safeGuess_sgs' depends on axioms: [propext, Classical.choice, Quot.sound] -/
#guard_msgs (whitespace := lax) in
#print axioms Blasted.safeGuess_sgs

/-- info: 'Blasted.safeGuess_original' depends on axioms: [propext, Classical.choice, Quot.sound] -/
#guard_msgs (whitespace := lax) in
#print axioms Blasted.safeGuess_original

/-- info: 'Blasted.async_ilu_original_unsafe' depends on axioms: [propext, Classical.choice, Quot.sound] -/
#guard_msgs (whitespace := lax) in
#print axioms Blasted.async_ilu_original_unsafe

