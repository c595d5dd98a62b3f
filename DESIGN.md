# Formal model of BLASTed in Lean 4

Source: `/repo` (C++). Model: `/verif/lean/Verif`. Properties: `properties.jsonl`; status of each:
`MANIFEST.json`; wrong programs tried against the theorems: `seeded/LOG.jsonl`.

## 1. How the code is modelled

### Outcomes
Every modelled C++ function is a computable Lean function in the monad `C α = Except Fail α`
(`Verif/Base/Mem.lean`). `Fail` separates the outcomes the C++ program can have besides a normal return:

* `ub` - undefined behaviour: out-of-bounds array access, use of a variable or array cell that was
  never written, `front()` of an empty vector, null dereference, double free;
* `abort` - `std::abort` or a failing `assert` (asserts are modelled as active unless a parameter `asserts`
  says otherwise);
* `throw` - a C++ exception (type and message);
* `divzero` - division by an exact zero or inversion of a singular block;
* `fuel` - an unbounded loop did not end within the fuel it was given;
* `order` - not an outcome of the program: the order handed to a parallel loop is not a permutation of its iterations.

Arrays are `List`s; a read `rd a i` or write `wr a i v` outside the array is `ub`. Theorems that
say a function "returns" something therefore also say that it performs no out-of-bounds access.
C++ `for` loops are `forRange lo hi`, down-counting loops are `forDown`, unbounded `while` loops take
fuel, so termination is proved and not assumed. `Ok m P` (total correctness) says `m` returns and the result satisfies `P`;
`Post m P` is the partial version.

### Numbers
* The models of products, factorization and solves use bare operations (`Zero`, `Add`, `Sub`, `Mul`, `PInvOp`) of which nothing is
  assumed. Most theorems instantiate them with an arbitrary field or ring (exact arithmetic; a linearly ordered field where
  norms, comparisons or least squares matter). C61 and C62 hold for every arithmetic, in particular for IEEE numbers with
  their rounding, NaN and infinities: there, equality of results means equality of bits.
* C63 to C66 are about rounded arithmetic (`Rounding` in `Verif/Arith/FlSpec.lean`): every operation has a relative error of at
  most the unit roundoff. This is the standard model of numerical analysis; it excludes overflow and underflow. `Verif/Arith/FlEx.lean` constructs
  floating-point numbers with `p` bits, rounding to nearest and unbounded exponent, and proves that they satisfy it with `u = 2⁻ᵖ`; for `p = 53` these are
  the IEEE doubles but for the bounds of the exponent.
* Taken in loop order: `omp simd reduction` of the row sums, whose grouping the compiler chooses once for all runs. Eigen's products of
  fixed-size blocks are taken as sums from left to right.
* Blocks: for functions whose memory layout matters (matvec, COO conversion, assembly, approximate inverses, reordering)
  flat scalar arrays with the code's own offsets; for factorization and triangular solves an arbitrary
  possibly non-commutative ring `R` acting on a module `M`, with a partial inverse (`PInv`). An Eigen `Map` of a
  block is an element of `R`. Scalar code is modelled separately over a field where it is separate code.
* `index` (C++ `int`): naturals, or integers where the code uses negative values. Overflow is modelled in `Verif/Ints` (C67) for the functions
  that add up or multiply indices beyond `i*bs+k`; the other theorems are about unbounded indices.

### Threads
* A race-free `omp parallel for` over `n` iterations is `parFor n ord`: its iterations run one after the other in
  the order `ord`, and the call fails with `order` unless `ord` is a permutation of `0 .. n-1`. The iteration
  space is thus part of the model, and theorems quantify over all `ord`. That the iterations write disjoint
  cells and read none of each other's is a proved fact (`forList_own`, `forList_par`), not an assumption.
* `Verif/Race` goes below the level of iterations: an iteration is the tree of its single loads and stores of the shared array
  (`Prog`), the iterations interleave access by access (`Steps`), and a data race is a reachable state in which two
  iterations are about to access one cell, one of them with a store. If the iterations touch disjoint cells, every interleaving gives
  what one order of whole iterations gives (`deterministic_of_disjoint`); this is what justifies `parFor`. It is instantiated for the
  matrix-vector products, the Jacobi application and the level-scheduled solves; memory is sequentially consistent there, which
  C++ guarantees for programs without data races.
* Loops with `schedule` clauses whose chunks matter: `parRange sched n` with `IsSched`/`IsParts` (any partition of the
  iterations into chunks, in any order).
* `omp atomic` additions and `reduction`: any order of the individual additions.
* Asynchronous (racy by design) loops: `Verif/Async`. An execution is a log of component writes. The value
  written to component `i` is the kernel applied to a read vector whose entry `j` is any value
  that component `j` has held (initially or through any earlier write of the log); for completed
  sweeps the read is restricted to values present since the beginning of the sweep. This covers
  arbitrary interleaving, delayed visibility and mixing of old and new values. Not covered:
  torn reads of a single `double`.
* `Verif/Race/AsyncModel.lean` derives these logs from programs (C68). A job is the update of one component in one sweep, a program of single loads and
  one store. A load returns any value that the component has held, except values replaced by a write of a job that the loading job is ordered after. `Lag n L`: a job is
  ordered after all jobs of the sweep `L` before. Every execution of `k (2L-1)` sweeps is `k` rounds (`ARounds`), with `L = 1` (a barrier) every sweep a round; every execution
  without order is an `AFree`. Interleavings with current reads are a special case (`async_exec_interleaving`). The cell of this machine is a component: a whole block in the block
  variants. That a block may be read while it is written is in the logs (`mixTorn`) but not in this machine.
* `Verif/Race/TornModel.lean` refines this for blocks (C88), including two threads that write one block at the same time: a component consists of cells, one for each coefficient, and every access is to one cell.
  The products of blocks and segments are small expressions of fixed size that Eigen evaluates coefficient by coefficient, so the model computes every coefficient with loads of its
  own and lets the coefficients of the result be stored in any order after it is complete. Only the result of a job is stored in shared memory; the sums are local variables
  in the source. That a compiler keeps them so is part of what is assumed. A load of a `double` is assumed to be all or nothing.

### Memory and objects
* `Verif/Heap`: `ArrayView` and the matrix classes as heap state machines: a heap maps addresses to live
  allocations; freeing twice, freeing an interior pointer and reading freed memory are `ub`; leaks are visible in the heap.
* `Verif/Factory/Stack*`: PETSc's solver tree is an inductive tree of `KSP`/`PC` nodes; the list of BLASTed data
  and the factories are heap objects.

### Files
`Verif/Coo/MMModel.lean` models the Matrix Market readers on a stream of characters: `getline`, `>>` into strings,
integers and reals with the failure bits. The number syntax of `>>` is a parameter with a contract
that every number printed in the file is read back as its value.

### Dense solvers
Eigen's `partialPivLu().solve` and `colPivHouseholderQr().solve` are parameters of the model with contracts
(`SolvesExactly`, `SolvesLeastSquares` in `Verif/Sai/Props.lean`). Block inversion is a parameter too (`PInv`).

### Trusted base
* Lean 4.33.0 kernel.
* Axioms: each theorem depends on at most `propext`, `Classical.choice`, `Quot.sound`. `lean/Verif/Audit.lean` lists them for
  every claimed theorem, and its build fails if the list is not what the kernel reports.
* The reading of the C++ code recorded in the comments of the model.
* Exact arithmetic instead of IEEE arithmetic except in C61 to C66, unbounded indices instead of `int` except in C67.
* Correctness of Eigen, Boost align, the C++ library (`std::sort` is any function returning a sorted permutation), OpenMP,
  PETSc, MPI, and of the external ordering code (MC64): C69 assumes its documented contract as a hypothesis.

### Modelled / not modelled

| code | status |
|------|--------|
| `src/kernels/*.hpp`, `src/async_ilu_factor.cpp`, `src/async_blockilu_factor.cpp`, `src/ilu_pattern.cpp` | modelled (`ILU`, `Async`) |
| `src/solverops_ilu0.cpp`, `solverops_sgs.cpp`, `solverops_levels_*.cpp`, `solverops_jacobi.cpp`, `relaxation_chaotic.cpp`, `solverops_base.cpp` | modelled (`Solve`, `Relax`) except timing, and printing |
| `src/levelschedule.cpp`, `src/adjacency.cpp`, `src/scmatrix.cpp`, `src/helper_algorithms.*`, `src/utils/prefix_sum.cpp` | modelled (`Levels`, `Transpose`, `Algo`, `MatVec`) |
| `src/blas/*.cpp`, `src/blockmatrices.ipp`, `include/blockmatrices.hpp`, `include/srmatrixdefs.hpp`, `src/rawsrmatrixutils.cpp`, `include/arrayview.hpp`, `src/matrix_properties.cpp` | modelled (`MatVec`, `Container`, `Heap`, `Info`) except printing |
| `src/coomatrix.cpp` | modelled (`Coo`) except printing |
| `src/reorderingscaling.cpp`, reordered ILU in `src/solverops_ilu0.cpp` | modelled (`Reorder`); the Fortran routine MC64 is a parameter that meets its documented contract |
| `src/sai.cpp`, `src/sai.hpp` | modelled (`Sai`) |
| `src/solverfactory.cpp`, `src/blasted_petsc.cpp` | modelled (`Factory`) except printing and timing |
| `src/utils/cmdoptions.cpp`, `src/utils/blasted_petsc_io.cpp`, `src/utils/util_petsc_io.c` | modelled (`PetscIO`) except printing; the PETSc functions they call are modelled from their manual pages |
| `src/solverops_sai.cpp` | empty bodies, nothing to model |
| `src/solverops_sgs_sai.cpp`, `include/relaxation_async_sgs.hpp`, `src/dynamic_array_list.hpp` | unfinished: do not compile or are never defined; not modelled |
| `tests/solvers.cpp`, `tests/solvers.hpp` | the three solvers modelled (`Krylov/`), without printing and times; exact arithmetic |
| `tests/testsolve.cpp`, `tests/runsolvetest.cpp` | modelled (`Krylov/ProgModel.lean`), without printing and the parsing of the command line |
| `tests/poisson3d-fd/cartmesh.cpp`, `tests/poisson3d-fd/poisson3d_fd.cpp`, `createMesh` in `tests/poisson3d-fd/poisson_setup.cpp` | modelled (`Poisson`), without printing; the distributed arrays of PETSc are modelled from their manual pages |
| `tests/solverops/async_ilu_convergence.cpp` | modelled for block size 1 (`ConvTest`), without output and tables |
| `tests/solverops/async_triangular_factors_convergence.cpp` | modelled for block size 1 (`TriTest`), without output and without `runPartiallyAsyncTest`, which nothing calls |
| `tests/testreorderedsolve.cpp` | modelled (`Krylov/ReordModel.lean`), without printing |
| `tests/testutils.cpp` | `runComparisonVsPetsc_cpp`, `compareSolverWithRef`, `set_blasted_sweeps`, `getBlockSize` modelled (`PetscTest`), without printing; `wrapLocalPetscMat` and `pretendModifyMatrix` are not |
| `tests/perftest/perftesting.cpp`, `tests/perftest/runperftest.cpp` | modelled (`PerfTest`) from the parameters on, without printing, column widths and reading the linear system; calls of PETSc succeed |
| `tests/testutils.c` `runComparisonVsPetsc`, `runPetsc`; `tests/runpetscsolver.c` | modelled (`PetscTest/SweepModel.lean`) from the options on, without printing and the files; calls of PETSc succeed |
| `tests/poisson3d-fd/poisson_setup.cpp` `readInputFile` | modelled (`Poisson/FileModel.lean`) without printing; real numbers are converted word by word |
| `tests/runpetscsingle.c`, `tests/poisson3d-fd/poisson_setup.cpp` `generateDiscreteProblem` | modelled (`PetscTest/SingleModel.lean`) without printing during the runs; calls of PETSc succeed |
| `tests/solverops/test_iter_prec_conv.cpp` | modelled (`PetscTest/DriverModel.lean`) without printing; wrapping the matrix and computing the positions are part of the test parameter |
| `tests/runpetsctest.c`, `tests/testutils.c` (`readLinearSystemFromFiles`) | modelled (`PetscTest/SystemModel.lean`) without printing; `compute_difference_norm` is not modelled |
| the other files under `tests/` | programs using the library; not modelled |

## 2. Layout

Each topic `X` has `X/Model.lean` (code transcription with citations), where useful `X/Spec.lean`
(independent specification), `X/*Lemmas.lean` (helpers) and `X/*Props.lean` (property theorems and
non-vacuity examples).

## 3. Per property

| id | modelled | proof method |
|----|----------|--------------|
| C01 | `BLAS_CSR::matrix_apply` over list memory, rows in any order | loop invariant; refinement to the denoted matrix |
| C02 | `BLAS_BSR::matrix_apply` on flat memory with layout offsets | loop invariants, block sums |
| C03 | `gemv3` CSR/BSR, aliased and not | loop invariant: rows not yet processed still hold old `y` |
| C04 | `bcsc_gemv3` as a multiset of atomic additions | permutation invariance of folds |
| C05, C06 | `convert_BSR_to_BSC(_1based)` | counting-sort invariant |
| C07 | `ColumnAdjacency::compute` | counting-sort invariant |
| C08 | `sortBlockInnerDimension` | selection-sort invariant |
| C09 | `inclusive_scan` | loop invariant |
| C10 | `prefix_sum` per barrier phase | invariant per level; negation with witnesses for bad thread counts |
| C11-C15 | `Reordering`, `ReorderingScaling` | permutation algebra; negation for stale diagonal locations |
| C16 | `ReorderedAsyncILU0` compute/apply | theorem for involutive column permutations (partial), negation for a 3-cycle |
| C17 | `compute_ILU_positions_CSR_CSR` | loop invariants, sortedness |
| C18-C20 | scalar/block factorization | invariant over processed positions; uniqueness of the solution of the triangular recurrence |
| C21, C22 | async factorization | fixed point; rank argument with rank 2*min(i,j)+[i>j] |
| C23 | nonlinear residuals | sums of non-negative terms |
| C24 | initializations | algebra; negations for the scaled variant and for the missing `break` |
| C25-C27 | ILU apply sequential / async | forward/backward substitution invariants, rank argument |
| C28, C30, C33 | level scheduling | invariant of the level construction; race-freeness within levels; negation (divergence) for nonsymmetric patterns |
| C29, C31, C32 | SGS variants | same as ILU apply |
| C34 | triangular views | pattern algebra |
| C35-C37 | relaxations | fixed point algebra; contraction in the max norm |
| C38, C39 | COO to CSR/BSR | sorting and prefix invariants; negations with witnesses |
| C40, C41, C56 | Matrix Market files on a character stream | stream invariants; decision logic; negations with witnesses |
| C42 | `ArrayView` as heap state machine | ownership invariant by induction over operations |
| C43 | SAI/ISAI patterns, gathering, local solves, scattering | pattern specification; loop invariants; linear algebra over the local systems |
| C44, C58 | factory decision logic | case analysis over all types and sizes; negation for the diagnostics flag |
| C45 | PETSc option parsing | case analysis; negations |
| C53, C57 | PETSc stack setup and life cycle | induction over solver trees and histories of calls; negations |
| C46, C47, C49-C51 | matrix classes | loop invariants; heap model; negations with witnesses |
| C48 | `diagonal_dominance` | ordered-field algebra |
| C52 | linearity of apply and independence from old output | corollary of the solve theorems; negation for chaotic relaxation |
| C54 | `maxnorm` | fold of max; negation for the zero vector (starts from smallest positive double) |
| C59 | option reading over a model of the options database | case analysis over absent / valueless / bad / good values; negations |
| C60 | PETSc matrices and vectors from files | loop invariants over rows composed with C38, C39, C40; negations with witnesses |
| C61 | bodies of the parallel loops as trees of accesses | invariant over all interleavings; refinement to the loop bodies of the other modules; negation for the asynchronous solve |
| C62 | the same models over bare operations | closed forms by induction; uniqueness of the solution of triangular row equations; ranks of dependencies for asynchronous executions |
| C63 | products over a rounded arithmetic | closed forms of C62; error factors by induction over the row |
| C64 | ILU, SGS and Jacobi applications over a rounded arithmetic | row equations of C62; error factors moved into the entries |
| C65 | scalar factorization over a rounded arithmetic | the computed factors as a fixed point (C62); error factors moved into the product |
| C66 | composition of C64 and C65 | error factors combined; products of the factors vanish outside of the pattern without fill |
| C67 | the index computations with every sum and product checked | prefix sums bounded by their total; equality with the unbounded versions by invariants on array lengths; two overflows |
| C68 | asynchronous loops as sets of programs on a machine with delayed stores | invariant relating program states to the log; positions of the completed sweeps in the log; decreasing number of pending accesses; execution with initial reads only |
| C69 | `MC64::compute`, `getWorkSizes`; the Fortran routine is a parameter that meets its documented contract (`Mc64Spec.lean`) | the column copy (C06) meets the preconditions; invariant of the scaling loop; composition with C12 and C15 |
| C70 | `relax_local_blasted` over the relation of outcomes of `apply_relax`; `computeTotalTimes` | case analysis over the classes with C35 to C37; contraction of Gauss-Seidel sweeps by strong induction |
| C71 | the model of `compute` (C18) and of the asynchronous sweeps (C22, C68) for matrices with weighted dominance `sum_{j≠i} |a_ij| d_j <= rho |a_ii| d_i` | per-row estimate of the factors by induction over the rows: the excess of the diagonal of U over the rest is at least that of A; existence of exact factors by recursion over the stored positions, then completeness of `compute` |
| C72 | as C71, with the applications of C25, C27, C28 and an inductive definition of the iteration | the same estimate with the weight `rho` bounds the discarded fill against the excess; forward and backward induction. Signs of the factors of M-matrices by induction over the rows |
| C73 | the applications of C25 to C31 and C35; inner products of vectors and of vectors of segments (`innerB`) | the operators solve with `(D+L) D^-1 (D+U)` or `L U`; for a symmetric matrix with symmetric pattern `U = D L^T` by induction over the stored positions. One proof for scalars and blocks with an abstract symmetric bilinear form |
| C74 | the relaxations of C36 and C70 as Gauss-Seidel sweeps; the correction iteration with SGS as an inductive relation | a sweep lowers the energy by `sum_i (d_i, A_ii d_i)`; compactness is avoided: the norm equivalences come from Cauchy-Schwarz with the dual basis over an ordered field (`Base/Dot.lean`). The asynchronous machine contains the Jacobi iterates (`Async/Simultaneous.lean`), which diverge for a 3x3 matrix |
| C75 | `apply_local_blasted` over the outcomes of the virtual `apply` of every class (`Relax/PetscApplyModel.lean`), the clocks as parameters, histories as an inductive relation that carries the work vector and the timings | case analysis over the classes, composing C25-C35; induction over the history; the end-to-end statement composes the factory (C44) with C71 and C55. PETSc's own `Vec` functions are not modelled |
| C76 | the relaxations of C36, C70 and C74 as one relation `RelaxMethod.Outcome` | weighted maximum norm contraction carried through the asynchronous logs (`ALog.contract`, `ARounds.contract`); the converse: with the diagonal as right-hand side the Jacobi or Gauss-Seidel iterates from zero increase, so their limit is a positive vector `d` with `A d = diag > 0`, which makes the matrix an M-matrix |
| C77 | the asynchronous executions of C22, C27, C31 | the rank of an entry or row in terms of the depth of rows instead of their number; the level index of C33 is a depth; sharpness: executions in which every read but one per sweep returns the current value (`ARun.exists_wrong`), constructed in the abstract execution model, with the one stale read walking along the chain |
| C78 | `RichardsonSolver::solve` and the vector operations, the preconditioner an arbitrary function of the number of the call, its argument and the old contents of the result | loop invariant: the iterates form a sequence of corrections; a sequence of sets through which the corrections lead gives the number of iterations; for ILU(0) the contraction of C72 |
| C79 | `BiCGSTAB::solve` | the recursive residual equals the true one in every iteration; for a fixed linear preconditioner the vectors `r`, `p`, `s` lie in nested Krylov spaces orthogonal to the powers of the transposed operator on the shadow residual, so that the residual vanishes after `n` iterations and the division by zero has happened before |
| C80 | `GCR::solve` | the `q` are orthogonal, `q = A p`, and span the same space as the `A z` of the cycle; the residual is orthogonal to it, hence minimal; breakdown only if `r ⟂ A z`; independence of the `A z` bounds the number of iterations without restart |
| C81 | `getSizeFromMatrixMarket`, `readMatrixMarket` | `std::stoi` accepts exactly the words that begin with an integer of the type (specification `SizeWord`), by the value of the digits; the outcome of the size line follows; a stream whose words are used up assigns nothing, so the first missing entry is undefined. Indices out of range and a missing value: witnesses |
| C82 | `destroyBlastedDataList`, `cleanup_blasted`, `compute_preconditioner_blasted` | Heap objects of `Factory/StackModel.lean` with use after deletion as undefined behaviour; from the invariant of the live objects (C53): the destruction of the list leaves the registrations in place and exactly the preconditioner objects behind, that of the solver exactly the contexts and diagnostics |
| C83 | `relaxRow` and all relaxations, over the abstract rounded arithmetic of C63 | one row update with the factors of all roundings; `Shrinks`: a row update that takes a predicate with parameter `e` to `q e` makes every sequential, levelled and asynchronous execution do so (no law of arithmetic used); the predicate is `error ≤ (level + e) d`; differing limits: fixed points of the rounded iteration for two equations in `double` (`Arith/FlRelaxProps.lean`, `Arith/FlRelaxExamples.lean`, `Relax/Shrink.lean`) |
| C84 | the apply functions of all preconditioners and the relaxations, in the state left by their constructors (null pointers are empty arrays, so every access is undefined) | the first row processed by the loop, in whatever order, reads or writes an array that is not there; the reordered ILU works on a default-constructed matrix with no rows (`Solve/BeforeProps.lean`) |
| C85 | `readMatrixMarket` with a parameter that switches the assertion on or off (`readMatrixMarketB`; the other theorems about the reader are about the build with assertions) | the loop that finds the rows compares neighbouring row numbers only, so it sees the groups of equal row numbers: invariant of the loop in terms of the place of a row number among those that occur; out-of-range writes and default-constructed iterators are undefined (`Coo/MMRows.lean`, `Coo/MMRowProps.lean`) |
| C86 | the model of the block `compute` (C19) and of the asynchronous sweeps (C22, C68) for matrices with weighted block dominance (spec: `WBlockDominant` in `ILU/BlockDomLemmas.lean`) | the elimination of a block row, multiplied with the inverse diagonal block, estimated by the sums of the absolute values of its scalar rows; a block near the identity is invertible; a maximum principle instead of division by the diagonal; then completeness of `compute` (`Solve/BlockDomProps.lean`) |
| C87 | as C86, with the applications of C26, C27, C28 and an inductive definition of the iteration | the same estimate with the weight `rho` bounds the discarded fill; forward and backward induction over the block rows |
| C88 | the block kernels as programs of loads of single coefficients, every coefficient of an expression with loads of its own; a machine whose jobs store the coefficients of their result in any order and whose loads return any visible value of the cell (`Race/TornModel.lean`) | invariant with a family of sets of values for every cell and round (`TornExec.rounds`); exactness by the length of the chains of dependences; contraction of weighted errors; decreasing number of pending accesses; the current contents of the memory are always visible |
| C89 | `main` of the conversion program: arguments, the option `-exact_soln`, `strcpy`/`strcat` into arrays of 500 characters, the files as a map from names to text or PETSc objects (`PetscIO/UtilModel.lean`) | the theorems on the readers (C60), lemmas on C strings, frame lemmas for the writers; names of 495 or more characters are proved to overflow |
| C90 | `test_solve` and `main` of the solve program: reading the files, both conversions, the settings, the factory, the solver and the check against a reference (`Krylov/ProgModel.lean`); the preconditioner objects are a parameter, with the sequential ILU(0) and block ILU(0) objects of the library as instances (`Krylov/BlockSpec.lean`), and the Jacobi, SGS and column-oriented Gauss-Seidel objects (`Krylov/RelaxSpec.lean`) | composition of the theorems on the readers (C38-C40), the factory (C44), the solvers (C78-C80) and exact ILU(0) (C17, C25); for any contracting preconditioner, and from there for block ILU(0) in BSR format and for Jacobi and Gauss-Seidel in both formats (`Krylov/ContractProps.lean`, `Krylov/BlockProps.lean`, `Krylov/RelaxPrecProps.lean`); files that hold too few numbers are proved to be read out of bounds |
| C91 | `CartMesh`, the grid generators, `computeLHS` row by row and its assembly from all processes (`Poisson/Model.lean`); PETSc's `MatSetValuesStencil` inserts and ignores points outside, `DMDAGetCorners` is any distribution of the points. `Poisson/Spec.lean` has the second divided difference and the discrete Laplacian | the row in closed form; rows set stay set (invariant of the three loops and of the processes); the sum over the grid of a row collapses to its seven entries, which are the divided differences. M-matrix: the parabola along the first axis vanishing at both ends has a negative Laplacian of at least 2. Then the theorems on relaxations of M-matrices (C76) apply. Grids: monotonicity of the cosine |
| C92 | `computeRHS` and `computeNorm` (`Poisson/Model.lean`), reads before an array are undefined behaviour | false of the code: `poisson_rhs_shifted` and `poisson_norm_ub` refute it; the `_partial` theorems say what is computed; `exactSolution_laplacian` checks the source against the derivatives |
| C93 | `scalar_ilu0_factorize_noscale` (`ILU/NoscaleModel.lean`), sequential sweeps | equality with the model of the general function, then the sweep invariants of C18 and the existence of factors of C71 (`ILU/NoscaleProps.lean`); sweeps by several threads are covered by the theorems on the sweeps themselves (C22, C71) |
| C94 | the two tests of `tests/solverops/async_ilu_convergence.cpp` for block size 1 (`ConvTest/Model.lean`); what the parallel sweeps leave is a parameter, restricted in the theorems to executions of the access model of C68 | invariants of the loop over the numbers of sweeps, exactness after enough sweeps from C22 and C68 (`ConvTest/Props.lean`); the failures without a fault of the factorization are theorems too |
| C95 | the test of `tests/solverops/async_triangular_factors_convergence.cpp` for block size 1 (`TriTest/Model.lean`), with the parallel sweeps as in C94 | induction over the loop in its two phases, before and after the first small error; exactness from C27 and C68; the run of one thread as one of the executions (`Race/SeqExec.lean`, `TriTest/Props.lean`) |
| C96 | the constructor of `ReorderedAsyncILU0_SRPreconditioner` with its positional call of the base constructor (`Krylov/ReordModel.lean`) | false of the code for the threads: `reordered_ilu_threads_wrong`, with a wrong result in `reordered_ilu_threads_wrong_result`; the rest by computation (`reordered_ilu_options_partial`) |
| C97 | `tests/testreorderedsolve.cpp` (`Krylov/ReordModel.lean`) with the files of C86 and the solvers of C78 and C79; the preconditioner objects are parameters | soundness of the solvers for arbitrary preconditioners, injectivity of a matrix with an exact preconditioner, loop invariants (`Krylov/ReordProps.lean`) |
| C98 | the asynchronous applications of C27 and C31 as they are (`Solve/Model.lean`) | the factors of a dominant matrix contract in weights that come from the elimination; overlapping rounds contract with a perturbed right-hand side (`Solve/FewProps.lean`) |
| C99 | the asynchronous factorization of C21, C22 and C68 as it is (`ILU/Model.lean`, `Race/AsyncModel.lean`) and its initial guesses | entrywise majorants: everything written is bounded by the factors of the comparison matrix, and errors contract in weights that are differences of factors of comparison matrices with enlarged off-diagonal entries (`ILU/SweepLemmas.lean`, `ILU/SweepProps.lean`); negation for the guess "original" without scaling |
| C100 | the factorization of C99 and the application of C98 together (`Race/AsyncModel.lean`); the iteration is `ExecIteration` in `Solve/ApproxProps.lean` | perturbation of the contraction property of exact factors (`NearFac`, `FewFac.perturb`, `FewFac.near_solution` in `Solve/ApproxLemmas.lean`), then induction over the steps; the hypotheses on the guess are those of C99 |
| C101 | the applications `AsyncSgsExec`, `TornSgsExec` (`Race/AsyncProps.lean`, `Race/TornProps.lean`) in the iteration `CorrIteration` of `Solve/SgsFewProps.lean` | a backward update is a relaxation of its row with the result of the forward sweeps below the diagonal (`bgs_relaxVal`), so every update contracts (`RowContracts.bgs`); induction over the accesses and over the steps |
| C102 | the applications `AsyncIluApply`, `AsyncIluExec` for blocks in the iteration `BlockFewIteration` of `Solve/BlockFewProps.lean` | the elimination invariant of C87 gives `BFew`: forward rows contract in the norm `\|V_i y_i\| / w_i` with `V_i` the inverse pivot block and `w` the remaining dominance, backward rows in the weighted maximum norm; rounds by `ARounds.contract`. Torn segments are not covered (the norm of the forward solve is not coordinatewise); see C103 |
| C103 | the applications `AsyncIluApply` with `mixTornSeg` and `TornIluExec` (coefficient by coefficient, C88) in the iteration `TornFewIteration` of `Solve/TornFewProps.lean` | dominance by scalar rows gives coordinatewise weights `w` (`TFew`: what the comparison matrix of the pivot block leaves of the weights), in which the rows of both solves contract; one contract (`SweepsContract`) is proved for rounds and for executions, and the application and the iteration follow from it |
| C104 | `tests/testutils.cpp` (`PetscTest/Model.lean`); the solves, times and the list of information are parameters | each step of the program returns normally iff its condition holds; induction on the number of runs for the sums; option readers by C59 |
| C105 | `tests/perftest` (`PerfTest/Model.lean`); the solves are a function of the options and the number of threads in use | induction on the number of successful repetitions (`perfRuns_prefix`); setting the sweeps twice is setting them once, hence equal lines by induction on the list of settings |
| C106 | `tests/testutils.c`, `tests/runpetscsolver.c` (`PetscTest/SweepModel.lean`); the solves are a function of the options and the number of the run | induction on the number of successful runs (`sweepRuns_prefix`); setting the sweeps overwrites the earlier setting, hence the entries by induction on rows and columns |
| C107 | `readInputFile` of `tests/poisson3d-fd` (`Poisson/FileModel.lean`) over the characters of the file with `fscanf` as checked conversions | one lemma for each conversion on the words of the file (`Scans`), induction on the loops (`scanLoop_ok`, `scanLoop_throws`) |
| C108 | `tests/runpetscsingle.c`, `generateDiscreteProblem` (`PetscTest/SingleModel.lean`); the solves are a function of the number of the run | induction on the number of converged runs (`singleRuns_prefix`), the first failing run by `Nat.find`; case analysis on the arguments |
| C109 | `tests/solverops/test_iter_prec_conv.cpp` (`PetscTest/DriverModel.lean`); the tests and setting up the problem are parameters | composition of C59 (options) and C108 (choice of the problem), case analysis on the type of test and the block size |
| C110 | `tests/testutils.c` (`readLinearSystemFromFiles`) and `tests/runpetsctest.c` (`PetscTest/SystemModel.lean`); loading a file and the two comparisons (C104, C106) are parameters | specification of the residual and of the diagonal by entries; case analysis |
| C55 | composition | corollary of C17, C18, C25 |

Not expressible: speed-up, alignment, NUMA placement; cache behaviour; PETSc's own behaviour.

## 4. Findings

Places where the code does not do what a user would expect. Each named theorem is a kernel-checked witness in the model.

### Preconditioners
* `prefix_sum`: out-of-bounds when there are more threads than the chunks need, wrong result when the number of tree levels
  computed with the natural logarithm is too small (C10).
* Scalar scaled `init_sgs` uses a wrong index, reading out of bounds (C18, C24); scalar `init_zero` falls through into the next
  initialization (C24).
* Asynchronous sweeps are `nowait` loops in a loop over sweeps: a thread can be any number of sweeps ahead. C22, C27, C31 and C37 need rounds, in which every component is updated; how many sweeps a round
  takes depends on the lag (C68), and without a bound on it no number of sweeps is enough (`async_ilu_nowait_not_exact`, `async_ilu_exec_late`).
* `compute_ILU_positions_CSR_CSR` adds up the number of products in `int`: signed overflow for the dense matrix of order 1862 and larger
  (`ilu_positions_overflow`), although its entries can be indexed. C17 holds below that size.
* `convertToBSR` computes the number of scalars in `int`: overflow for the diagonal matrix of order 2^29 in blocks of order 4 (`coo_to_bsr_overflow`).
* ILU(0) of a symmetric positive definite matrix that is not dominant can be indefinite without any warning (`ilu_apply_indefinite`); with fewer asynchronous sweeps than rows SGS is not
  symmetric (`sgs_apply_async_unsymmetric`). Neither may be used with conjugate gradients then (C73).
* Jacobi and every threaded relaxation can diverge for a symmetric positive definite matrix, where the sequential ones converge (`spd_relax_diverges`) (C74).
* With the type `gs` the application callback relaxes from whatever PETSc left in the output vector: equal right-hand sides give different results (`petsc_apply_gs_depends_on_output`) (C75).
* For a matrix without the M-matrix sign pattern, convergence of a relaxation with one thread does not carry over to several threads (`threads_may_destroy_convergence`) (C76).
* `RichardsonSolver::solve` reports the norm of the residual of the iterate before the returned one when it stops because of `maxiter` (`richardson_stale_norm`), 0 if `maxiter` is not positive, and never sets `converged` (C78).
* `BiCGSTAB::solve` never sets `converged`, reports `maxiter + 1` iterations when it stops because of `maxiter`, and divides 0 by 0 for an exact initial vector (`bicgstab_exact_guess`), for an exact preconditioner (`bicgstab_exact_prec`) and, with a fixed linear preconditioner, in the n-th iteration at the latest, if the tolerance has not been reached before (`bicgstab_finite`) (C79).
* `GCR::solve` divides 0 by 0 for an exact initial vector (`gcr_exact_guess`) and accesses an element of an empty array with `nrestart = 0` (`gcr_no_restart_ub`) (C80).
* `readMatrixMarket` uses unassigned row and column numbers for a file with fewer entries than announced (`read_matrix_market_truncated_ub`), does not compare indices with the sizes (`read_matrix_market_row_range_unchecked`, `read_matrix_market_column_range_unchecked`) and reads a missing last value as zero (`read_matrix_market_missing_value`) (C81).
* Destroying the list of contexts before the solver leaks every preconditioner object and makes the destruction of the solver use deleted contexts (`list_destroyed_first_ub`); the contexts keep dangling pointers after the destruction of the solver (`solver_destroyed_dangling`), and a second destruction deletes the objects twice (`cleanup_twice_ub`) (C82).
* With `double` arithmetic and a strictly dominant matrix of two equations the relaxations can end in different results for different schedules, however many steps are made, and Jacobi can alternate for ever between two vectors (`rounded_limits_differ`) (C83).
* The ILU preconditioner on a reordered matrix applied before its first `compute` does not fail: it leaves the result vector as it was, permuted by the column ordering if there is one, and ignores the right-hand side (`reord_apply_before_compute`) (C84).
* Without assertions (release builds define `NDEBUG`) the Matrix Market reader accepts a file with one more row than announced and merges the last two rows, mixing their entries (`release_merges_rows`, `read_rows_accepted`); an empty row is undefined behaviour (`read_rows_rejected`); with two or more rows too many memory is overwritten in every build (C85).
* The solve program reads the right-hand side and the reference solution without comparing their lengths with the matrix: shorter files are read out of bounds (`solve_program_short_rhs_ub`, `solve_program_short_reference_ub`). It hands the factory settings whose member `compute_precinfo` was never set; the model lets it be any truth value, and no result depends on it. `cscbgs` exists on the command line, but is rejected for blocks (`solve_program_cscbgs_blocks`) (C90).
* The Poisson test problem evaluates its right-hand side and its exact solution at point `i` instead of `i+1` of the grid along every axis, so they do not belong to the rows of the matrix (`poisson_rhs_shifted`); its norm reads `coords[d][-1]` on the process that owns the first point, on every grid (`poisson_norm_ub`).
* The conversion program `util_petsc_io` appends `.pmat` to file names in arrays of 500 characters without checking: names of 495 or more characters overflow an array on the stack (`util_long_name_overflows`, `util_long_exact_name_overflows`); a longer name of the exact solution is cut off silently (`util_exact_name_cut_off`); when the second output file cannot be opened, the first has been emptied already (`util_rhs_not_writable`) (C89).
* All three never recognise convergence for a zero right-hand side, because the test divides by its norm.
* SGS forward sweeps contain an orphaned `omp for`: they are not parallel.
* ILU apply throws for `INIT_A_NONE`, SGS apply does not.
* `computeLevels` diverges or throws on nonsymmetric patterns, gives wrong levels on unsorted rows, and takes `front()` of an
  empty row (C33).
* The asynchronous triangular solves read and write one vector from several threads without atomics: a data race, undefined in C++
  (`async_lower_solve_races`). The theorems on asynchronous variants assume that the loads and stores behave as on common processors.
* The CSC block Gauss-Seidel update loop has a `nowait` race.
* Chaotic relaxation used as a preconditioner depends on the old contents of the output (C52).
* `NoPreconditioner::apply_relax` does nothing.
* Reordering: `setOrdering` accepts non-permutations (`set_ordering_no_check`); diagonal locations are stale after reordering
  (`reorder_scale_diagind_stale`); a zero scale factor divides by zero (`apply_scaling_zero_factor`); reordered
  ILU passes shifted constructor arguments, uses stale diagonals and the forward column permutation where the inverse is needed
  (`reord_ilu_apply_wrong`, `reord_ilu_stale_diag`) (C14-C16).
* `MC64::compute` with the documented job 1 takes the address of element 0 of an empty vector (`mc64_job1_undefined`), and its work array sizes can overflow
  `int` (`mc64_work_sizes_int`) (C69).
* Without scaling, the initial guess `init_original` does not divide the lower part by the diagonal: an asynchronous sweep can end with a zero pivot for the dominant matrix `[4 2; 2 4]`, whatever number of
  sweeps is made if they are not ordered (`async_ilu_original_unsafe`); from `init_sgs` no schedule comes near a zero pivot (C99).
* The constructor of `ReorderedAsyncILU0_SRPreconditioner` passes the two thread options one position too early: the application always uses threads, the factorization uses them if they were asked
  for in the application (`reordered_ilu_threads_wrong`, `reordered_ilu_threads_wrong_result`). The constructor of `MC64_AsyncILU0` (with `HAVE_MC64`) leaves out the matrix and cannot compile.

### Containers
* `apply` on a triangular view is undefined (`lower_view_apply_ub`); the upper view of an empty matrix reads out of bounds (C34).
* `isEqual` and `share_with_const` abort on empty arrays (`is_equal_empty_aborts`, `share_with_const_empty_aborts`).
* CSR `updateBlock` uses the wrong stride for rectangular blocks (`csr_update_block_rect_wrong`, `csr_update_block_rect_ub`).
* `maxnorm` of zero is the smallest positive number (`maxnorm_zero_wrong`).
* `BSRMatrix(n_brows, ...)` never sets the number of rows (`bsr_of_structure_wrong`); `BSRMatrix(RawBSRMatrix&)` has row
  pointers one short (`bsr_of_raw_last_pointer_aborts`); the CSR wrapping constructor reads `brptrs[nrows+1]`
  (`csr_of_arrays_ub`); the CSR raw constructor leaks (`csr_of_raw_leaks`) (C51).
* Copying a raw matrix whose entry count differs from its stored count and destroying the copy frees a wrong pointer
  (`copy_raw_destroy_ub`).
* `setStructure` leaves diagonal positions uninitialised for rows without diagonal (`set_structure_diag_uninitialised`).

### Coordinate matrices and files
* `convertToCSR` leaves diagonal positions uninitialised for rows without diagonal (`coo_to_csr_diag_uninitialised`).
* `convertToBSR`: block columns can be unsorted (`coo_to_bsr_unsorted`); they ascend when every block has an entry in its first scalar row (`coo_to_bsr_sorted`); with unsorted block columns the block ILU(0) preconditioner leaves out blocks below the diagonal without any error (`unsorted_blocks_ignored`); duplicates overwrite where CSR sums
  (`coo_duplicates_differ`); a leading empty block-row aborts (`coo_to_bsr_first_empty_aborts`).
* Matrix Market: a matrix with an empty row aborts; a file without entries is undefined; an unterminated trailing comment
  hangs; `complex` is misread; `pattern` and `skew-symmetric` are rejected while `patter` and `skewsymmetric` are accepted.

### Approximate inverses
* With assertions, `compute_SAI` aborts unless every local matrix is completely filled (`compute_sai_asserts_dense`,
  `compute_sai_asserts_abort_tridiagonal`): on a tridiagonal matrix it always aborts.
* The declared overload of `compute_SAI` is never defined; `LeftSAIPreconditioner` has empty bodies.

### Test programs
* The convergence tests of the asynchronous factorization divide by the initial errors: begun with the matrix they abort whatever the sweeps compute if the matrix agrees with its factors below the diagonal, or
  on and above it, for example if it is triangular (`async_tests_abort_without_error`, `async_tests_abort_on_triangular`).
* The sweeps of the fully asynchronous test have no barrier between them. There are executions with which it fails whatever the allowed number of sweeps (`fully_async_test_may_fail`).
* The convergence test of the asynchronous triangular solves asserts that the two runs after the first small error have small errors, but the runs are independent executions. It fails for the exact factors of a
  2 by 2 matrix if the run with one sweep happens to go row by row and the run with two sweeps reads old values (`triangular_test_may_fail`).
* Read, not proved (the models stop at a division by zero): if the last pivot is zero, the solutions of the upper system are infinite, their differences are NaN, and a maximum taken with `>` skips them; so that test
  reports error zero and passes. For block size 4 the upper solve multiplies with the diagonal blocks as if they were inverted, but `getExactILU` leaves them as they are; both sides of the comparison do so.
* `createTrivialColReordering` of `tests/testreorderedsolve.cpp` reads and writes elements 1 and 3 of an array with one element per row: undefined for fewer than four rows
  (`trivial_reordering`, `reord_program_exact`). With exact preconditioners and `bcgs` the program divides by zero (`reord_program_bcgs_exact`). Both objects of the program use threads in their
  application although `false, false` was meant to switch them off: the two arguments are those before the last (`newReordered_conf`).
* The comparison with PETSc announces `issame` when no test type is given, then throws because the type is not given (`comparison_needs_type`);
  `-num_runs 0` divides by zero and converts the result to an integer (`comparison_without_runs`); the mean number of iterations is
  rounded towards zero before it is compared (`comparison_rounds_mean`) (C104).
* The thread-scaling test never sets the number of threads: the requested numbers are only printed, and apart from them all lines of the report after the first agree, for every solver
  whose times depend on the threads in use (`perf_threads_ignored`, `perf_program_same_lines`). After a failed repetition the average number of iterations is too large
  (`perf_line_failed`, `perf_average_above_maximum`); if the first one fails, infinity or NaN is converted to an integer (`perf_first_fails`) (C105).
* The tables of iterations against sweeps do not show that runs reached the largest number of iterations (`sweep_setting_limit`), and mark other failures with a number that depends on
  the run that failed (`sweep_setting_failed`); without runs there is a division by zero (`sweep_setting_without_runs`) (C106).
* `file_input_throw` takes the status at the end of the file for success: a control file of the Poisson problem that ends too early is accepted and leaves numbers of points and corners
  uninitialised (`control_file_truncated`); headings of 50 characters overflow a buffer (`control_file_long_heading`); `fopen` is not checked (`control_file_missing`) (C107).
* `generateDiscreteProblem` compares the number of arguments with constants that are right only if the kind of problem is the first argument; its only caller passes it as the second, so that missing
  file names become null pointers (`problem_choice_second`); without the kind, `strcmp` gets a null pointer (`problem_choice_missing`) (C108).
* The program for the convergence tests overwrites the error code of the test with that of the clean-up (`conv_driver_ignores_code`) and refuses the type of test that its own message names
  (`conv_driver_help_refused`) (C109).
* The comparison program ends with the exit status of a success if file names are missing (`petsc_test_missing_files`, C110).

### Factory and PETSc
* The scalar asynchronous factorization with level-scheduled application receives a thread flag as its diagnostics
  flag (`create_scalar_level_ilu_precinfo_wrong`).
* `seqilu0` with sweeps -1 performs zero sweeps (`petsc_seqilu0_sweeps_wrong`); sweeps (-1,-1) turn every Gauss-Seidel type into a
  sequential ILU (`petsc_both_sequential_becomes_ilu`).
* `setup_blasted_stack_ext` ignores its factory (`setup_ext_ignores_factory`), its wrapper replaces it
  (`setup_ext_wrapper_replaces_factory`), and one factory per additional solver leaks (`stack_life_cycle_leaks`).
* Whether the relaxation callback is registered is decided by an uninitialised field (`setup_relaxation_from_garbage`).
* If the field holds the requested type, the callback is also registered for `seqilu0`, `sfilu0`, `sapilu0` and `async_level_ilu0`, and every call of it throws into PETSc
  (`petsc_richardson_ilu_throws`). For the identity preconditioner it changes nothing and reports success (`petsc_richardson_noprec`).
* After a failed creation the next compute call dereferences null (`compute_after_failed_setup_ub`).
* `readMatFromCOOFile` overwrites the error code of every row but the last (`read_mat_error_lost`); `readMatFromCOOFile_viaSR` takes the
  number of rows for the number of columns (`read_mat_via_sr_not_square`).
* `parseOptionalPetscCmd_intArray` throws for an option that was not given (`parse_optional_int_array_throws`);
  `parsePetscCmd_string` cuts a value of exactly the stated length (`parse_string_cut`) and leaks its buffer when it throws
  (`parse_string_leaks`); arrays with room for no element are undefined (`parse_int_array_no_room`).
* `blasted_petsc_ext.hpp` declares a function that is never defined.
