{"id": "C01", "title": "CSR matrix-vector product is the mathematical product", "statement": "For a well-formed CSR matrix, CSRMatrixView::apply(x,y) (and BSRMatrix<.,.,1>::apply) leaves in y exactly A*x, where A(i,j) is the sum of the stored values of row i whose column index is j; no array is accessed out of bounds; the result is the same for every order in which the row-parallel loop executes its rows.", "quantifier": "every well-formed CSR storage (any size, any pattern, unsorted or repeated columns allowed), every x, every initial y, every execution order of the parallel loop", "why_tests_cant": "A test fixes one matrix and one thread schedule; the claim ranges over all patterns, sizes, values and schedules.", "anchors": ["src/blas/matvecs.cpp: BLAS_CSR::matrix_apply", "src/blockmatrices.ipp: CSRMatrixView::apply, BSRMatrix<scalar,index,1>::apply"]}
{"id": "C02", "title": "BSR matrix-vector product is the mathematical product in both block layouts", "statement": "For a well-formed BSR matrix with block size bs, apply(x,y) leaves in y exactly A*x where entry (i*bs+a, j*bs+b) of A is read from the flat value array at block offset k*bs*bs plus a*bs+b (RowMajor) or b*bs+a (ColMajor); memory safe; schedule independent.", "quantifier": "every block size, both storage layouts, every well-formed BSR storage, every x and y, every execution order", "why_tests_cant": "Block size, layout, pattern and schedule are unbounded parameters.", "anchors": ["src/blas/matvecs.cpp: BLAS_BSR::matrix_apply", "src/blockmatrices.ipp: BSRMatrixView::apply, BSRMatrix::apply"]}
{"id": "C03", "title": "gemv3 computes a*A*x+b*y even when the output aliases y", "statement": "gemv3(a,x,b,y,z) leaves z = a*A*x + b*y for CSR and BSR, also when z and y are the same array, for every execution order of the row loop.", "quantifier": "every well-formed matrix, scalars a and b, vectors x, y, both the aliased and non-aliased call, every schedule", "why_tests_cant": "Aliasing combined with arbitrary schedules and sizes is not enumerable.", "anchors": ["src/blas/matvecs.cpp: BLAS_CSR::gemv3, BLAS_BSR::gemv3", "src/blockmatrices.ipp: gemv3"]}
{"id": "C04", "title": "Column-oriented product does not depend on the order of atomic additions", "statement": "The sparse-column product bcsc_gemv3 gives z = a*A*x + b*y for every interleaving of its atomic additions, and the same result as the row-oriented gemv3 on the matrix it was converted from.", "quantifier": "every well-formed matrix, every interleaving of the per-entry atomic updates of all threads", "why_tests_cant": "The number of interleavings is factorial in the number of non-zeros.", "anchors": ["src/blas/matvecs.cpp: bcsc_gemv3", "src/scmatrix.cpp: convert_BSR_to_BSC"]}
{"id": "C05", "title": "Row-to-column conversion preserves the matrix", "statement": "convert_BSR_to_BSC returns sparse-column storage that denotes the same matrix (same multiset of (row, column, block) triples), with row indices inside each column non-decreasing, column pointers consistent, and for each column the diagonal locator pointing at the diagonal entry if there is one and -1 otherwise.", "quantifier": "every well-formed sparse-row matrix of any size, block size and pattern", "why_tests_cant": "Quantifies over all sparsity patterns.", "anchors": ["src/scmatrix.cpp: convert_BSR_to_BSC"]}
{"id": "C06", "title": "One-based conversion shifts exactly the index arrays", "statement": "convert_BSR_to_BSC_1based returns the zero-based conversion with 1 added to every column pointer, row index and diagonal locator, and values unchanged; a column without a diagonal gets locator 0.", "quantifier": "every well-formed sparse-row matrix", "why_tests_cant": "Quantifies over all sparsity patterns.", "anchors": ["src/scmatrix.cpp: convert_BSR_to_BSC_1based"]}
{"id": "C07", "title": "Column adjacency lists are exactly the transpose pattern", "statement": "ColumnAdjacency lists, for each column, exactly the rows having a stored entry in that column, in increasing row order, each with the location of that entry in the original matrix; constructing it for a well-formed matrix never throws.", "quantifier": "every well-formed sparse-row matrix", "why_tests_cant": "Quantifies over all sparsity patterns.", "anchors": ["src/adjacency.cpp: ColumnAdjacency::compute", "src/adjacency.hpp"]}
{"id": "C08", "title": "In-row sorting sorts columns and keeps blocks attached to their columns", "statement": "sortBlockInnerDimension leaves the column indices of the row in non-decreasing order and the sequence of (column, block) pairs is a permutation of the original one.", "quantifier": "every row length, every column sequence including repeats, every block contents", "why_tests_cant": "All permutations of all lengths.", "anchors": ["src/helper_algorithms.cpp: sortBlockInnerDimension"]}
{"id": "C09", "title": "Inclusive scan is the running sum", "statement": "inclusive_scan replaces entry i by the sum of entries 0..i, in place and in the out-of-place version, for every length.", "quantifier": "every vector of every length", "why_tests_cant": "Unbounded length.", "anchors": ["src/helper_algorithms.cpp: inclusive_scan"]}
{"id": "C10", "title": "Parallel prefix sum gives the exclusive prefix sums", "statement": "prefix_sum(counts, n) replaces counts[i] by the sum of the first i entries for every i<n, without accessing memory outside the array, for every number of threads and every schedule between barriers.", "quantifier": "every array, every length, every thread count, every schedule between barriers", "why_tests_cant": "Correctness depends on the thread count and length jointly; tests use one machine's thread count.", "anchors": ["src/utils/prefix_sum.cpp: prefix_sum"]}
{"id": "C11", "title": "Setting an ordering stores mutually inverse permutations", "statement": "After setOrdering with a permutation, the stored inverse permutation is its two-sided inverse, for rows and columns, and the object copies the data so that later changes of the caller's arrays do not matter; a non-permutation is not detected.", "quantifier": "every permutation of every size", "why_tests_cant": "All permutations.", "anchors": ["src/reorderingscaling.cpp: invertPermutationVector, Reordering::setOrdering"]}
{"id": "C12", "title": "Forward matrix reordering yields A(rp(i),cp(j)) and inverse undoes it", "statement": "applyOrdering(matrix, FORWARD) turns A into the matrix with entry (i,j) equal to A(rp(i),cp(j)) with sorted columns in each row; applyOrdering(INVERSE) after FORWARD restores the denoted matrix, and restores the storage exactly when rows were sorted without repeats.", "quantifier": "every well-formed matrix, every row and column permutation (also absent ones)", "why_tests_cant": "All matrices and permutations.", "anchors": ["src/reorderingscaling.cpp: Reordering::applyOrdering (matrix)"]}
{"id": "C13", "title": "Vector reordering is consistent with matrix reordering", "statement": "applyOrdering(vector, FORWARD, ROW/COLUMN) gives v(p(i)), INVERSE undoes it in either order, and reordering b by rows and x by columns turns A x = b into A' x' = b' for the reordered matrix A'.", "quantifier": "every matrix, permutations and vectors", "why_tests_cant": "All matrices, permutations, vectors.", "anchors": ["src/reorderingscaling.cpp: Reordering::applyOrdering (vector)"]}
{"id": "C14", "title": "Scaling multiplies by the row and column factors and is undone by the inverse mode", "statement": "applyScaling(matrix, FORWARD) turns A into R A C for the stored row and column factors and INVERSE restores A when no factor is zero; vectors likewise.", "quantifier": "every matrix, every non-zero scaling vectors", "why_tests_cant": "All matrices and scaling factors.", "anchors": ["src/reorderingscaling.cpp: ReorderingScaling::applyScaling"]}
{"id": "C15", "title": "reorderScale keeps the matrix usable: forward then inverse is the identity and diagonal locations stay correct", "statement": "BSRMatrix::reorderScale(FORWARD) followed by INVERSE restores the matrix, and after FORWARD the matrix object's diagonal locations still point at the diagonal entries of the reordered matrix.", "quantifier": "every matrix, permutation and scaling", "why_tests_cant": "All matrices and permutations.", "anchors": ["src/blockmatrices.ipp: BSRMatrix::reorderScale", "src/reorderingscaling.cpp"]}
{"id": "C16", "title": "The reordered ILU(0) preconditioner solves in the caller's ordering", "statement": "apply of the reordered ILU(0) preconditioner returns z such that, with L U the factors of the reordered matrix, the column-reordered z solves L U z' = row-reordered r; in particular when L U equals the reordered matrix, apply(A x) = x.", "quantifier": "every matrix and every row/column permutation, not only involutions", "why_tests_cant": "The test suite only uses one transposition, which hides direction errors.", "anchors": ["src/solverops_ilu0.cpp: ReorderedAsyncILU0_SRPreconditioner"]}
{"id": "C17", "title": "ILU(0) position lists are exactly the needed products", "statement": "compute_ILU_positions_CSR_CSR returns, for each stored entry (i,j), exactly the pairs of locations of stored entries (i,k),(k,j) with k<min(i,j), each once and in increasing k; no out-of-bounds access.", "quantifier": "every well-formed matrix with sorted rows and a stored diagonal", "why_tests_cant": "All sparsity patterns.", "anchors": ["src/ilu_pattern.cpp: compute_ILU_positions_CSR_CSR", "src/helper_algorithms.hpp: inner_search"]}
{"id": "C18", "title": "Sequential scalar ILU(0) factorization reproduces the (scaled) matrix on its pattern", "statement": "After a sequential compute of the scalar ILU(0) preconditioner with at least one build sweep, from any initial guess, if no computed pivot is zero, (L U)(i,j) equals the symmetrically scaled matrix entry at every stored position.", "quantifier": "every matrix with sorted rows and stored diagonal, every initial content of the factor storage, every sweep count >= 1", "why_tests_cant": "All matrices and all initial contents.", "anchors": ["src/async_ilu_factor.cpp: scalar_ilu0_factorize, executeILU0Factorization", "src/kernels/kernels_ilu0_factorize.hpp: async_ilu0_factorize_kernel"]}
{"id": "C19", "title": "Sequential block ILU(0) factorization reproduces the matrix on its block pattern", "statement": "After a sequential compute of the block ILU(0) preconditioner with at least one sweep, if every pivot block is invertible, the block product L U equals the (scaled) matrix at every stored block position, and the stored diagonal blocks are the inverses of the diagonal blocks of U.", "quantifier": "every block matrix with sorted rows and stored diagonal blocks, over any (non-commutative) block ring", "why_tests_cant": "All matrices, block sizes and initial contents.", "anchors": ["src/async_blockilu_factor.cpp: block_ilu0_factorize", "src/kernels/kernels_ilu0_factorize.hpp: async_block_ilu0_factorize"]}
{"id": "C20", "title": "Recomputing a sequential ILU(0) depends only on the current matrix values", "statement": "For sequential factorization with at least one sweep, the factors after compute() depend only on the current matrix values and pattern, not on the initialization option, the sweep count, previous factor contents or any earlier compute().", "quantifier": "every history of value changes and compute calls", "why_tests_cant": "Histories are unbounded.", "anchors": ["src/solverops_ilu0.cpp: compute", "src/async_ilu_factor.cpp", "src/async_blockilu_factor.cpp"]}
{"id": "C21", "title": "Exact ILU(0) factors are a fixed point of every asynchronous execution", "statement": "Starting from factors with L U = A on the pattern (with non-zero pivots), any number of asynchronous sweeps under any schedule and any read staleness leaves the factors unchanged; conversely, factors unchanged by one sweep satisfy L U = A on the pattern.", "quantifier": "every matrix, every asynchronous execution (any order, any stale reads)", "why_tests_cant": "Schedules and stale-read choices are unbounded.", "anchors": ["src/async_ilu_factor.cpp", "src/async_blockilu_factor.cpp", "src/kernels/kernels_ilu0_factorize.hpp"]}
{"id": "C22", "title": "Enough asynchronous sweeps give the exact ILU(0)", "statement": "If sweeps complete one after another and every sweep updates every stored entry at least once, reading for each dependency any value present since the sweep began, then after 2n-1 sweeps the factors equal the sequential ones, whatever the initial guess and schedule.", "quantifier": "every matrix, schedule and initial guess", "why_tests_cant": "Schedules are unbounded.", "anchors": ["src/async_ilu_factor.cpp: executeILU0Factorization", "src/async_blockilu_factor.cpp"]}
{"id": "C23", "title": "The reported ILU remainder is zero exactly for exact factors", "statement": "The remainder norm reported in the preconditioner information equals the sum over stored positions of |A - L U|, hence is zero exactly when L U equals the (scaled) matrix on the pattern; this holds for every order of the parallel reduction.", "quantifier": "every matrix and factor contents, every reduction order", "why_tests_cant": "All matrices and schedules.", "anchors": ["src/async_ilu_factor.cpp: scalar_ilu0_nonlinear_res", "src/async_blockilu_factor.cpp: block_ilu0_nonlinear_res"]}
{"id": "C24", "title": "The SGS initialization of ILU factors is the SGS splitting", "statement": "With init_sgs and zero build sweeps the factors satisfy L U = (D+Lo) D^-1 (D+Up) of the (scaled) matrix; init_zero starts from zero factors; init_original starts from the (scaled) matrix.", "quantifier": "every matrix with non-zero diagonal, with and without scaling, scalar and block", "why_tests_cant": "All matrices.", "anchors": ["src/async_ilu_factor.cpp: fact_init_sgs, fact_init_original, scalar_ilu0_factorize", "src/async_blockilu_factor.cpp"]}
{"id": "C25", "title": "Sequential scalar ILU apply solves the factored system", "statement": "apply(r,z) of the scalar ILU preconditioner in sequential mode with at least one apply sweep returns z with L U (S^-1 z) = S r (S the scaling), for init_zero and init_jacobi, whatever the old contents of z and the work vector.", "quantifier": "every matrix, factors with non-zero pivots, r, old contents, sweep count >= 1", "why_tests_cant": "All matrices, vectors and prior contents.", "anchors": ["src/solverops_ilu0.cpp: scalar_ilu0_apply", "src/kernels/kernels_ilu_apply.hpp"]}
{"id": "C26", "title": "Sequential block ILU apply solves the factored system", "statement": "As C25 for the block preconditioner, whose diagonal blocks are stored inverted.", "quantifier": "every block matrix with invertible pivot blocks, r and prior contents", "why_tests_cant": "All block matrices.", "anchors": ["src/solverops_ilu0.cpp: block_ilu0_apply", "src/kernels/kernels_ilu_apply.hpp"]}
{"id": "C27", "title": "Asynchronous ILU apply: exact after n sweeps and never wrong at the fixed point", "statement": "For any schedule and any reads of values present since the sweep began, n lower sweeps followed by n upper sweeps return exactly the sequential result; starting from it, no asynchronous execution changes it.", "quantifier": "every matrix, schedule, staleness, initialization", "why_tests_cant": "Schedules are unbounded.", "anchors": ["src/solverops_ilu0.cpp: scalar_ilu0_apply, block_ilu0_apply"]}
{"id": "C28", "title": "Level-scheduled ILU apply equals the sequential solve for every thread schedule", "statement": "apply of the level-scheduled ILU preconditioner returns the exact solution of the factored system for every order of rows within each level.", "quantifier": "every matrix with structurally symmetric sorted pattern, every schedule within levels", "why_tests_cant": "All patterns and schedules.", "anchors": ["src/solverops_levels_ilu0.cpp: apply", "src/levelschedule.cpp: computeLevels"]}
{"id": "C29", "title": "Sequential SGS apply solves (D+L)D^-1(D+U)z=r", "statement": "apply(r,z) of the SGS preconditioner in sequential execution with at least one sweep returns z with (D+L)D^-1(D+U)z = r for init_zero and init_jacobi, scalar and block.", "quantifier": "every matrix with invertible diagonal (blocks), r and prior contents", "why_tests_cant": "All matrices and vectors.", "anchors": ["src/solverops_sgs.cpp: AsyncSGS_SRPreconditioner::apply, AsyncBlockSGS_SRPreconditioner::apply", "src/kernels/kernels_sgs.hpp"]}
{"id": "C30", "title": "Level-scheduled SGS apply solves the same system for every thread schedule", "statement": "apply of Level_SGS / Level_BSGS returns the z of C29 for every order of rows within each level.", "quantifier": "every matrix with structurally symmetric sorted pattern, every schedule within levels", "why_tests_cant": "All patterns and schedules.", "anchors": ["src/solverops_levels_sgs.cpp", "src/levelschedule.cpp"]}
{"id": "C31", "title": "Asynchronous SGS apply is exact after n sweeps under every schedule", "statement": "With n = number of (block-)rows sweeps, each completing before the next, the asynchronous SGS apply returns the z of C29 for every schedule and staleness within a sweep.", "quantifier": "every matrix, schedule, initial content", "why_tests_cant": "Schedules are unbounded.", "anchors": ["src/solverops_sgs.cpp", "src/kernels/kernels_sgs.hpp"]}
{"id": "C32", "title": "Column-oriented backward Gauss-Seidel solves (D+U)z=r", "statement": "apply of the CSC backward Gauss-Seidel preconditioner, executed by one thread with one sweep, returns z with (D+U) z = r, and agrees with the row-oriented backward substitution.", "quantifier": "every matrix with non-zero diagonal, every r", "why_tests_cant": "All matrices and vectors.", "anchors": ["src/solverops_sgs.cpp: CSC_BGS_Preconditioner"]}
{"id": "C33", "title": "Level computation terminates with a valid level schedule", "statement": "computeLevels returns level boundaries that start at 0, strictly increase and end at the number of rows, such that no row depends on an earlier row of the same level; it terminates for every matrix with sorted, structurally symmetric pattern and stored diagonal.", "quantifier": "every such matrix; for other patterns the loop may not terminate or may throw, which is proved as well", "why_tests_cant": "Termination and independence are universal claims.", "anchors": ["src/levelschedule.cpp: computeLevels"]}
{"id": "C34", "title": "Triangular views denote exactly the triangular parts", "statement": "getLowerTriangularView / getUpperTriangularView denote exactly the lower / upper triangular part including the diagonal, with correct non-zero counts, sharing values with the original; lower + upper - diagonal = A.", "quantifier": "every well-formed matrix with at least one row, sorted rows and stored diagonal", "why_tests_cant": "All sparsity patterns.", "anchors": ["src/rawsrmatrixutils.cpp: getLowerTriangularView, getUpperTriangularView"]}
{"id": "C35", "title": "Jacobi apply and relaxation compute what they claim and obey the stopping rules", "statement": "apply multiplies by the inverse diagonal (blocks); apply_relax performs x <- D^-1(b-(A-D)x) simultaneously for all rows, at most maxits times, stopping early exactly when tolerance checking is on and the stated absolute, relative or divergence criterion is met.", "quantifier": "every matrix, b, initial x, tolerances, iteration limits, schedules", "why_tests_cant": "All inputs and iteration histories.", "anchors": ["src/solverops_jacobi.cpp: apply, apply_relax"]}
{"id": "C36", "title": "Solutions are fixed points of every relaxation, and conversely", "statement": "If A x = b, then Jacobi, chaotic, SGS relaxation started at x leave it unchanged for any number of iterations and any asynchronous execution; if one complete sweep leaves x unchanged then A x = b.", "quantifier": "every matrix with invertible diagonal (blocks), b, schedules and staleness", "why_tests_cant": "All matrices and schedules.", "anchors": ["src/relaxation_chaotic.cpp", "src/solverops_jacobi.cpp", "src/solverops_sgs.cpp: apply_relax", "src/kernels/kernels_relaxation.hpp"]}
{"id": "C37", "title": "Chaotic relaxation converges for strictly diagonally dominant matrices under every schedule", "statement": "For a strictly row diagonally dominant matrix, under arbitrary staleness the maximum error never exceeds the initial maximum error, and each completed sweep multiplies the maximum error by at most the dominance ratio rho<1, whatever the schedule.", "quantifier": "every strictly diagonally dominant matrix, b, initial guess, schedule and staleness", "why_tests_cant": "Schedules are unbounded.", "anchors": ["src/relaxation_chaotic.cpp", "src/kernels/kernels_relaxation.hpp", "src/solverops_sgs.cpp: apply_relax"]}
{"id": "C38", "title": "COO to CSR conversion preserves the matrix", "statement": "getSRMatrixFromCOO with block size 1 returns CSR storage denoting the COO matrix, with correct row pointers, correct diagonal locations in all rows that have a diagonal entry, and sorted rows if the entries are ordered as after reading a file.", "quantifier": "every COO matrix with valid row pointers", "why_tests_cant": "All entry lists.", "anchors": ["src/coomatrix.cpp: convertToCSR, getSRMatrixFromCOO, readMatrixMarket"]}
{"id": "C39", "title": "COO to BSR conversion preserves the matrix in both layouts", "statement": "getSRMatrixFromCOO with block size bs>1 returns BSR storage denoting the COO matrix (zero-filled inside blocks), for row-major and column-major blocks; diagonal locator is -1 only for block-rows without a diagonal block.", "quantifier": "every square COO matrix whose dimension is a multiple of bs", "why_tests_cant": "All entry lists and block sizes.", "anchors": ["src/coomatrix.cpp: convertToBSR"]}
{"id": "C40", "title": "Reading entries yields row-sorted, column-sorted entries with correct row pointers", "statement": "After readMatrixMarket the stored entries are the file's entries with 1 subtracted from both indices, sorted by row then column, and the row pointers delimit the rows.", "quantifier": "every coordinate file in any entry order", "why_tests_cant": "All files.", "anchors": ["src/coomatrix.cpp: readMatrixMarket"]}
{"id": "C41", "title": "MatrixMarket header parsing accepts exactly the standard headers", "statement": "getMMDescription accepts each header allowed by the MatrixMarket standard and classifies it correctly, and rejects any other.", "quantifier": "every header line", "why_tests_cant": "All strings.", "anchors": ["src/coomatrix.cpp: getMMDescription"]}
{"id": "C42", "title": "ArrayView memory ownership: no double free, no leak, no freeing of borrowed memory", "statement": "For every sequence of ArrayView constructions, moves, resizes, wraps, take-controls and destructions in which ownership is only given for blocks not owned elsewhere, every block is freed at most once, every block owned at the end of all views' life has been freed, and borrowed memory is never freed.", "quantifier": "every operation sequence", "why_tests_cant": "Histories are unbounded.", "anchors": ["include/arrayview.hpp"]}
{"id": "C43", "title": "SAI and ISAI patterns gather exactly the needed submatrix", "statement": "left_SAI_pattern / left_incomplete_SAI_pattern list, for each row i, exactly the stored entries of A in the rows of row i's pattern (restricted to that pattern's columns for ISAI) with correct local row numbers, so that an exact local solve gives (M A)(i,j) = I(i,j) on the pattern (ISAI).", "quantifier": "every well-formed matrix with sorted rows and stored diagonal", "why_tests_cant": "All sparsity patterns.", "anchors": ["src/sai.cpp: left_SAI_pattern, left_incomplete_SAI_pattern, compute_SAI, gather_lhs_matrix"]}
{"id": "C44", "title": "Solver selection: strings, block sizes and modes map to exactly the documented solvers or an exception", "statement": "solverTypeFromString maps exactly the documented names, injectively, and throws otherwise; create_preconditioner succeeds exactly for the supported combinations of type, block size and layout and otherwise throws; sequential/threaded modes are those of the type's name.", "quantifier": "every string, type, block size, layout and relax flag", "why_tests_cant": "Infinite domain of strings and integers.", "anchors": ["src/solverfactory.cpp"]}
{"id": "C45", "title": "PETSc options: sweeps are set consistently and sequential types really run", "statement": "For every combination of options, the sweep counts passed to the solver are the requested ones; a sequential factorization or application performs at least one sweep.", "quantifier": "every option combination", "why_tests_cant": "Unbounded integers and option presence combinations.", "anchors": ["src/blasted_petsc.cpp: setSweeps_checkSeq, setupDataFromOptions, createNewPreconditioner"]}
{"id": "C46", "title": "Matrix assembly: submitted and updated blocks appear exactly in place", "statement": "submitBlock overwrites exactly the addressed block, updateBlock adds to exactly the addressed block, updateDiagBlock adds to the diagonal block; concurrent atomic updates give the sum in any order; for the CSR class rectangular blocks are interpreted with the same layout by submitBlock and updateBlock.", "quantifier": "every pattern containing the addressed entries, every block, every interleaving of concurrent updates", "why_tests_cant": "All patterns and interleavings.", "anchors": ["src/blockmatrices.ipp: submitBlock, updateBlock, updateDiagBlock, setAllZero, setDiagZero, scaleAll"]}
{"id": "C47", "title": "Matrix comparison flags are accurate", "statement": "isEqual returns all-true exactly when the two matrices have equal sizes, structure and values within tolerance; each false flag is truthful.", "quantifier": "every pair of matrices with at least one stored block and every tolerance (empty matrices abort in a build with assertions)", "why_tests_cant": "All pairs of matrices.", "anchors": ["src/blockmatrices.ipp: areEqual, isEqual"]}
{"id": "C48", "title": "Reported diagonal dominance bounds are correct", "statement": "The reported minimum diagonal dominance of each factor is the minimum over rows of 1 - sum|off-diagonal|/|diagonal|, is at most 1, and is positive exactly when the factor is strictly row diagonally dominant.", "quantifier": "every matrix with at least one row and non-zero diagonal, every division of the rows among threads", "why_tests_cant": "All matrices.", "anchors": ["src/matrix_properties.cpp: diagonal_dominance"]}
{"id": "C49", "title": "Diagonal queries of CSR matrices are exact", "statement": "zeroDiagonalRow, getNumZeroDiagonals, getDiagonalProduct, getDiagonalAbsSum and the absolute minimum and maximum report what their names say for the diagonal of the matrix.", "quantifier": "every CSR matrix with stored diagonal", "why_tests_cant": "All matrices.", "anchors": ["src/blockmatrices.ipp: zeroDiagonalRow, getNumZeroDiagonals, getDiagonalProduct, getDiagonalAbsSum, getAbsMinDiagonalEntry, getAbsMaxDiagonalEntry"]}
{"id": "C50", "title": "Deep copies are equal and independent", "statement": "copyRawBSRMatrix and the BSRMatrix copy constructors produce a matrix with equal arrays whose later modification does not affect the original and vice versa.", "quantifier": "every full matrix and every later write", "why_tests_cant": "All matrices and histories of writes.", "anchors": ["src/rawsrmatrixutils.cpp: copyRawBSRMatrix", "src/blockmatrices.ipp: copy constructors"]}
{"id": "C51", "title": "Every documented way of constructing a matrix yields the described matrix", "statement": "Constructing an owning matrix from a structure, from raw arrays or by taking over raw storage yields a matrix object with that number of rows, that structure and correct array lengths, so that every later access is in bounds.", "quantifier": "every structure, for block and scalar classes", "why_tests_cant": "All structures.", "anchors": ["src/blockmatrices.ipp: BSRMatrix constructors, setStructure"]}
{"id": "C52", "title": "Preconditioner application is a fixed linear operator in sequential mode", "statement": "In sequential mode every provided preconditioner's apply is linear in the input and independent of the previous contents of the output, as Krylov solvers require.", "quantifier": "every matrix, pair of vectors, scalars, prior contents", "why_tests_cant": "All inputs.", "anchors": ["src/solverops_base.cpp", "src/solverops_jacobi.cpp", "src/solverops_sgs.cpp", "src/solverops_ilu0.cpp"]}
{"id": "C53", "title": "PETSc stack setup registers each local shell preconditioner exactly once with the chosen factory", "statement": "Setting up a PETSc solver tree creates exactly one data entry for each local shell preconditioner reachable through the supported wrapper types, all using the factory chosen by the caller, and cleanup releases everything allocated.", "quantifier": "every solver tree", "why_tests_cant": "Trees are unbounded.", "anchors": ["src/blasted_petsc.cpp: setup_blasted_stack_ext, setup_localpreconditioner_blasted, newBlastedDataList, destroyBlastedDataList"]}
{"id": "C54", "title": "Maximum norm", "statement": "maxnorm returns the largest absolute value of the entries for every reduction order.", "quantifier": "every vector and reduction order", "why_tests_cant": "All vectors.", "anchors": ["src/blas/blas1.cpp: maxnorm"]}
{"id": "C55", "title": "End to end: for matrices whose elimination creates no fill, sequential ILU(0) apply inverts the matrix", "statement": "If the pattern is closed under elimination (for instance tridiagonal or arrow patterns), then reading, converting, factorizing and applying gives apply(A x) = x for every x when no pivot is zero.", "quantifier": "every such matrix and x", "why_tests_cant": "All matrices.", "anchors": ["src/ilu_pattern.cpp", "src/async_ilu_factor.cpp", "src/solverops_ilu0.cpp"]}
{"id": "C56", "title": "From a file to a matrix", "statement": "constructBSRMatrixFromMatrixMarketFile returns a matrix whose entry (i,j) is what the file lists for row i+1 and column j+1 and zero elsewhere, for block size 1 and larger ones; readDenseMatrixMarket returns the numbers of the file in their order.", "quantifier": "every coordinate file of a square matrix with an entry in each row (and every array file), every layout of comments and white space", "why_tests_cant": "All files.", "anchors": ["src/coomatrix.cpp: constructBSRMatrixFromMatrixMarketFile, readDenseMatrixMarket"]}
{"id": "C57", "title": "Repeated setup through PETSc reuses one preconditioner object and records one diagnostic item per setup", "statement": "After the first successful setup call for a preconditioner, any further calls for it or for others return normally and work with the same object and settings; if diagnostics were requested, the list holds one item per call.", "quantifier": "every solver tree, every sequence of setup calls for any of its preconditioners, every options database at every call", "why_tests_cant": "Histories of calls are unbounded and interleave different preconditioners.", "anchors": ["src/blasted_petsc.cpp: compute_preconditioner_blasted, createNewPreconditioner, updatePreconditioner"]}
{"id": "C58", "title": "Diagnostic information is computed exactly when requested", "statement": "An incomplete factorization created through the factory computes the diagnostic information if and only if the settings ask for it.", "quantifier": "every settings object", "why_tests_cant": "All combinations of type, block size, layout and flags; a wrong flag changes only cost and optional output.", "anchors": ["src/solverfactory.cpp", "src/solverops_levels_ilu0.cpp: Async_Level_ILU0::Async_Level_ILU0"]}
{"id": "C59", "title": "Reading an option gives exactly the value on the command line or an exception", "statement": "For integers, booleans, strings, reals and integer lists: a value that was given and is well-formed is returned unchanged; a required option that was not given raises InputNotGivenError naming it; an optional one gives the caller's default; an ill-formed value, and every non-zero error code of PETSc, raises an exception.", "quantifier": "every options database, option name, requested length and error code", "why_tests_cant": "All databases, names and lengths, including values of exactly the stated length.", "anchors": ["src/utils/cmdoptions.cpp: parsePetscCmd_int, parsePetscCmd_bool, parsePetscCmd_string, parsePetscCmd_intArray, parseOptionalPetscCmd_real, parseOptionalPetscCmd_intArray, parsePetscCmd_isDefined, parsePetscErrorCode", "include/utils/cmdoptions.hpp: petsc_throw, file_input_throw"]}
{"id": "C60", "title": "PETSc matrices and vectors read from Matrix Market files have the contents of the file", "statement": "Both matrix readers return a PETSc matrix with the dimensions and elements that the file gives, whichever block size is set in the options, and agree with each other; the vector reader returns the numbers of the file in their order, padded with zeros to the size of the matrix it is given.", "quantifier": "every coordinate or array file, every block size dividing the dimensions, with and without PETSc's index checks", "why_tests_cant": "All files, sizes and block sizes.", "anchors": ["src/utils/blasted_petsc_io.cpp: readMatFromCOOFile, readMatFromCOOFile_viaSR, readVecFromFile"]}
{"id": "C61", "title": "The synchronous parallel loops have no data race and are deterministic", "statement": "In the matrix-vector products, the Jacobi application and the level-scheduled triangular solves, no interleaving of the individual memory accesses of the iterations reaches a data race, an out-of-bounds access or a deadlock, and all interleavings end with the same result, the one of the sequential loop. The asynchronous triangular solve does reach a data race whenever a row depends on another.", "quantifier": "every matrix, vector, block size, layout, level schedule and every interleaving of single loads and stores", "why_tests_cant": "The number of interleavings is astronomical, and a race need not show on the machine that runs the tests.", "anchors": ["src/blas/matvecs.cpp", "src/solverops_jacobi.cpp", "src/solverops_levels_sgs.cpp", "src/solverops_levels_ilu0.cpp", "src/kernels/kernels_ilu_apply.hpp", "src/kernels/kernels_sgs.hpp"]}
{"id": "C62", "title": "Rounded results are bit-for-bit reproducible", "statement": "Whatever the four arithmetic operations do (any rounding, no algebraic law assumed): a matrix-vector product and a Jacobi application are fixed left-to-right expressions of the stored entries, independent of how rows are distributed over threads. All sequential, level-scheduled and asynchronous-with-levels ILU and SGS applications, and the asynchronous ones with at least as many sweeps as rows, return the identical vector, independent of initial values, sweep counts and schedules. The sequential factorization does not depend on the initial guess or the number of sweeps, and asynchronous factorization with 2n-1 sweeps returns exactly its factors.", "quantifier": "every arithmetic, matrix, vector, initial value, number of sweeps, level schedule and asynchronous execution", "why_tests_cant": "A test sees a few schedules on one machine and cannot tell a rounding difference from an error.", "anchors": ["src/blas/matvecs.cpp", "src/kernels/kernels_ilu_apply.hpp", "src/kernels/kernels_sgs.hpp", "src/kernels/kernels_ilu0_factorize.hpp", "src/solverops_ilu0.cpp", "src/solverops_levels_ilu0.cpp", "src/solverops_levels_sgs.cpp", "src/solverops_sgs.cpp", "src/solverops_jacobi.cpp"]}
{"id": "C63", "title": "Matrix-vector products have a small rounding error", "statement": "In arithmetic that rounds every operation with a relative error of at most u, component i of the computed product A x differs from the exact product of the stored numbers by at most ((1-u)^-n - 1) times the sum of |a_ij| |x_j|, where n is the number of stored entries of row i; n is increased by the block size for block matrices, and by one or two for a A x + b y.", "quantifier": "every matrix, vector, block size, layout, distribution of the rows over threads and every arithmetic that satisfies the standard model of rounding", "why_tests_cant": "Tests compare with a tolerance for a few matrices; a bound for all matrices needs a proof.", "anchors": ["src/blas/matvecs.cpp"]}
{"id": "C64", "title": "Applications of the preconditioners are backward stable", "statement": "In arithmetic that rounds every operation with a relative error of at most u, the vector computed by a scalar ILU application solves exactly a system with the factors L and U in which every entry has a relative perturbation of at most (1-u)^-k - 1, with k the largest number of entries of a row, and the right-hand side and the result are those of the symmetric scaling up to two roundings. The same holds for SGS with the parts of the matrix, and the Jacobi application returns r_i / a_ii up to two roundings.", "quantifier": "every matrix with sorted rows and diagonal entries, nonzero pivots, every right-hand side, every sequential, level-scheduled or sufficiently long asynchronous execution, and every arithmetic that satisfies the standard model of rounding", "why_tests_cant": "Rounding errors of all inputs and schedules cannot be enumerated.", "anchors": ["src/solverops_ilu0.cpp", "src/solverops_levels_ilu0.cpp", "src/solverops_sgs.cpp", "src/solverops_levels_sgs.cpp", "src/solverops_jacobi.cpp", "src/kernels/kernels_ilu_apply.hpp", "src/kernels/kernels_sgs.hpp"]}
{"id": "C65", "title": "The rounding error of the scalar incomplete factorization is small relative to |L||U|", "statement": "In arithmetic that rounds every operation with a relative error of at most u, the factors computed by sequential scalar ILU(0), or by asynchronous ILU(0) with 2n-1 sweeps, have at every position of the pattern a product that differs from the (scaled) entry of the matrix by at most ((1-u)^-(k+2) - 1) times the entry of |L||U|, where k is the largest number of entries of a row.", "quantifier": "every matrix with sorted rows and diagonal entries whose computed pivots do not vanish, every scaling, initial guess, number of sweeps and asynchronous execution, and every arithmetic that satisfies the standard model of rounding", "why_tests_cant": "Rounding errors of all inputs and schedules cannot be enumerated.", "anchors": ["src/kernels/kernels_ilu0_factorize.hpp", "src/async_ilu_factor.cpp"]}
{"id": "C66", "title": "Factorizing and solving without fill leaves a small residual in rounded arithmetic", "statement": "In arithmetic that rounds every operation with a relative error of at most u: for a matrix whose elimination creates no fill, the vector x computed by scalar ILU(0) compute and apply for a right-hand side r satisfies |r - A x| <= g(2) |r| + g(3k+3) |L| |U| |x| in every component, where g(j) = (1-u)^-j - 1, L and U are the computed factors and k is the largest number of entries of a row. The same holds for the scaled system if symmetric scaling is used, and for factors from 2n-1 asynchronous sweeps.", "quantifier": "every such matrix with sorted rows and diagonal entries whose computed pivots do not vanish, every right-hand side, every sequential, level-scheduled or sufficiently long asynchronous execution, and every arithmetic that satisfies the standard model of rounding", "why_tests_cant": "Tests measure residuals of a few systems; the bound must hold for all of them and for all schedules.", "anchors": ["src/kernels/kernels_ilu0_factorize.hpp", "src/async_ilu_factor.cpp", "src/solverops_ilu0.cpp", "src/solverops_levels_ilu0.cpp", "src/kernels/kernels_ilu_apply.hpp"]}
{"id": "C67", "title": "Index arithmetic stays within int", "statement": "With the index type int, no sum or product of indices exceeds INT_MAX in setting up ILU(0) position lists, the column adjacency, the row-to-column conversions and the conversion from coordinates to block rows, for every input whose order and number of stored entries are below INT_MAX. (False of two functions: the position lists overflow when the factorization has more than INT_MAX products, first for the dense matrix of order 1862, and the conversion to block rows overflows when the result has more than INT_MAX scalars, for example a diagonal matrix of order 2^29 in blocks of order 4.)", "quantifier": "every well-formed matrix or list of coordinate entries, every bound of the index type", "why_tests_cant": "Overflow needs matrices far larger than any test matrix, and undefined behaviour need not show when it happens.", "anchors": ["src/ilu_pattern.cpp", "src/helper_algorithms.cpp", "src/adjacency.cpp", "src/scmatrix.cpp", "src/coomatrix.cpp"]}
{"id": "C68", "title": "Asynchronous sweeps, access by access", "statement": "Run the asynchronous factorization, triangular solves, symmetric Gauss-Seidel and chaotic relaxation with any number of threads whose single loads and stores of array components interleave in any way and become visible with any delay. Every execution ends after a bounded number of accesses. If no thread begins a sweep before all threads have finished the sweep L before it, then s sweeps give bit for bit the result of the sequential code when s is at least (2n-1)(2L-1) for the factorization and n(2L-1) for the applications, and every 2L-1 sweeps of the relaxation reduce the largest error by the dominance ratio. The exact factors and the solution of the linear system are never changed, however late a thread is. Without a bound on the lag no number of sweeps is enough.", "quantifier": "every matrix, number of sweeps, initial guess, interleaving of accesses and delay of stores", "why_tests_cant": "Interleavings of single accesses are unbounded in number and cannot be forced by a test.", "anchors": ["src/async_ilu_factor.cpp: executeILU0Factorization", "src/async_blockilu_factor.cpp", "src/kernels/kernels_ilu0_factorize.hpp", "src/solverops_ilu0.cpp", "src/solverops_sgs.cpp", "src/relaxation_chaotic.cpp"]}
{"id": "C69", "title": "MC64 ordering and scaling", "statement": "Computing an MC64 ordering with a documented job (1 to 5) gives the external routine a valid one-based column copy of the matrix and work arrays of at least the documented lengths. It throws exactly if the routine reports a nonzero code or the job is not documented. Otherwise it installs a column ordering (for job 5 also row and column factors), and applying that forward to the matrix succeeds and gives a matrix with a full diagonal; with job 5, all entries are at most 1 and the diagonal entries equal to 1 in modulus, so that no other transversal has a larger product. (False for job 1: the wrapper takes the address of the first element of an empty array.)", "quantifier": "every nonempty square scalar matrix without repeated entries, every job, every routine that meets the documented contract of MC64, every loop order, and all old contents of allocated memory", "why_tests_cant": "Tests use one matrix and one job; the conversion, the permutation direction and the scaling must fit together for every matrix.", "anchors": ["src/reorderingscaling.cpp: MC64::compute, getWorkSizes", "src/scmatrix.cpp: convert_BSR_to_BSC_1based", "include/reorderingscaling.hpp"]}
{"id": "C70", "title": "PETSc Richardson callback", "statement": "The Richardson callback performs exactly the requested number of relaxation steps of the selected method and reports that number, starting from zero exactly if PETSc says that the guess is zero; the tolerances have no influence. A solution given as initial guess is returned unchanged. For strictly diagonally dominant matrices the largest error shrinks at least by the dominance ratio per reported iteration. For methods without relaxation the callback throws. The totals of the timings are the sums over all solvers, whatever was stored before.", "quantifier": "every matrix with sorted rows and diagonal entries, every preconditioner type, right-hand side, guess, number of iterations, and every execution of the asynchronous methods", "why_tests_cant": "Tests run PETSc solvers with a few settings and tolerate any convergent result.", "anchors": ["src/blasted_petsc.cpp: relax_local_blasted, computeTotalTimes", "src/solverops_jacobi.cpp", "src/relaxation_chaotic.cpp", "src/solverops_sgs.cpp", "src/solverops_levels_sgs.cpp"]}
{"id": "C71", "title": "ILU(0) of diagonally dominant matrices never breaks down", "statement": "For a matrix that is strictly diagonally dominant by rows after some positive weighting of the columns (every nonsingular H-matrix, in particular every nonsingular M-matrix), computing the scalar ILU(0) factorization succeeds: no pivot is zero, with or without symmetric scaling, whatever the sparsity pattern, the number of build sweeps, the initialisation and the previous contents of the object. The factors reproduce the matrix on its pattern, and the upper factor is dominant by at least the margin of the matrix. Every asynchronous execution with enough sweeps computes the same factors from every initial guess, including guesses with zero pivots.", "quantifier": "every matrix with sorted rows, stored diagonal and weighted dominance, every configuration except scaling with init_sgs (C24), every loop order, every asynchronous execution with 2n-1 completed rounds or bounded lag", "why_tests_cant": "Breakdown depends on the values of every intermediate pivot; tests factor a handful of matrices.", "anchors": ["src/async_ilu_factor.cpp: scalar_ilu0_factorize, executeILU0Factorization", "src/solverops_ilu0.cpp: AsyncILU0_SRPreconditioner::compute"]}
{"id": "C72", "title": "ILU(0)-preconditioned correction converges and preserves signs", "statement": "For such a matrix with dominance ratio rho, every step x := x + M^-1 (b - A x) with the computed ILU(0) preconditioner reduces the weighted maximum norm of the error at least by rho, so k steps reduce it to rho^k, for every way of applying the preconditioner (sequential, level-scheduled, asynchronous with enough sweeps), with or without scaling. For M-matrices the preconditioner maps nonnegative vectors to nonnegative vectors; approximations from below the solution stay below it, and if the residual is nonnegative they increase and the residual stays nonnegative.", "quantifier": "every weighted strictly dominant matrix (M-matrix for the signs), right-hand side, initial guess, number of steps, choice of application in every step and every execution of it", "why_tests_cant": "Convergence tests run one system to one tolerance; the rate must hold for all matrices of the class and all schedules.", "anchors": ["src/solverops_ilu0.cpp: AsyncILU0_SRPreconditioner::compute, apply", "src/solverops_levels_ilu0.cpp", "src/async_ilu_factor.cpp"]}
{"id": "C73", "title": "Preconditioners of symmetric matrices are symmetric (positive definite)", "statement": "Used with a symmetric matrix, the Jacobi, SGS and ILU(0) preconditioners are symmetric operators: (s, M^-1 r) = (r, M^-1 s) for all vectors r and s, as conjugate gradients require, whichever way each of the two applications is executed (sequential, level-scheduled, asynchronous with enough sweeps) and with or without scaling. Jacobi and SGS are moreover positive definite if the diagonal (blocks) of the matrix is, even if the matrix is not; ILU(0) is positive definite if its pivots are positive, in particular for every symmetric weighted strictly diagonally dominant matrix with positive diagonal.", "quantifier": "every symmetric matrix with sorted rows and stored diagonal (for ILU(0): with symmetric pattern, not necessarily dominant), scalar or block, all pairs of vectors, all executions of the two applications", "why_tests_cant": "Symmetry is a statement about all pairs of vectors and, for threaded applications, all pairs of schedules.", "anchors": ["src/solverops_jacobi.cpp: apply", "src/solverops_sgs.cpp: apply", "src/solverops_levels_sgs.cpp: apply", "src/solverops_ilu0.cpp: compute, apply", "src/solverops_levels_ilu0.cpp: apply"]}
{"id": "C74", "title": "Relaxations of symmetric positive definite matrices converge", "statement": "For every symmetric positive definite matrix, dominant or not, setting up the relaxation succeeds, and the relaxations that execute as Gauss-Seidel sweeps (sequential chaotic relaxation, sequential SGS relaxation, level-scheduled SGS relaxation under every schedule, the latter also through the PETSc Richardson callback) and the correction iteration preconditioned with SGS converge from every initial guess: each step multiplies the energy of the error by at most a factor less than one that depends on the matrix only, strictly decreases it unless the solution is reached, and every accuracy is reached after finitely many steps. The Jacobi relaxation and the threaded relaxations have no such guarantee: there is a positive definite matrix for which they diverge.", "quantifier": "every symmetric positive definite matrix, scalar or block, with sorted rows and stored diagonal, every right-hand side, initial guess, number of steps and schedule of the level-scheduled variants", "why_tests_cant": "Convergence for a whole class of matrices from every initial guess is not observable on finitely many systems; the divergence of threaded variants needs a particular schedule.", "anchors": ["src/relaxation_chaotic.cpp: apply_relax", "src/solverops_sgs.cpp: apply_relax, apply", "src/solverops_levels_sgs.cpp: apply_relax, apply", "src/solverops_jacobi.cpp: compute, apply_relax", "src/blasted_petsc.cpp: relax_local_blasted"]}
{"id": "C75", "title": "PETSc's application callback applies the configured operator", "statement": "Whatever preconditioner type was configured, every call of the application callback that PETSc makes after setup returns error code 0 and leaves in z the operator of that type applied to r: D z = r for Jacobi, (D+L) D^-1 (D+U) z = r for (level-scheduled) SGS, (D+U) z = r for column-oriented backward Gauss-Seidel, z = S w with L U w = S r for the ILU(0) types, z = r for none; independently of the old contents of z and of all earlier applications, provided the number of sweeps is at least 1 where sweeps are sequential and at least the depth of the pattern (at most the number of (block) rows, see C77) where they are asynchronous. The times spent are added to the application times of the context and the factorization times are unchanged. A debug build refuses vectors of the wrong size with PETSc's size error and changes nothing. From the settings: with seqilu0 or sfilu0 and a diagonally dominant matrix, creation, compute and every application succeed, and A z = r if the elimination creates no fill. The type gs is an exception: it relaxes from the old contents of z, so its result depends on them.", "quantifier": "every preconditioner type and configuration, matrix, right-hand side, old contents, history of applications, schedule and staleness of reads", "why_tests_cant": "The callback is one entry point to fourteen classes with many options; a test fixes one history, one schedule and one set of contents.", "anchors": ["src/blasted_petsc.cpp: apply_local_blasted", "src/solverops_base.cpp: NoPreconditioner::apply", "src/solverops_jacobi.cpp: apply", "src/relaxation_chaotic.cpp: apply", "src/solverops_sgs.cpp: apply", "src/solverops_levels_sgs.cpp: apply", "src/solverops_ilu0.cpp: apply", "src/solverops_levels_ilu0.cpp: apply", "src/solverfactory.cpp: create_preconditioner"]}
{"id": "C76", "title": "Weighted dominant matrices and M-matrices: the threads do not decide about convergence", "statement": "If the matrix is diagonally dominant after a positive scaling of its columns, every relaxation (chaotic, SGS, level-scheduled SGS and Jacobi; with one or several threads; also through the PETSc Richardson callback) multiplies the weighted maximum norm of the error by at most a factor rho < 1 per step, under every schedule; with arbitrarily stale reads no value in memory ever becomes worse than the worst initial value. For matrices with positive diagonal and nonpositive off-diagonal entries this is sharp: if any one of the relaxations converges for all systems, for instance Gauss-Seidel with one thread, then all of them solve all systems under all schedules, and this is the case exactly for M-matrices. Without the sign condition this is false: there is a matrix for which the relaxations with one thread converge and those with threads need not.", "quantifier": "every weighted dominant matrix, every matrix with positive diagonal and nonpositive off-diagonal entries, every right-hand side, initial guess, number of steps, schedule and staleness of reads", "why_tests_cant": "Convergence for all systems and the equivalence between sequential and asynchronous convergence quantify over all matrices, schedules and accuracies.", "anchors": ["src/relaxation_chaotic.cpp: apply_relax", "src/solverops_sgs.cpp: apply_relax", "src/solverops_levels_sgs.cpp: apply_relax", "src/solverops_jacobi.cpp: apply_relax", "src/kernels/kernels_relaxation.hpp: scalar_relax", "src/blasted_petsc.cpp: relax_local_blasted"]}
{"id": "C77", "title": "As many asynchronous sweeps as the pattern is deep suffice", "statement": "The number of asynchronous sweeps needed does not grow with the number of rows but with the depth of the dependency graph: if the rows can be given depths below L such that every stored off-diagonal entry joins rows of different depth, the later row being deeper (the levels computed for level scheduling are such depths), then 2 L - 1 build sweeps give exactly the factors of the sequential factorization and L application sweeps give exactly the result of the sequential triangular solves, for ILU(0) and SGS, scalar and block, from every initial guess and under every schedule. A matrix ordered by two colours needs three build sweeps and two application sweeps, whatever its size. These numbers cannot be lowered: for every chain of L rows coupled by nonzero (invertible) entries there is an execution of 2 L - 2 build sweeps that does not give the factors, and one of L - 1 application sweeps that does not give the solution, unless the initial guess is already right at the start of the chain.", "quantifier": "every matrix with sorted rows and stored diagonal, every depth function, initial guess, schedule and staleness of reads within the bounded-lag model; for the sharpness every chain of coupled rows", "why_tests_cant": "It is a statement about all schedules of sweeps and about all matrices of a given depth, however large.", "anchors": ["src/async_ilu_factor.cpp: scalar_ilu0_factorize", "src/async_blockilu_factor.cpp: block_ilu0_factorize", "src/solverops_ilu0.cpp: scalar_ilu0_apply, block_ilu0_apply", "src/solverops_sgs.cpp: apply", "src/levelschedule.cpp: computeLevels"]}
{"id": "C78", "title": "The Richardson solver stops at the first iterate below the tolerance and reaches every tolerance", "statement": "RichardsonSolver::solve returns normally for every matrix, right-hand side, initial vector, schedule and preconditioner whose applications return normally; it performs exactly the reported number of corrections x := x + z, z a result of the preconditioner for the residual of x, and stops at the first iterate with |b - A x| < tol |b| or after maxiter corrections. If it stops early the returned vector is below the tolerance and the reported norm is that of its residual. If every application reduces some measure of the residual by a factor rho < 1, every tolerance is reached for maxiter large enough; this holds for the library's ILU(0) preconditioner on every weighted strictly diagonally dominant matrix. When it stops because of maxiter, the reported norm is that of the iterate before the last.", "quantifier": "every CSR and BSR matrix, right-hand side, initial vector, tolerance, maximum number of iterations, order of all parallel loops and preconditioner, which may give a different result in every call", "why_tests_cant": "The number of iterations, the preconditioner's answers and the schedules are unbounded; a test sees one history of answers.", "anchors": ["tests/solvers.cpp: RichardsonSolver::solve, axpby, dot, vecassign", "tests/solvers.hpp: SolveInfo, IterativeSolverBase", "include/blockmatrices.hpp: CSRMatrixView, BSRMatrixView apply, gemv3"]}
{"id": "C79", "title": "BiCGSTAB: recursive residual, tolerance and finite termination", "statement": "BiCGSTAB::solve either divides by zero or returns a vector whose residual has exactly the reported norm; if it stops before maxiter, that vector is below the tolerance, and if it stops at maxiter it is not. With a fixed linear preconditioner and maxiter not below the dimension n, it divides by zero or reaches the tolerance in fewer than n iterations: it never runs longer. It always divides by zero when the initial vector is exact and when the preconditioner is the exact inverse.", "quantifier": "every CSR and BSR matrix, right-hand side, initial vector, tolerance, maximum number of iterations, order of all parallel loops and preconditioner, which may give a different result in every call (fixed and linear for the finite termination)", "why_tests_cant": "The residual is updated recursively over an unbounded number of iterations with arbitrary preconditioner answers; finite termination is a statement about all matrices and starting vectors.", "anchors": ["tests/solvers.cpp: BiCGSTAB::solve, axpby, axpbypcz, dot", "tests/solvers.hpp: BiCGSTAB"]}
{"id": "C80", "title": "GCR minimises the residual over the vectors the preconditioner has given, and converges", "statement": "GCR::solve with nrestart >= 1 either divides by zero or returns; every iterate minimises |b - A x| over the start of its restart cycle plus the span of the vectors which the preconditioner gave since then; the products of A with these vectors are linearly independent. It stops at the first iterate below the tolerance (after at least one iteration) or at maxiter, the reported norm is that of the returned vector and converged says whether it is within the tolerance. The norm of the residual never increases. A division by zero needs a residual r, of the initial vector or not below the tolerance, for which the preconditioner yields z with A z orthogonal to r. With nrestart and maxiter not below the dimension n, it reaches the tolerance in at most n iterations unless it divides by zero. If the angle between r and A z is bounded away from a right angle for all residuals, then for every nrestart there is no division by zero and every tolerance is reached. With an exact initial vector it divides 0 by 0, with nrestart = 0 it accesses an element of an empty array.", "quantifier": "every CSR and BSR matrix, right-hand side, initial vector, tolerance, restart length, maximum number of iterations, order of all parallel loops and preconditioner, which may give a different result in every call", "why_tests_cant": "Optimality over a subspace, finite termination and convergence quantify over all vectors, all preconditioner answers and any number of restart cycles.", "anchors": ["tests/solvers.cpp: GCR::solve, axpby, dot", "tests/solvers.hpp: GCR"]}
{"id": "C81", "title": "Malformed Matrix Market files", "statement": "readMatrixMarket rejects every file that does not describe a matrix, by an exception or by ending the program: a size line with fewer than three words or with a word that does not begin with an integer of the index type, a negative number of entries, fewer entries than announced, indices out of range, missing values. If it returns, the numbers of rows, columns and entries are those of the size line.", "quantifier": "every file: every header that is accepted, any comments, every size line and every body", "why_tests_cant": "The files are unbounded texts; what is needed is what happens for every malformed one.", "anchors": ["src/coomatrix.cpp: getSizeFromMatrixMarket, COOMatrix::readMatrixMarket"]}
{"id": "C82", "title": "Order of destruction of the PETSc solver and of the list of contexts", "statement": "The solver has to be destroyed before destroyBlastedDataList is called. If the list is destroyed first, the call succeeds, but no preconditioner object is released, and every later set-up call and the destruction of the solver use deleted contexts. After the destruction of the solver the contexts keep pointers to the deleted preconditioner objects: a further set-up call of a preconditioner that had been set up uses the deleted object. In the documented order the list may be destroyed a second time without effect.", "quantifier": "every supported solver tree, every history of set-up calls with any options database at each call", "why_tests_cant": "Use after deletion need not be visible in a run, and the trees and histories are unbounded.", "anchors": ["src/blasted_petsc.cpp: destroyBlastedDataList, cleanup_blasted, compute_preconditioner_blasted, updatePreconditioner", "include/blasted_petsc.h: Blasted_data_list"]}
{"id": "C83", "title": "Relaxations in floating-point arithmetic", "statement": "If the matrix is row dominant, possibly after weighting the columns, then in rounded arithmetic every relaxation (Jacobi, chaotic, symmetric Gauss-Seidel, level-scheduled; sequential or with threads) approaches the exact solution up to a level proportional to the unit roundoff and independent of the number of steps and of the schedule; with arbitrarily old reads the error never exceeds the larger of the initial error and that level. Unlike in exact arithmetic, the result need not settle and need not be the same from run to run: the ascending order, another order by several threads and Jacobi can stay at different results for ever.", "quantifier": "every arithmetic with relative rounding errors at most u (binary floating point with any number of bits is an instance), every matrix, right-hand side, initial guess, number of steps, thread count and schedule, every age of the values read", "why_tests_cant": "Rounding errors could accumulate over any number of steps and in any of the unboundedly many interleavings; a test sees one run.", "anchors": ["src/relaxation_chaotic.cpp: apply, apply_relax", "src/solverops_sgs.cpp: apply_relax", "src/solverops_levels_sgs.cpp: apply_relax", "src/solverops_jacobi.cpp: apply_relax", "src/kernels/kernels_relaxation.hpp"]}
{"id": "C84", "title": "A preconditioner used before its first compute", "statement": "Applying a Jacobi, SGS, ILU, level-scheduled SGS or level-scheduled ILU preconditioner, or one of the relaxations with at least one step, before the first compute always reads or writes through a null pointer when the matrix is not empty; no result is silently returned. The ILU preconditioner on a reordered matrix is the exception: without a row ordering its apply returns normally, does not use the right-hand side and hands back the old contents of the result vector, reordered by the column ordering if there is one.", "quantifier": "every matrix, right-hand side, contents of the result vector, number of sweeps, initialization and order of iterations", "why_tests_cant": "Undefined behaviour may look like success in a test; that no input escapes it (or that the result never depends on the right-hand side) is a statement about all inputs.", "anchors": ["src/solverops_jacobi.cpp: apply", "src/solverops_sgs.cpp: apply, apply_relax", "src/solverops_ilu0.cpp: apply", "src/solverops_levels_sgs.cpp: apply", "src/solverops_levels_ilu0.cpp: apply", "src/relaxation_chaotic.cpp", "src/solverops_ilu0.cpp: ReorderedAsyncILU0_SRPreconditioner"]}
{"id": "C85", "title": "Which coordinate files are read, with and without assertions", "statement": "What readMatrixMarket does with a coordinate file whose entries have arbitrary integer row numbers depends only on how many different row numbers occur, not on their values. A build with assertions accepts the file exactly if their number equals the announced number of rows; a release build (NDEBUG) also accepts one more and then silently makes the last two rows one, with their entries mixed. With fewer row numbers a build with assertions aborts and a release build has undefined behaviour; with at least two more both overwrite memory. In the accepted cases the stored entries are the first entries of the file with 1 subtracted from both numbers, ordered by row and then by column, with matching row pointers; text after them is ignored.", "quantifier": "every file with a readable header and size line, every list of entries with row and column numbers in the range of int, every sorting algorithm, both kinds of build", "why_tests_cant": "The claim ranges over all files; undefined behaviour cannot be observed reliably, and a test runs one kind of build.", "anchors": ["src/coomatrix.cpp: COOMatrix::readMatrixMarket", "CMakeLists.txt: CMAKE_CXX_FLAGS_RELEASE"]}
{"id": "C86", "title": "Block ILU(0) of block diagonally dominant matrices never breaks down", "statement": "If the diagonal blocks of a block matrix are invertible and the rows of the matrix multiplied with the inverse diagonal blocks have absolute values that add up to at most rho < 1 outside the diagonal block, for some positive weights of the unknowns, then computing the block ILU(0) factorization succeeds: no singular block is ever inverted, with or without symmetric scaling, whatever the sparsity pattern, the block size, the number of build sweeps, the initialisation and the previous contents of the object. The factors reproduce the matrix on its block pattern and the upper factor is dominant with the same ratio. This covers every matrix that is strictly diagonally dominant by scalar rows, whatever the block size chosen to store it. Every asynchronous execution with enough sweeps computes the same factors from every initial guess.", "quantifier": "every block size, every block matrix with sorted rows, stored diagonal blocks and weighted block dominance, every configuration, every loop order, every asynchronous execution with 2n-1 completed rounds or bounded lag", "why_tests_cant": "Breakdown depends on every intermediate pivot block; tests factor a handful of matrices.", "anchors": ["src/async_blockilu_factor.cpp: block_ilu0_factorize", "src/solverops_ilu0.cpp: AsyncBlockILU0_SRPreconditioner::compute"]}
{"id": "C87", "title": "Block-ILU(0)-preconditioned correction converges", "statement": "For such a matrix with ratio rho, every step x := x + M^-1 (b - A x) with the computed block ILU(0) preconditioner reduces the weighted maximum norm of the error over all unknowns at least by rho, so k steps reduce it to rho^k, for every way of applying the preconditioner (sequential, level-scheduled, asynchronous with enough sweeps and torn reads of blocks), with or without scaling.", "quantifier": "every block size, every weighted block dominant matrix, right-hand side, initial guess, number of steps, choice of application in every step and every execution of it", "why_tests_cant": "Convergence tests run one system to one tolerance; the rate must hold for all matrices of the class and all schedules.", "anchors": ["src/solverops_ilu0.cpp: AsyncBlockILU0_SRPreconditioner::compute, apply", "src/solverops_levels_ilu0.cpp", "src/async_blockilu_factor.cpp"]}
{"id": "C88", "title": "Asynchronous block sweeps, number by number", "statement": "If every single coefficient of a block or of a segment of a vector is loaded and stored on its own, so that a thread can see blocks half-written by another one and can compute different coefficients of one product from different versions of an operand, the asynchronous block ILU factorization still computes the factors of the sequential code bit for bit after (2n-2)(2L-1)+L sweeps if no thread is L or more sweeps ahead of another, from any initial guess, including one with singular diagonal blocks; the factors, once computed, never change; the asynchronous applications of block ILU and block SGS give the sequential result after (n-1)(2L-1)+L sweeps; a solution is a fixed point of the block relaxation; and the relaxation converges with factor rho per 2L-1 sweeps if sum_j |D_i^-1| |A_ij| v_j <= rho v_i. All executions end.", "quantifier": "every block size, matrix, initial guess, layout of the coefficients, number of sweeps, lag L, interleaving of single loads and stores, order in which the coefficients of a result are stored, choice of visible (possibly outdated) value for every load", "why_tests_cant": "Half-written blocks appear only in races lasting a few instructions; no test can enumerate the interleavings of single loads and stores, and a run that happens to show one is not reproducible.", "anchors": ["src/kernels/kernels_ilu0_factorize.hpp: async_block_ilu0_factorize", "src/kernels/kernels_ilu_apply.hpp: block_unit_lower_triangular, block_upper_triangular", "src/kernels/kernels_sgs.hpp: block_bgs", "src/kernels/kernels_relaxation.hpp: block_relax_kernel", "src/async_blockilu_factor.cpp", "src/solverops_ilu0.cpp: block_ilu0_apply"]}
{"id": "C89", "title": "The conversion program writes the contents of its input files", "statement": "The program that converts Matrix Market files to PETSc's binary format writes the matrix of its first argument to the file of that name with .pmat appended, the right-hand side of its second argument, padded with zeros to the dimension of the matrix, likewise, and the vector of the option -exact_soln likewise, ends with exit code 0 and changes no other file; when an input has more numbers than the matrix has rows, or there are too few arguments, nothing is written.", "quantifier": "every square matrix file and all vector files, file names of any length, options, block sizes, previous contents of the disk", "why_tests_cant": "All names, files and options; the behaviour for long names depends on what lies behind an array on the stack.", "anchors": ["src/utils/util_petsc_io.c: main", "src/utils/blasted_petsc_io.cpp: readMatFromCOOFile_viaSR, readVecFromFile"]}
{"id": "C90", "title": "The solve program solves the system in its files", "statement": "The program that reads a matrix and a right-hand side from files and solves the system with a chosen solver and preconditioner reports the truth about the numbers in the files: its result has one number per row, the norm it reports is that of the right-hand side, an iteration count below the maximum means that the residual is below the tolerance, and a reference solution is compared in full. With Richardson iterations and an ILU(0), Jacobi or Gauss-Seidel preconditioner with enough sweeps it solves every strictly diagonally dominant system, and passes its check against the solution when the tolerance is small enough; unknown words on the command line are rejected.", "quantifier": "every matrix and right-hand side file, solver, preconditioner, storage order, tolerance, sweep count and schedule of the threads", "why_tests_cant": "A test runs the program on the few files shipped with it, under the schedules that happen to occur.", "anchors": ["tests/testsolve.cpp: test_solve", "tests/runsolvetest.cpp: main", "tests/solvers.cpp: RichardsonSolver::solve", "src/solverfactory.cpp: SRFactory::create_preconditioner"]}
{"id": "C91", "title": "The Poisson test problem is the discrete Laplacian, and the relaxations solve it", "statement": "The generator of the three-dimensional Poisson problem makes grids that increase from one face of the box to the other with the spacing asked for. The matrix it assembles, on any number of processes, maps every function on the interior points to the negative sum of its second divided differences along the three axes with zero boundary values, and stores exactly the entries of neighbours. It is an M-matrix: every system has exactly one solution, nonnegative for nonnegative data, and every relaxation of the library, and the iteration preconditioned with ILU(0), converge to it under every schedule of their threads. The mesh size reported is the longest diagonal of a cell.", "quantifier": "every number of points along the axes, box, spacing of the points, distribution among processes, function, right-hand side, initial guess and schedule", "why_tests_cant": "The tests solve a few cubes of fixed sizes and compare errors; the identity with the discrete Laplacian and convergence for every grid are statements about all grids.", "anchors": ["tests/poisson3d-fd/poisson3d_fd.cpp: computeLHS", "tests/poisson3d-fd/cartmesh.cpp: CartMesh::generateMesh_UniformDistribution, CartMesh::generateMesh_ChebyshevDistribution, CartMesh::computeMeshSize, CartMesh::createMeshAndDMDA", "tests/poisson3d-fd/poisson_setup.cpp: createMesh"]}
{"id": "C92", "title": "The right-hand side, exact solution and norm of the Poisson test problem belong to its interior points", "statement": "The right-hand side and the exact solution handed to the solver are the source and the solution of the continuous problem at the interior points that the rows of the matrix belong to, and the norm is the sum of squares weighted by the volumes of the dual cells of these points. (The code evaluates all of them one point too early along every axis, and the norm reads before the first coordinate.)", "quantifier": "every grid, distribution among processes and vector", "why_tests_cant": "The tests compare errors between a few grids with a tolerance; an evaluation at a neighbouring point still looks convergent, and a read before an array usually goes unnoticed.", "anchors": ["tests/poisson3d-fd/poisson3d_fd.cpp: computeRHS, computeNorm"]}
{"id": "C93", "title": "The factorization entry point without scaling computes the exact ILU(0) factors", "statement": "The exported scalar factorization that takes no scaling vector computes the same factors as the general one called without scaling. With at least one sequential sweep these are the exact ILU(0) factors of the matrix, whatever the initialisation, previous contents of the array and order of the parallel loops; for a weighted diagonally dominant matrix it never breaks down and the result depends on none of these.", "quantifier": "every stored matrix with sorted rows and a diagonal, initialisation, initial contents, positive number of sweeps and loop order", "why_tests_cant": "No test calls this entry point at all, and a test could only compare a few matrices and initialisations.", "anchors": ["src/async_ilu_factor.cpp: scalar_ilu0_factorize_noscale"]}
{"id": "C94", "title": "The convergence test of the asynchronous factorization is sound, and passes for every schedule with bounded lag", "statement": "If the convergence test program accepts the asynchronous ILU(0) factorization of a matrix, the matrix has exact ILU(0) factors and the factors compared last, below the diagonal as well as on and above it, are within the tolerance of them (relative to the initial error, or absolute when the sweeps began with the exact factors). If the matrix has exact factors and differs from them below and above the diagonal, the test with a barrier after every sweep passes for every schedule with a maximum of at least 2n-1 sweeps, and the test without barriers for every schedule in which no thread is L sweeps ahead with at least (2n-1)(2L-1) sweeps. Begun with the exact factors both pass for every schedule.", "quantifier": "every stored matrix with sorted rows and a diagonal, with or without scaling, tolerance, maximum of sweeps, number of repetitions, interleaving and delay of the accesses of the sweeps", "why_tests_cant": "This is the test itself: running it says nothing about which schedules it accepts, and whether a pass or a failure says something about the factorization.", "anchors": ["tests/solverops/async_ilu_convergence.cpp: test_partiallyasync_ilu_convergence, test_fullyasync_ilu_convergence, check_initial, check_convergence, maxnorm_lower, maxnorm_upper, getExactILU, initialize_iluvals, getScalingVector"]}
{"id": "C95", "title": "When the convergence test of the asynchronous triangular solves passes", "statement": "The convergence test program for the asynchronous triangular solves compares, for 1, 2, 3, ... sweeps, an asynchronous run from the initial guess with the solution of the unit lower, then of the upper triangular system of the exact ILU(0) factors; these solutions exist, are unique and are what its sequential passes compute. Begun with zero it passes if and only if, for both systems, the first number of sweeps with a relative error below the tolerance is within the maximum and the two runs after it are below the tolerance too; otherwise an assertion fails. Begun with the solutions it passes for every schedule. If no thread is L sweeps ahead of another, all runs with at least n(2L-1) sweeps are exact, and with such a maximum the test passes provided an error below the tolerance is not followed by a larger one. Any other initial guess name is refused with an exception. The test can fail although the solves have no fault.", "quantifier": "all matrices with sorted rows, stored diagonal and exact ILU(0) factors with nonzero pivots; all tolerances, maxima of sweeps, lags and executions of the sweeps; all orders and partitions of the parallel loops of the norms", "why_tests_cant": "It is a statement about all schedules of the threads and all matrices; a test sees the schedules that happen, and this test cannot tell a fault from an unlucky schedule.", "anchors": ["tests/solverops/async_triangular_factors_convergence.cpp: test_async_triangular_solve, runFullyAsyncTest, check_convergence, lowerSolve, upperSolve, maxnorm_diff", "src/blas/blas1.cpp: maxnorm", "src/kernels/kernels_ilu_apply.hpp"]}
{"id": "C96", "title": "The reordered ILU(0) preconditioner works with the options it is constructed with", "statement": "A reordered ILU(0) preconditioner constructed with numbers of build and apply sweeps, a chunk size, the two initialisations and a choice of threads for the factorization and for the application uses exactly these; without threads every application with at least one sweep is an exact triangular solve.", "quantifier": "all values of the options and all matrices the object is used for", "why_tests_cant": "Whether threads are used does not change a result that happens to be right; a wrong choice shows only under particular schedules, and only for some option values.", "anchors": ["include/solverops_ilu0.hpp: ReorderedAsyncILU0_SRPreconditioner", "src/solverops_ilu0.cpp: ReorderedAsyncILU0_SRPreconditioner::ReorderedAsyncILU0_SRPreconditioner"]}
{"id": "C97", "title": "What the solve program with a reordered preconditioner accepts", "statement": "If the program that solves a system with a plain and with a reordered ILU(0) preconditioner ends normally then the matrix has at least four rows, and both results are vectors closer to the reference solution than the tolerance of the test; whenever the solver reports fewer iterations than the maximum, the residual of its result is below its tolerance. With exact preconditioners and Richardson iteration it accepts every reference solution that is a solution, after one iteration each; with BiCGStab it divides by zero. The ordering exchanges two rows and columns and exists only for four and more rows: for fewer the program has undefined behaviour. Unknown words end the program, and the arguments have fixed positions.", "quantifier": "all contents of the files with a square matrix without empty rows, all parameters, all orders of the parallel loops, all behaviours of the preconditioner objects that return vectors of the right length", "why_tests_cant": "It is a test program itself: its runs say nothing about the files, tolerances and schedules it is not run with, or about what its acceptance means.", "anchors": ["tests/testreorderedsolve.cpp: main, testSolve, createTrivialColReordering", "include/reorderingscaling.hpp: ReorderingScaling::setOrdering", "tests/solvers.cpp"]}
{"id": "C98", "title": "Few asynchronous sweeps", "statement": "For a matrix that is dominant with ratio rho (for some positive weights), k asynchronous sweeps of each triangular solve of the ILU(0) application, or of the backward solve of symmetric Gauss-Seidel, differ from the exact application by at most rho^k times a constant, in the weighted maximum norm, for every schedule, number of threads and age of the values read within the rounds; neither the number of rows nor the number of threads occurs in the bound. The iteration that corrects by the preconditioned residual with k such sweeps therefore converges, with a factor that exceeds that with exact solves by at most rho^k times a constant.", "quantifier": "all weighted strictly diagonally dominant matrices, all right-hand sides, all numbers of sweeps, all schedules and interleavings, both initialisations, with and without scaling", "why_tests_cant": "Users choose a small fixed number of sweeps for matrices of any size; a test sees single runs of single matrices and not the worst schedule.", "anchors": ["src/solverops_ilu0.cpp: scalar_ilu0_apply", "src/solverops_sgs.cpp: AsyncSGS_SRPreconditioner::apply", "src/kernels/kernels_ilu_apply.hpp", "src/kernels/kernels_sgs.hpp"]}
{"id": "C99", "title": "Few asynchronous sweeps of the factorization", "statement": "For a matrix that is dominant with ratio rho (for some positive weights) and an initial guess that is not larger than the matrix in a sense made precise (the guess \"sgs\" without scaling; \"original\" and \"zero\" if the diagonal of the scaled matrix is at most 1, as after the code's scaling), no update of the asynchronous factorization divides by zero and every pivot in memory is at every moment at least (1 - rho) times the diagonal entry, whatever the threads do; and for every q between rho and 1, k sweeps leave factors whose errors, summed over a row with the weights, are at most q^k times a constant that depends on rho and q only. So the number of sweeps for a given accuracy does not depend on the size of the matrix, its pattern or the schedule. The guess \"original\" without scaling does not have this property: a sweep can end with a zero pivot for a dominant matrix.", "quantifier": "all dominant matrices of any size and pattern with a full diagonal, all weights, all schedules and ages of values read within the rounds, all numbers of sweeps", "why_tests_cant": "Tests observe some schedules on some matrices; that the rate does not deteriorate with size or thread count, and that no schedule makes a pivot vanish, is a statement about all of them.", "anchors": ["src/async_ilu_factor.cpp: scalar_ilu0_factorize, executeILU0Factorization, fact_init_original, fact_init_sgs", "src/kernels/kernels_ilu0_factorize.hpp: async_ilu0_factorize_kernel"]}
{"id": "C100", "title": "Few asynchronous sweeps of everything", "statement": "For every ratio of dominance rho < 1 and every factor theta > rho there are two numbers of sweeps, one for the factorization and one for the triangular solves, such that for every matrix of any size and pattern that is dominant with ratio rho (for some positive weights), every execution of that many asynchronous sweeps of the ILU(0) factorization from a safe initial guess leaves factors without zero pivot, and every step of the iteration that corrects by the preconditioned residual, with that many asynchronous sweeps in each triangular solve, multiplies the largest weighted error by at most theta. If threads may be L-1 sweeps apart, sweeps count for 1/(2L-1). Such executions exist for every number of steps.", "quantifier": "all dominant matrices of any size and pattern, all weights, right-hand sides and initial vectors, all schedules of both the factorization and the applications, both initialisations of the application, with and without scaling", "why_tests_cant": "It says that a number of sweeps fixed in advance works for all sizes and schedules at once; tests observe single matrices and schedules, on which errors of factorization and application may happen to cancel.", "anchors": ["src/async_ilu_factor.cpp: scalar_ilu0_factorize", "src/solverops_ilu0.cpp: AsyncILU0_SRPreconditioner::compute, scalar_ilu0_apply", "src/kernels/kernels_ilu0_factorize.hpp", "src/kernels/kernels_ilu_apply.hpp"]}
{"id": "C101", "title": "One asynchronous sweep of the symmetric Gauss-Seidel preconditioner is enough", "statement": "For every matrix of any size and pattern that is dominant with ratio rho <= 1 (for some positive weights), every step of the iteration that corrects by the residual preconditioned with the asynchronous SGS preconditioner multiplies the largest weighted error by at most rho if the backward sweeps start from zero and by at most rho^2 if they start from the result of the forward sweeps, for every number of sweeps from one on and for every schedule of the backward sweeps, even if no thread ever waits for another. With 2(2L-1) sweeps in which threads are at most L-1 sweeps apart it is rho^2 from both guesses. The same holds for blocks, also if threads see segments of which only some coefficients have been stored (with L sweeps). Such executions exist for every number of steps.", "quantifier": "all dominant matrices of any size and pattern, all block sizes, weights, right-hand sides, initial vectors and old contents of the output and the work vector, all numbers of sweeps and schedules, both initialisations", "why_tests_cant": "It is about all schedules at once, including those in which a thread sees only values from before the application, and about all sizes; tests observe few schedules, nearly all of them almost sequential.", "anchors": ["src/solverops_sgs.cpp: AsyncSGS_SRPreconditioner::apply, AsyncBlockSGS_SRPreconditioner::apply", "src/kernels/kernels_sgs.hpp: scalar_fgs, scalar_bgs, block_fgs, block_bgs"]}
{"id": "C102", "title": "Few asynchronous sweeps of the block triangular solves are good enough for block dominant matrices", "statement": "For every block matrix of any size, block size and pattern that is block dominant with ratio rho < 1 (for some positive weights of all unknowns), with or without symmetric scaling, the application of the block ILU(0) preconditioner with k asynchronous sweeps per triangular solve differs from the exact application by at most a constant times rho^k in the weighted maximum norm; the constant is 2 for the initialisation with zeros and involves the diagonal blocks for the Jacobi one, and neither depends on the number of rows, threads or on the schedule. With threads up to L-1 sweeps apart, k(2L-1) sweeps count as k. The iteration that corrects by the residual preconditioned in this way reduces the largest weighted error in every step by the factor rho + (2 + 4g) rho^k (1 + rho)/(1 - rho).", "quantifier": "all block dominant matrices of any size, block size and pattern, all weights, scalings, right-hand sides and old contents of the output and the work vector, all numbers of sweeps and schedules (reads of whole segments), both initialisations", "why_tests_cant": "The bound is uniform in the size and the schedule; a test runs a few sizes and nearly sequential schedules, for which few sweeps are already exact.", "anchors": ["src/solverops_ilu0.cpp: AsyncBlockILU0_SRPreconditioner::apply, block_ilu0_apply", "src/kernels/kernels_ilu_apply.hpp: block_unit_lower_triangular, block_upper_triangular"]}
{"id": "C103", "title": "Few asynchronous sweeps of the block triangular solves are good enough although threads see half-stored segments", "statement": "For every block matrix of any size, block size and pattern that is diagonally dominant by scalar rows with ratio rho < 1 (for some positive weights of all unknowns), with or without symmetric scaling, the application of the block ILU(0) preconditioner with k asynchronous sweeps per triangular solve differs from the exact application by at most a constant times rho^k in the weighted maximum norm, although a thread may read a segment of which another thread has stored only some coefficients and although the coefficients of one product may be computed from different versions of a segment. The constant is 2 (times a bound of the right-hand side) for the initialisation with zeros and involves the diagonal coefficients for the Jacobi one; it does not depend on the number of rows, the block size, the threads or the schedule. With threads up to L-1 sweeps apart, (k-1)(2L-1)+L sweeps count as k. The iteration that corrects by the residual preconditioned in this way reduces the largest weighted error in every step by the factor rho + (2 + 4g) rho^k (1 + rho)/(1 - rho).", "quantifier": "all block matrices of any size, block size and pattern that are dominant by scalar rows, all weights, scalings, right-hand sides and old contents of the output and the work vector, all numbers of sweeps and all schedules, at the granularity of single coefficients, both initialisations", "why_tests_cant": "Half-stored segments occur in rare interleavings only, and the bound is uniform in the size and the schedule; a test runs a few sizes and nearly sequential schedules.", "anchors": ["src/solverops_ilu0.cpp: AsyncBlockILU0_SRPreconditioner::apply, block_ilu0_apply", "src/kernels/kernels_ilu_apply.hpp: block_unit_lower_triangular, block_upper_triangular"]}
{"id": "C104", "title": "What the comparison of a BLASTed solver with one of PETSc accepts", "statement": "The comparison program ends normally exactly if the reference solve and every run converged, the recorded times are positive, the information about the preconditioner is present if and only if it was asked for (one entry more than runs, each acceptable), and, depending on the first 29 characters of the test type: for compare_its and issame the number of iterations of the reference is not zero and the mean number of iterations of the runs, rounded towards zero, differs from it by at most the tolerance relative to it; for upper_bound_its this rounded mean is below the number for the reference; for compare_error and issame the norm of the reference solution is not zero and the mean of the solutions differs from it by at most the tolerance relative to its norm; other types ask for nothing more. Negative parts: without a test type there is an exception although the program announces a default; with no runs the behaviour is undefined; because of the rounding, runs with more iterations than the reference pass with tolerance zero. The function that sets the numbers of asynchronous sweeps returns only if the library then reads these numbers, and changes no other option. The block size is 1 for the matrix types without blocks and that of the matrix for those with blocks; otherwise there is an exception.", "quantifier": "all options, tolerances, numbers of runs, results and times of all solves, lists of information, numbers of sweeps, matrix types and PETSc error codes", "why_tests_cant": "It is about what a passing test means; the test programs themselves only see the runs that happen.", "anchors": ["tests/testutils.cpp: runComparisonVsPetsc_cpp, compareSolverWithRef, set_blasted_sweeps, getBlockSize"]}
{"id": "C105", "title": "What the report of the thread-scaling test says", "statement": "If all repetitions of a setting converge, its line of the report has the mean wall times of setup and application (for a test: the quotients of the means of the reference by them), the mean CPU time, the standard deviation of the total wall times, the mean number of iterations rounded towards zero and the largest one. The report has one line for the reference and one for each number of threads asked for, in order. The parameters are read exactly if all options are there and readable, otherwise there is an exception. Negative parts: the number of threads of a setting is only printed: for any solver, however it depends on the number of threads that are really used, all lines after the first are the same apart from the column with the number of threads; if a repetition after the first fails, its iterations count in the sum but it does not count in the divisor, so that the reported average can exceed the reported maximum; without repetitions or if the first one fails the behaviour is undefined.", "quantifier": "all solvers as functions of the options and threads in use, all settings, lists of threads, numbers of repetitions and options", "why_tests_cant": "This is the measuring program itself; that its report does not depend on the requested number of threads is a statement about all solvers and settings.", "anchors": ["tests/perftest/perftesting.cpp: run_one_test, getTestParams, set_blasted_sweeps, std_deviation, writeTimingToFile", "tests/perftest/runperftest.cpp: main"]}
{"id": "C106", "title": "What the sweep tables and the C comparison of the tests say", "statement": "The program that runs a solver for several numbers of asynchronous sweeps writes two tables with one row for each number of sweeps of the factorization and one column for each number of sweeps of the application. Each entry is what its setting would give by itself, independently of the settings before it. If all runs of a setting converge, the entry is the mean number of iterations, rounded, and the relative standard deviation. Negative parts: if a run reaches the largest number of iterations, the runs so far including this one are averaged and nothing in the table tells it from a mean of converged runs; if run number k fails otherwise, the entry is -10^9/(k+1), not a fixed mark; without runs the behaviour is undefined. The comparison of a solver with PETSc in C accepts exactly the runs that converge with plausible times and satisfy the test asked for (iterations, upper bound, error).", "quantifier": "all solvers as functions of the options and the number of the run, all settings, numbers of runs and options", "why_tests_cant": "This is the test program itself: its result for every solver, setting and history of settings cannot be seen from its runs.", "anchors": ["tests/testutils.c: runComparisonVsPetsc, runPetsc", "tests/runpetscsolver.c: main"]}
{"id": "C107", "title": "Reading the control file of the Poisson problem", "statement": "A complete control file, whatever the white space and whatever follows, is read as it is meant: type of grid, numbers of points, first and last corner. A word in place of a number of points or a coordinate is refused with an exception. Negative parts: a file that ends too early, even an empty one, is accepted without an exception and everything that is missing stays uninitialised; a heading of 50 or more characters is written beyond the end of a buffer; a file that cannot be opened is undefined behaviour.", "quantifier": "all texts of the file, all conversions of real numbers", "why_tests_cant": "There are infinitely many files, and an uninitialised number or a buffer overflow need not be visible in a run.", "anchors": ["tests/poisson3d-fd/poisson_setup.cpp: readInputFile", "include/utils/cmdoptions.hpp: file_input_throw", "tests/poisson3d-fd/poisson_utils.hpp: MeshSpec"]}
{"id": "C108", "title": "Reports of repeated runs and the choice of the linear problem", "statement": "The program that runs a solver several times reports the mean number of iterations and the relative deviation from it if all runs converge, and prints its message about divergence exactly if some run fails; the average printed then is -100 divided by the number of runs asked for. An unreadable number of runs ends with the error code, a negative one in a failing assertion, zero gives a result that is not a number. The choice of the linear problem from the arguments uses the file names that follow the kind of problem; if the kind is the first argument it ends with a message exactly if names are missing. Negative parts: in its only use, where the kind is the second argument, missing names are passed on as null pointers; without the kind of problem the behaviour is undefined.", "quantifier": "all solvers as functions of the number of the run, all numbers of runs, all argument lists", "why_tests_cant": "These are the test programs themselves; their result for every outcome of the solves and every list of arguments cannot be seen from their runs.", "anchors": ["tests/runpetscsingle.c: main", "tests/poisson3d-fd/poisson_setup.cpp: generateDiscreteProblem", "tests/solverops/test_iter_prec_conv.cpp: main"]}
{"id": "C109", "title": "What the program for the convergence tests does", "statement": "With all arguments and options the program runs the test asked for, for block sizes 1 and 4, with exactly the parameters that the options give (the tolerance may be left out, the initialization is cut to 19 characters), and fails if the test fails by an exception or an assertion. Other block sizes and types of test, and a missing number of sweeps, give an exception; fewer than two arguments end with a message. Negative parts: an error code returned by the test is overwritten by that of the clean-up, so that any code counts as a success; the type of test named in the program's own message is refused.", "quantifier": "all tests, problems, argument lists and options", "why_tests_cant": "This is the test program itself: that no error code of a test can make it fail is a statement about all tests.", "anchors": ["tests/solverops/test_iter_prec_conv.cpp: main"]}
{"id": "C110", "title": "Which linear systems and runs the comparison program accepts", "statement": "A linear system is accepted exactly if its files can be loaded, each row has a diagonal entry and, if the product is checked and a solution is given, the sizes agree and the norm of A x - b is less than 500 times the unit of rounding; what is returned are the contents of the files. With all three files the program succeeds exactly if the system is accepted and the comparison in the language asked for succeeds; an error code of the clean-up is its exit status. Negative part: with missing files the exit status is that of a success.", "quantifier": "all files, norms, comparisons and argument lists", "why_tests_cant": "This is the test program itself: what it accepts is a statement about all systems and all comparisons.", "anchors": ["tests/testutils.c: readLinearSystemFromFiles", "tests/runpetsctest.c: main"]}
