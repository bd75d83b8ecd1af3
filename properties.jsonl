{"id": "C01", "title": "Matrix views alias exactly the parent's entries", "statement": "Entry (i,j) of slice/rows/cols/row/col/diag/transpose_view of a LegacyMatrix (either layout) is the same memory cell as the corresponding entry of the parent, every in-range access of the view is an in-range access of the parent, and views compose (a slice of a slice is a slice).", "quantifier": "all layouts, sizes, leading dimensions and in-range slice bounds", "why_tests_cant": "infinitely many shapes and nested views", "anchors": ["include/tlapack/plugins/legacyArray.hpp: slice, rows, cols, row, col, diag, transpose_view", "include/tlapack/LegacyMatrix.hpp: operator()"]}
{"id": "C02", "title": "Distinct indices are distinct memory cells inside the allocation", "statement": "For a constructible LegacyMatrix (ldim >= m resp. n) two different in-range index pairs never share a cell and every in-range cell lies below the last column/row end; the same holds inside the band of a LegacyBandedMatrix; row- and column-major agree through transpose_view.", "quantifier": "all shapes, strides, bands", "why_tests_cant": "address arithmetic must be right for every (i,j,ldim)", "anchors": ["include/tlapack/LegacyMatrix.hpp", "include/tlapack/LegacyBandedMatrix.hpp"]}
{"id": "C03", "title": "Vector slices and directions", "statement": "Element i of slice(v,{a,b}) is element a+i of v. (Holds for Direction::Forward; the code violates it for Direction::Backward.)", "quantifier": "all vectors, increments and slice bounds", "why_tests_cant": "a backward slice that is not centred is never exercised", "anchors": ["include/tlapack/plugins/legacyArray.hpp: slice(LegacyVector)", "include/tlapack/LegacyVector.hpp: operator[]"]}
{"id": "C04", "title": "reshape splits storage without overlap", "statement": "reshape(A,m,n)/reshape(A,n)/reshape(v,m,n)/reshape(v,n) either throws, or returns two views with all in-range cells distinct, each a cell of the original, the first having m*n (n) elements and the second at most the remaining number; a request not larger than a contiguous array never throws.", "quantifier": "all shapes, leading dimensions, both layouts, all requests", "why_tests_cant": "case analysis over contiguity and shape mismatch is never exhausted by tests", "anchors": ["include/tlapack/plugins/legacyArray.hpp: reshape"]}
{"id": "C05", "title": "Workspace requirement algebra", "statement": "WorkInfo::minMax yields a requirement at least as large as both arguments and operator+= one at least as large as the sum; neither drops a contiguity demand when both are non-empty, the empty requirement is neutral, and transpose keeps the size.", "quantifier": "all pairs of requirements", "why_tests_cant": "pairs of arbitrary shapes", "anchors": ["include/tlapack/base/workspace.hpp: WorkInfo"]}
{"id": "C06", "title": "Omitted beta means the old output contents are ignored", "statement": "The overloads without beta (StrongZero) give an output that does not depend on the previous contents of the output array, for any scalar type including NaN/Inf entries, and equal to the beta=0 result in exact arithmetic.", "quantifier": "all scalar types, sizes, operands and previous contents", "why_tests_cant": "needs every garbage content", "anchors": ["include/tlapack/base/StrongZero.hpp", "include/tlapack/blas/gemm.hpp: gemm", "include/tlapack/blas/gemv.hpp: gemv", "include/tlapack/blas/hemm.hpp", "include/tlapack/blas/herk.hpp"]}
{"id": "C07", "title": "Level-1 BLAS semantics", "statement": "copy, swap, scal, axpy, rot, conjugate update every element exactly as documented and nothing else; dot, dotu and asum return the documented sums; they never access out of range when sizes agree.", "quantifier": "all lengths and values", "why_tests_cant": "tests run a fixed list of sizes/seeds; the claim is for every size, every operand value and every option combination", "anchors": ["include/tlapack/blas/copy.hpp", "include/tlapack/blas/swap.hpp", "include/tlapack/blas/scal.hpp", "include/tlapack/blas/axpy.hpp", "include/tlapack/blas/dot.hpp", "include/tlapack/blas/dotu.hpp", "include/tlapack/blas/rot.hpp", "include/tlapack/blas/asum.hpp"]}
{"id": "C08", "title": "gemv computes alpha op(A) x + beta y", "statement": "For matching sizes gemv overwrites y by alpha*op(A)*x + beta*y, for op in {NoTrans, Trans, ConjTrans, Conj}, and modifies nothing else. (Violated when op(A) has zero columns and rows > 0: y is left unscaled.)", "quantifier": "all sizes, ops, scalars", "why_tests_cant": "tests run a fixed list of sizes/seeds; the claim is for every size, every operand value and every option combination", "anchors": ["include/tlapack/blas/gemv.hpp: gemv"]}
{"id": "C09", "title": "Rank-1 and rank-2 updates", "statement": "ger, geru, her, her2, syr, syr2 add the documented rank-1/2 term; the Hermitian/symmetric ones only write the selected triangle, and her/her2 leave a real diagonal.", "quantifier": "all sizes, scalars, triangles", "why_tests_cant": "tests run a fixed list of sizes/seeds; the claim is for every size, every operand value and every option combination", "anchors": ["include/tlapack/blas/ger.hpp", "include/tlapack/blas/geru.hpp", "include/tlapack/blas/her.hpp", "include/tlapack/blas/her2.hpp", "include/tlapack/blas/syr.hpp", "include/tlapack/blas/syr2.hpp"]}
{"id": "C10", "title": "hemv/symv use one triangle as the whole matrix", "statement": "hemv (symv) overwrites y by alpha*H*x + beta*y where H is the Hermitian (symmetric) matrix whose selected triangle is stored in A; the other triangle never influences the result.", "quantifier": "all sizes, triangles, contents of the other triangle", "why_tests_cant": "tests run a fixed list of sizes/seeds; the claim is for every size, every operand value and every option combination", "anchors": ["include/tlapack/blas/hemv.hpp", "include/tlapack/blas/symv.hpp"]}
{"id": "C11", "title": "trmv multiplies in place by op of a triangle", "statement": "trmv overwrites x by op(A)x with A the selected triangle (unit diagonal if asked); the rest of A never matters.", "quantifier": "all sizes, uplo, op, diag", "why_tests_cant": "tests run a fixed list of sizes/seeds; the claim is for every size, every operand value and every option combination", "anchors": ["include/tlapack/blas/trmv.hpp"]}
{"id": "C12", "title": "trsv solves the triangular system in place", "statement": "On exit op(A)*x_out = x_in whenever the used diagonal entries are nonzero (or unit); only the selected triangle of A matters; only x is written.", "quantifier": "all sizes, uplo, op, diag", "why_tests_cant": "tests run a fixed list of sizes/seeds; the claim is for every size, every operand value and every option combination", "anchors": ["include/tlapack/blas/trsv.hpp"]}
{"id": "C13", "title": "gemm computes alpha op(A) op(B) + beta C", "statement": "For matching sizes gemm overwrites C by alpha*op(A)*op(B)+beta*C for all nine op combinations and writes nothing outside C.", "quantifier": "all sizes, ops, scalars", "why_tests_cant": "tests run a fixed list of sizes/seeds; the claim is for every size, every operand value and every option combination", "anchors": ["include/tlapack/blas/gemm.hpp: gemm"]}
{"id": "C14", "title": "hemm/symm multiply by the matrix stored in one triangle", "statement": "hemm (symm) overwrites C by alpha*A*B+beta*C (left) or alpha*B*A+beta*C (right) with A the full Hermitian (symmetric) matrix given by one triangle; the other triangle never matters.", "quantifier": "all sizes, sides, triangles", "why_tests_cant": "tests run a fixed list of sizes/seeds; the claim is for every size, every operand value and every option combination", "anchors": ["include/tlapack/blas/hemm.hpp", "include/tlapack/blas/symm.hpp"]}
{"id": "C15", "title": "Rank-k and rank-2k updates", "statement": "herk, syrk, her2k, syr2k overwrite the selected triangle (whole matrix for General) of C by the documented rank-k/2k update and leave the other triangle untouched; herk/her2k leave a real diagonal.", "quantifier": "all sizes, ops, triangles, scalars", "why_tests_cant": "tests run a fixed list of sizes/seeds; the claim is for every size, every operand value and every option combination", "anchors": ["include/tlapack/blas/herk.hpp", "include/tlapack/blas/syrk.hpp", "include/tlapack/blas/her2k.hpp", "include/tlapack/blas/syr2k.hpp"]}
{"id": "C16", "title": "trmm multiplies in place by op of a triangle", "statement": "trmm overwrites B by alpha*op(A)*B or alpha*B*op(A) with A the selected (unit) triangle, for all side/uplo/op/diag combinations.", "quantifier": "all sizes and option combinations", "why_tests_cant": "tests run a fixed list of sizes/seeds; the claim is for every size, every operand value and every option combination", "anchors": ["include/tlapack/blas/trmm.hpp"]}
{"id": "C17", "title": "trsm solves the matrix triangular system in place", "statement": "On exit op(A)*X = alpha*B (left) or X*op(A) = alpha*B (right) for all side/uplo/op/diag combinations whenever the used diagonal is nonzero or unit.", "quantifier": "all sizes and option combinations", "why_tests_cant": "tests run a fixed list of sizes/seeds; the claim is for every size, every operand value and every option combination", "anchors": ["include/tlapack/blas/trsm.hpp"]}
{"id": "C18", "title": "Bad arguments are rejected before anything is written", "statement": "A BLAS call whose operand sizes or options are not admissible throws std::domain_error and leaves every operand unchanged; an admissible call never does, and performs no out-of-range access.", "quantifier": "all size tuples and option values", "why_tests_cant": "all combinations of mismatching sizes", "anchors": ["include/tlapack/base/exceptionHandling.hpp: tlapack_check", "include/tlapack/blas/*.hpp"]}
{"id": "C19", "title": "Descending loops over unsigned indices", "statement": "The idiom for(i=n-1; i!=idx_t(-1); --i) on an unsigned (wrapping) index visits exactly n-1,...,0 for every n representable, including n=0, and for(j=n; j-- > 0;) does the same.", "quantifier": "all n below 2^w, all word sizes w", "why_tests_cant": "wrap-around at 0 must be right for each n", "anchors": ["include/tlapack/blas/trsm.hpp", "include/tlapack/blas/trmv.hpp", "include/tlapack/lapack/getri.hpp"]}
{"id": "C20", "title": "iamax returns the first maximal entry with NaN/Inf priority", "statement": "With NaN checks iamax returns 0 for the empty vector, else the first NaN if any, else the first Inf if any, else the first index of maximal absolute value; without NaN checks NaNs are skipped; the result is always a valid index when n>0.", "quantifier": "all vectors over a scalar type with NaN and Inf, real or complex with overflowing absolute value", "why_tests_cant": "all positions of special values", "anchors": ["include/tlapack/blas/iamax.hpp: iamax_ec, iamax_nc"]}
{"id": "C21", "title": "lasrt sorts", "statement": "lasrt('I'/'D',n,d) returns 0, leaves d(0..n-1) sorted in the requested order and a permutation of the input, terminates and never reads outside [0,n); another id returns -1 and leaves d unchanged.", "quantifier": "all n and contents", "why_tests_cant": "quicksort partitions and stack depth depend on data", "anchors": ["include/tlapack/lapack/lasrt.hpp"]}
{"id": "C22", "title": "lamrg returns the merging permutation", "statement": "For two runs each sorted in the direction given by its stride, lamrg writes a permutation of 0..n1+n2-1 under which the data is ascending.", "quantifier": "all run lengths, directions and contents", "why_tests_cant": "all interleavings of two sorted runs", "anchors": ["include/tlapack/lapack/lamrg.hpp"]}
{"id": "C23", "title": "hasnan/hasinf scan exactly the declared region", "statement": "hasnan/hasinf return true iff some entry of the region selected by uplo/band is NaN/Inf, without reading outside the matrix. (Violated for Uplo::UpperHessenberg on matrices with n >= m: an out-of-range entry is read.)", "quantifier": "all shapes, regions, contents", "why_tests_cant": "out-of-range reads do not fail tests", "anchors": ["include/tlapack/lapack/hasnan.hpp", "include/tlapack/lapack/hasinf.hpp"]}
{"id": "C24", "title": "laset/lacpy write exactly the declared region", "statement": "laset writes alpha off and beta on the diagonal of the selected part, lacpy copies exactly the selected part; everything else is unchanged.", "quantifier": "all shapes and regions", "why_tests_cant": "tests run a fixed list of sizes/seeds; the claim is for every size, every operand value and every option combination", "anchors": ["include/tlapack/lapack/laset.hpp", "include/tlapack/lapack/lacpy.hpp"]}
{"id": "C25", "title": "Recursive transposition is exact", "statement": "transpose/conjtranspose set B(j,i) to (conj) A(i,j) for every i,j, for any block threshold nx >= 2, terminate, and change nothing else.", "quantifier": "all shapes and thresholds", "why_tests_cant": "recursion splits depend on size", "anchors": ["include/tlapack/lapack/transpose.hpp"]}
{"id": "C26", "title": "lascl scales by a/b", "statement": "lascl terminates and multiplies exactly the selected region by a/b (exact arithmetic), the rest is unchanged; b=0 is rejected. (UpperHessenberg accesses out of range as in hasnan.)", "quantifier": "all regions, shapes, a, b", "why_tests_cant": "the number of scaling passes depends on a and b", "anchors": ["include/tlapack/lapack/lascl.hpp"]}
{"id": "C27", "title": "rscl multiplies by the reciprocal", "statement": "rscl overwrites x by x/alpha for real and complex alpha != 0, whichever of the scaling branches is taken.", "quantifier": "all alpha and x, any safe-min/safe-max thresholds with product one", "why_tests_cant": "branch depends on magnitude", "anchors": ["include/tlapack/lapack/rscl.hpp"]}
{"id": "C28", "title": "Cholesky factorization is exact on success", "statement": "If potf2/potrf2 return 0 then A = L L^H (or U^H U) for the Hermitian matrix given by the selected triangle, with positive diagonal of the factor; the other triangle is untouched and never read.", "quantifier": "all sizes, both triangles, real and complex", "why_tests_cant": "tests run a fixed list of sizes/seeds; the claim is for every size, every operand value and every option combination", "anchors": ["include/tlapack/lapack/potf2.hpp", "include/tlapack/lapack/potrf2.hpp"]}
{"id": "C29", "title": "Cholesky failure code is the first non-positive leading minor", "statement": "potrf2 returns (or reports) info=k exactly when leading minors of order < k are positive definite and the k-th pivot is not positive; it succeeds on every positive definite matrix.", "quantifier": "all Hermitian inputs", "why_tests_cant": "needs all indefinite inputs", "anchors": ["include/tlapack/lapack/potrf2.hpp", "include/tlapack/lapack/potf2.hpp"]}
{"id": "C30", "title": "Blocked Cholesky variants agree with the unblocked one", "statement": "potrf_blocked (any nb >= 1) and potrf_rl produce a Cholesky factor of the same matrix, for every block size.", "quantifier": "all sizes and block sizes", "why_tests_cant": "size x block size combinations", "anchors": ["include/tlapack/lapack/potrf_blocked.hpp", "include/tlapack/lapack/potrf_blocked_right_looking.hpp"]}
{"id": "C31", "title": "LU with partial pivoting (level 0)", "statement": "If getrf_level0 returns 0 then applying the recorded row interchanges to the input gives L*U with L unit lower and U upper trapezoidal; every pivot index satisfies j <= piv[j] < m; the multipliers satisfy |l| <= 1 over the reals and |l| <= sqrt 2 over the complex numbers (pivots are chosen by |re|+|im|, so complex multipliers above 1 do occur); it returns 0 iff the first min(m,n) columns are linearly independent and otherwise j+1 where j is the first column that depends on its predecessors; only A and piv are written.", "quantifier": "all shapes and contents", "why_tests_cant": "tests run a fixed list of sizes/seeds; the claim is for every size, every operand value and every option combination", "anchors": ["include/tlapack/lapack/getrf_level0.hpp"]}
{"id": "C32", "title": "Recursive LU", "statement": "getrf_recursive satisfies the same contract as the level-0 algorithm: P*A = L*U on success, pivots in range, info 0 iff the leading columns are independent and otherwise the index of the first dependent one; both variants of getrf therefore return the same info.", "quantifier": "all shapes and contents", "why_tests_cant": "recursion shape depends on m,n", "anchors": ["include/tlapack/lapack/getrf_recursive.hpp"]}
{"id": "C33", "title": "Triangular inversion", "statement": "If all used diagonal entries are nonzero (or diag is Unit) trtri_recursive returns 0 and the selected triangle holds the inverse of the triangular matrix it held; the other triangle (and a unit diagonal) is untouched. Otherwise, k being the first zero diagonal entry, it returns k+1, or throws when errors are enabled (the code carried by the exception is always 1, a deviation from the documentation).", "quantifier": "all sizes, triangles, diag", "why_tests_cant": "tests run a fixed list of sizes/seeds; the claim is for every size, every operand value and every option combination", "anchors": ["include/tlapack/lapack/trtri_recursive.hpp"]}
{"id": "C34", "title": "In-place triangular products", "statement": "ul_mult overwrites a packed LU pair by U*L, lu_mult by L*U (any threshold nx), for every size n >= 1. (ul_mult does not terminate for n = 0.)", "quantifier": "all sizes and thresholds", "why_tests_cant": "n=0 recursion never terminates, never tested", "anchors": ["include/tlapack/lapack/ul_mult.hpp", "include/tlapack/lapack/lu_mult.hpp"]}
{"id": "C35", "title": "Matrix inversion from LU", "statement": "For n >= 1, getri after a successful getrf overwrites A by the inverse of the original matrix, for both variants (UXLI writes only A and its workspace). On a singular factor UXLI returns the index of the last zero diagonal entry, UILI the first one (throws when errors are enabled). On a 0x0 matrix neither variant works: UILI never returns, UXLI rejects its own workspace request.", "quantifier": "all nonsingular matrices", "why_tests_cant": "tests run a fixed list of sizes/seeds; the claim is for every size, every operand value and every option combination", "anchors": ["include/tlapack/lapack/getri.hpp", "include/tlapack/lapack/getri_uili.hpp", "include/tlapack/lapack/getri_uxli.hpp"]}
{"id": "C36", "title": "Solving and inverting with a Cholesky factor", "statement": "potrs overwrites B by the solution of A X = B given the Cholesky factor of A; potri overwrites the selected triangle of a positive definite A by that triangle of the inverse of A (its documentation says inverse of the factor), and throws with the order of the first non-positive-definite leading minor otherwise; nothing else is written.", "quantifier": "all sizes", "why_tests_cant": "tests run a fixed list of sizes/seeds; the claim is for every size, every operand value and every option combination", "anchors": ["include/tlapack/lapack/potrs.hpp", "include/tlapack/lapack/potri.hpp"]}
{"id": "C37", "title": "Householder reflector generation", "statement": "larfg, for both directions and storages, leaves tau and a reflector vector u (pivot entry counted as 1) such that H = I - tau u u^H is unitary and H^H a = beta e (Columnwise) resp. a H = beta e (Rowwise) for the input vector a; beta is real with |beta| the Euclidean norm of a; tau = 0 iff there is nothing to do, and otherwise 1 <= re tau <= 2 and |tau-1| <= 1; only the vector is written. The rescaling loop for tiny beta does not change this.", "quantifier": "all vectors over R and C, all lengths >= 1, any thresholds; entries at most blue_max (or none in (0,blue_min))", "why_tests_cant": "tests run a fixed list of sizes/seeds; the claim is for every size, every operand value and every option combination", "anchors": ["include/tlapack/lapack/larfg.hpp"]}
{"id": "C38", "title": "Application of reflectors", "statement": "larf overwrites C by H*C or C*H with H = I - tau u u^H, for all sides, directions and storages, also in the form taking the first row/column and the rest separately; unm2r, unm2l, unml2, unmr2 overwrite C by op(Q)*C or C*op(Q) for the product Q of the stored reflectors; only C and the workspace are written. (The split form mis-parses its size check: it rejects legitimate calls without columns and accepts wrong sizes.)", "quantifier": "all sizes, vectors, tau and numbers of reflectors", "why_tests_cant": "tests run a fixed list of sizes/seeds; the claim is for every size, every operand value and every option combination", "anchors": ["include/tlapack/lapack/larf.hpp", "include/tlapack/lapack/unmq_level2.hpp", "include/tlapack/lapack/unm2r.hpp"]}
{"id": "C39", "title": "QR, QL, LQ, RQ factorizations (unblocked) and generation of Q", "statement": "geqr2/geql2/gelq2/gerq2 overwrite A and tau so that the input is Q*R, Q*L, L*Q, R*Q, with Q the product of the stored reflectors (the one unm2*/ung2* use), unitary, and the triangular factor having a real diagonal; ung2r/ung2l/ungl2/ungr2 overwrite A by the first/last columns/rows of that Q; only A, the first min(m,n) entries of tau and the workspace are written.", "quantifier": "all shapes and contents over R and C with column (row) norms at most blue_max; any number k of reflectors", "why_tests_cant": "tests run a fixed list of sizes/seeds; the claim is for every size, every operand value and every option combination", "anchors": ["include/tlapack/lapack/geqr2.hpp", "include/tlapack/lapack/geql2.hpp", "include/tlapack/lapack/gelq2.hpp", "include/tlapack/lapack/gerq2.hpp", "include/tlapack/lapack/ungq_level2.hpp"]}
{"id": "C40", "title": "The unselected triangle is never referenced", "statement": "The BLAS routines with an uplo argument (trmv, trsv, trmm, trsm, hemv, symv, hemm, symm, her, her2, syr, syr2, herk, syrk, her2k, syr2k) and potf2, potrf (all variants), potrs, potri, trtri, lauum, mult_llh, mult_uhu, lacpy, hasnan/hasinf, lascl, lantr, lansy, lanhe, infnorm_{symmetric,hermitian,triangular}_colmajor, hetd2 neither look at nor change the entries outside the selected triangle (nor the diagonal when diag is Unit): result, exception and all other memory are independent of what is stored there.", "quantifier": "all contents of the unselected triangle, all scalar types and arithmetics, all arguments including erroneous ones and overlapping operands, also when the call throws", "why_tests_cant": "every content incl. NaN payloads", "anchors": ["include/tlapack/blas/*.hpp", "include/tlapack/lapack/potrf2.hpp", "include/tlapack/lapack/trtri_recursive.hpp"]}
{"id": "C41", "title": "Triangular products lauum, mult_llh, mult_uhu", "statement": "lauum_recursive overwrites the selected triangle by that of U*U^H resp. L^H*L; mult_llh by that of L*L^H and mult_uhu by that of U^H*U, for every threshold nx >= 1; the other triangle is untouched; mult_llh after a successful potf2 restores the matrix.", "quantifier": "all sizes, triangles and thresholds", "why_tests_cant": "recursion depth depends on size and threshold; result must not depend on it", "anchors": ["include/tlapack/lapack/lauum_recursive.hpp", "include/tlapack/lapack/mult_llh.hpp", "include/tlapack/lapack/mult_uhu.hpp"]}
{"id": "C42", "title": "Tridiagonal L D L^H factorization", "statement": "On a Hermitian tridiagonal matrix pttrf returns 0 exactly when it is positive definite, and then L*D*L^H is the input with L unit lower bidiagonal and D positive; otherwise it returns (throws) the order of the first leading minor that is not positive definite; only D and E are written.", "quantifier": "all orders and contents", "why_tests_cant": "needs all indefinite inputs", "anchors": ["include/tlapack/lapack/pttrf.hpp"]}
{"id": "C43", "title": "Euclidean norms", "statement": "nrm2 returns the Euclidean norm and lassq updates a scaled sum of squares exactly, whichever of Blue's accumulators the entries fall into, provided no entry exceeds blue_max or no nonzero entry is below blue_min; otherwise exactly the entries below blue_min are left out, however many there are. lapy2, lapy3 return sqrt(x^2+y^2), sqrt(x^2+y^2+z^2).", "quantifier": "all lengths and contents, any thresholds", "why_tests_cant": "branch depends on magnitudes of all entries", "anchors": ["include/tlapack/lapack/lassq.hpp", "include/tlapack/blas/nrm2.hpp", "include/tlapack/lapack/lapy2.hpp", "include/tlapack/lapack/lapy3.hpp"]}
{"id": "C44", "title": "Calls are confined to their operands", "statement": "Every modelled routine (copy, swap, scal, axpy, dot, dotu, rot, rotm, iamax, gemv, ger, geru, gemm, transpose, laset, getrf, getri, ul_mult, lu_mult, pttrf, nrm2, larfg, larf, geqr2/geql2/gelq2/gerq2, ung2*, unm2*, larft, larfb, geqrf/geqlf/gelqf/gerqf, ung*, unm*, gehd2, unghr, unmhr, gebd2, ungtr, lange, infnorm_colmajor) reads no memory outside its operands and workspace and writes no memory outside its output operands and workspace; its result or exception is a function of the operands' contents. Calls with disjoint outputs and unrelated inputs therefore cannot influence one another.", "quantifier": "all arguments including wrong sizes, overlapping operands and failing calls; any scalar type and arithmetic; any strides", "why_tests_cant": "a stray access may hit memory no test looks at", "anchors": ["include/tlapack/blas/*.hpp", "include/tlapack/lapack/*.hpp"]}
{"id": "C45", "title": "Block reflectors", "statement": "larft computes a triangular T with I - V T V^H equal to the product of the k stored reflectors, for both directions and storages, writing only that triangle of T (also when some tau are zero or V is longer than needed); larfb overwrites C by op(H)*C or C*op(H) with H = I - V T V^H for any T, writing only C and the workspace. (larfb mis-parses its shape check: ncols(V)==k is not enforced on the right.)", "quantifier": "all sizes, sides, directions, storages, ops, contents over R and C", "why_tests_cant": "tests run a fixed list of sizes/seeds; the claim is for every size, every operand value and every option combination", "anchors": ["include/tlapack/lapack/larft.hpp", "include/tlapack/lapack/larfb.hpp"]}
{"id": "C46", "title": "Blocked QR, QL, LQ, RQ factorizations", "statement": "geqrf/geqlf/gelqf/gerqf satisfy, for every block size >= 1 and with the workspace they request, the same contract as the unblocked routines: input = Q*R (Q*L, L*Q, R*Q), Q the unitary product of the stored reflectors, triangular factor with real diagonal; only A, the first min(m,n) entries of tau and the workspace are written. (Block size 0 never returns on a non-empty matrix.)", "quantifier": "all shapes, contents and block sizes", "why_tests_cant": "size x block size combinations, last partial block", "anchors": ["include/tlapack/lapack/geqrf.hpp", "include/tlapack/lapack/geqlf.hpp", "include/tlapack/lapack/gelqf.hpp", "include/tlapack/lapack/gerqf.hpp"]}
{"id": "C47", "title": "Blocked application and generation of Q", "statement": "unmqr/unmql/unmlq/unmrq overwrite C by op(Q)*C or C*op(Q) for every block size >= 1 (any two block sizes and the unblocked routine give the same C); ungqr/ungql/unglq/ungrq overwrite A by the first/last columns/rows of Q, for every block size and number k >= 1 of reflectors; only the output and the workspace are written. (With k = 0 the forward ungq divides by zero.)", "quantifier": "all shapes, block sizes, numbers of reflectors, sides, ops", "why_tests_cant": "size x block size combinations", "anchors": ["include/tlapack/lapack/unmq.hpp", "include/tlapack/lapack/ungq.hpp"]}
{"id": "C48", "title": "Matrix norms", "statement": "lange, lantr, lansy, lanhe return the max, one, infinity or Frobenius norm of the general, (unit) triangular/trapezoidal, symmetric, Hermitian matrix their arguments describe (0 if empty), writing nothing; for the first three norms and any floating point type whose sums of nonnegative numbers are NaN only if a summand is, the result is NaN exactly when one of the entries looked at is NaN, wherever it sits; the two norm is rejected.", "quantifier": "all shapes and contents; Frobenius: norm at most blue_max or no nonzero entry below blue_min", "why_tests_cant": "position of NaN or of the maximum, rows/columns beyond the diagonal of a trapezoid", "anchors": ["include/tlapack/lapack/lange.hpp", "include/tlapack/lapack/lantr.hpp", "include/tlapack/lapack/lansy.hpp", "include/tlapack/lapack/lanhe.hpp"]}
{"id": "C49", "title": "Infinity norms with workspace", "statement": "infnorm_colmajor_work, infnorm_symmetric_colmajor_work, infnorm_hermitian_colmajor_work (real types) return the infinity norm and write only the workspace; infnorm_triangular_colmajor_work does so when ncols <= nrows and the matrix is not unit lower triangular (with more columns than rows it writes past the end of its vector, for a unit lower triangular matrix it skips the first column).", "quantifier": "all shapes and contents", "why_tests_cant": "tests run a fixed list of sizes/seeds; the claim is for every size, every operand value and every option combination", "anchors": ["include/tlapack/lapack/infnorm_colmajor.hpp", "include/tlapack/lapack/infnorm_symmetric_colmajor.hpp", "include/tlapack/lapack/infnorm_hermitian_colmajor.hpp", "include/tlapack/lapack/infnorm_triangular_colmajor.hpp"]}
{"id": "C50", "title": "Complex division", "statement": "In exact arithmetic ladiv returns x/y for every nonzero y, whichever scaling and branch it takes; only y = 0 leads to a division by zero.", "quantifier": "all complex x, y; any overflow/underflow thresholds", "why_tests_cant": "branches depend on magnitudes, signs and exact equalities that random inputs never produce", "anchors": ["include/tlapack/lapack/ladiv.hpp"]}
{"id": "C51", "title": "Symmetric 2x2 eigenproblem", "statement": "lae2 returns the two eigenvalues of [a b; b c], the one of larger absolute value first; laev2 also returns a rotation [cs sn; -sn cs] that diagonalizes the matrix with these eigenvalues in this order. Neither ever divides by zero (exact arithmetic).", "quantifier": "all real a, b, c", "why_tests_cant": "branches depend on magnitudes, signs and exact equalities that random inputs never produce", "anchors": ["include/tlapack/lapack/lae2.hpp", "include/tlapack/lapack/laev2.hpp"]}
{"id": "C52", "title": "Singular values and vectors of a 2x2 triangle", "statement": "singularvalues22 returns the two singular values of [f g; 0 h] in ascending order. svd22 returns rotations with [csl snl; -snl csl] [f g; 0 h] [csr -snr; snr csr] = diag(ssmax, ssmin), |ssmin| <= |ssmax|, exactly unless g exceeds f and h by more than 1/eps, and otherwise up to 2 eps^2 |g|. No division by zero (exact arithmetic).", "quantifier": "all real f, g, h and eps > 0", "why_tests_cant": "branches depend on magnitudes, signs and exact equalities that random inputs never produce", "anchors": ["include/tlapack/lapack/singularvalues22.hpp", "include/tlapack/lapack/svd22.hpp"]}
{"id": "C53", "title": "Generation of plane rotations", "statement": "rotg and lartg, real and complex, return a unitary [c s; -conj(s) c] with real c that maps (a,b) to (r,0), for every a, b including zeros and whatever scaling branch is taken; from the scalar that real rotg leaves in b the rotation is recovered as documented (z=1: (0,1); |z|<1: (sqrt(1-z^2), z); |z|>1: (1/z, sqrt(1-c^2))). Exact arithmetic.", "quantifier": "all a, b; any positive thresholds", "why_tests_cant": "branches depend on magnitudes, signs and exact equalities that random inputs never produce", "anchors": ["include/tlapack/blas/rotg.hpp", "include/tlapack/blas/lartg.hpp"]}
{"id": "C54", "title": "Modified plane rotations", "statement": "rotm multiplies each pair (x_i, y_i) by the 2x2 matrix H that its flag and h stand for and writes nothing else. For d1 > 0 and d2*b*b >= 0 or |d2*b*b| < |d1*a*a|, rotmg terminates with weights within (2^-24, 2^24) and, if at most one weight needs at most one rescaling pass, H(a,b) = (a',0) and H^T D' H = D. (With two passes the off-diagonal entries of H are overwritten and H no longer eliminates b.)", "quantifier": "all vectors, flags, weights and a, b (exact arithmetic)", "why_tests_cant": "branches depend on magnitudes, signs and exact equalities that random inputs never produce", "anchors": ["include/tlapack/blas/rotm.hpp", "include/tlapack/blas/rotmg.hpp"]}
{"id": "C55", "title": "Nonsymmetric 2x2 eigenproblem", "statement": "lahqr_eig22 returns the two eigenvalues (with multiplicity) of any real or complex 2x2 matrix. lahqr_schur22 returns a rotation bringing a real 2x2 matrix to standard Schur form and its eigenvalues, when the diagonal entries differ or bc <= 0, and b + c is nonzero or c = 0 or the diagonal entries are equal, and the discriminant is nonzero. (Outside: a = d with bc > 0 divides by zero; b = -c with complex eigenvalues and a != d gives cs^2+sn^2 = 1/2; a zero discriminant with |b| < |c| gives a lower triangular result.) lahqr_shiftcolumn returns a positive multiple of the first column of (H - s1 I)(H - s2 I).", "quantifier": "all 2x2 (3x3) matrices and shifts, exact arithmetic", "why_tests_cant": "branches depend on magnitudes, signs and exact equalities that random inputs never produce", "anchors": ["include/tlapack/lapack/lahqr_eig22.hpp", "include/tlapack/lapack/lahqr_schur22.hpp", "include/tlapack/lapack/lahqr_shiftcolumn.hpp"]}
{"id": "C56", "title": "Rank-one update of a 2x2 diagonal matrix", "statement": "For d0 < d1, rho > 0 and nonzero z0, z1, laed5 returns the i-th eigenvalue of D + rho*z*z^T, strictly interlaced (d0 < lambda_0 < d1 < lambda_1), with a unit eigenvector. Exact arithmetic, no division by zero.", "quantifier": "all such d, z, rho", "why_tests_cant": "branches depend on magnitudes, signs and exact equalities that random inputs never produce", "anchors": ["include/tlapack/lapack/laed5.hpp"]}
{"id": "C57", "title": "Vector of the inverse reflector", "statement": "inv_house3 builds its reflector from a nonzero vector that the first two rows of A annihilate (so that it zeroes the first column from the right), up to safemin when the last two columns or, after a column swap, the second pivot are negligible. (With a negligible second pivot and no column swap the vector is wrong: its residual is (u11^2-u12^2)/u11.)", "quantifier": "all 2x3 real matrices, exact arithmetic", "why_tests_cant": "branches depend on magnitudes, signs and exact equalities that random inputs never produce", "anchors": ["include/tlapack/lapack/inv_house3.hpp"]}
{"id": "C58", "title": "Reduction to Hessenberg form", "statement": "For 0 <= ilo < ihi <= n and a square matrix that is already upper triangular outside rows and columns ilo..ihi-1, gehd2 overwrites A by H (upper Hessenberg, below it the reflectors) with input = Q*H*Q^H, Q unitary and equal to the identity outside ilo+1..ihi-1; only A, tau and the workspace are written. (An empty matrix raises an error; ihi = 0 reads out of range.)", "quantifier": "all sizes, ranges and contents over R and C with norm at most blue_max", "why_tests_cant": "tests run a fixed list of sizes/seeds; the claim is for every size, every operand value and every option combination", "anchors": ["include/tlapack/lapack/gehd2.hpp"]}
{"id": "C59", "title": "Generating and applying the Hessenberg factor", "statement": "unghr turns the output of gehd2 into the unitary matrix Q itself; unmhr overwrites C by op(Q)*C or C*op(Q) from the stored reflectors; nothing but the output and the workspace is written.", "quantifier": "all sizes, ranges, sides, ops and contents", "why_tests_cant": "tests run a fixed list of sizes/seeds; the claim is for every size, every operand value and every option combination", "anchors": ["include/tlapack/lapack/unghr.hpp", "include/tlapack/lapack/unmhr.hpp"]}
{"id": "C60", "title": "Reduction to bidiagonal form", "statement": "gebd2 overwrites A by a real upper (m >= n) or lower (m < n) bidiagonal B and the reflectors of unitary Q and Z with input = Q*B*Z^H; only A, tauv, tauw and the workspace are written.", "quantifier": "all shapes and contents over R and C with norm at most blue_max", "why_tests_cant": "tests run a fixed list of sizes/seeds; the claim is for every size, every operand value and every option combination", "anchors": ["include/tlapack/lapack/gebd2.hpp"]}
{"id": "C61", "title": "Reduction of a Hermitian matrix to tridiagonal form", "statement": "hetd2 overwrites the selected triangle of A by a real symmetric tridiagonal T and the reflectors of a unitary Q with (Hermitian input) = Q*T*Q^H; the other triangle is neither read nor written; ungtr turns this output into Q itself.", "quantifier": "all sizes >= 1, both triangles, all contents over R and C with norm at most blue_max", "why_tests_cant": "tests run a fixed list of sizes/seeds; the claim is for every size, every operand value and every option combination", "anchors": ["include/tlapack/lapack/hetd2.hpp", "include/tlapack/lapack/ungtr.hpp"]}
{"id": "C62", "title": "Out-of-place triangular multiplication", "statement": "trmm_out (transA = NoTrans) computes C := alpha*tri(A)*op(B) + beta*C or alpha*op(B)*tri(A) + beta*C, where tri(A) is the selected triangle (unit or not), writes only C and reads only that triangle of A. (For an empty A it never returns.)", "quantifier": "all nonempty A, all B, sides, triangles, diagonals, ops on B and contents (exact arithmetic)", "why_tests_cant": "branches depend on magnitudes, signs and exact equalities that random inputs never produce", "anchors": ["include/tlapack/lapack/trmm_out.hpp"]}
{"id": "C63", "title": "Triangular solve with a triangular right-hand side", "statement": "trsm_tri overwrites the triangle uploB of B with the triangular X such that op(A)*X = alpha*tri(B) (or X*op(A)), leaving the other triangle of B and the other triangle of A untouched. (For n = 0 it never returns.)", "quantifier": "all n > 0, sides, triangles, ops, diagonals and contents with nonzero diagonal of A", "why_tests_cant": "branches depend on magnitudes, signs and exact equalities that random inputs never produce", "anchors": ["include/tlapack/lapack/trsm_tri.hpp"]}
{"id": "C64", "title": "Triangle of a matrix product", "statement": "gemmtr computes one triangle of alpha*op(A)*op(B) + beta*C and neither reads nor writes the other triangle of C. (Its size check accepts a C with only one wrong dimension: then it runs out of range.)", "quantifier": "all sizes, ops, triangles and contents", "why_tests_cant": "branches depend on magnitudes, signs and exact equalities that random inputs never produce", "anchors": ["include/tlapack/lapack/gemmtr.hpp"]}
{"id": "C65", "title": "Hermitian products with an operation on the other factor", "statement": "hemm2 computes C := alpha*A*op(B) + beta*C or alpha*op(B)*A + beta*C for a Hermitian A held in one triangle; mult_hehe computes alpha*A*B + beta*C for two Hermitian matrices held in one triangle each. Only C is written, the other triangles are not read. (uplo = General is accepted but silently uses one triangle, which one depends on side and op; mult_hehe reads A(0,0) of an empty matrix.)", "quantifier": "all sizes, sides, ops, triangles and contents", "why_tests_cant": "branches depend on magnitudes, signs and exact equalities that random inputs never produce", "anchors": ["include/tlapack/lapack/hemm2.hpp", "include/tlapack/lapack/mult_hehe.hpp"]}
{"id": "C66", "title": "Blocked triangular multiplication", "statement": "trmm_blocked_mixed, for Left, Upper, NoTrans, overwrites B by alpha*triu(A)*B for every positive block size, writing only B and the workspace. (All other combinations, which its checks and documentation accept, end in an error.)", "quantifier": "all sizes, block sizes, diagonals and contents", "why_tests_cant": "branches depend on magnitudes, signs and exact equalities that random inputs never produce", "anchors": ["include/tlapack/lapack/trmm_blocked_mixed.hpp"]}
{"id": "C67", "title": "Sequences of plane rotations", "statement": "rot_sequence applies all m-1 (or n-1) rotations: Left computes P*A, Right A*P^H, where P = P(0)P(1)...P(k-1) for Forward and P(k-1)...P(0) for Backward (the documentation states the two directions the other way round), independently of the storage order and of the fused loop nest chosen; only A is written. (A matrix without rows/columns in the rotated direction is rejected.)", "quantifier": "all shapes, sides, directions, storage orders and contents", "why_tests_cant": "branches depend on magnitudes, signs and exact equalities that random inputs never produce", "anchors": ["include/tlapack/lapack/rot_sequence.hpp"]}
{"id": "C68", "title": "RQ factorization of a rotated triangular matrix", "statement": "hessenberg_rq takes an upper triangular T and rotations cl, sl, and returns rotations cr, sr (real cosines, c^2+|s|^2 = 1) and an upper triangular T' with T' = L*T*R^H, L and R the products of the rotations; only T, cr, sr are written. (An empty T is accessed out of range.)", "quantifier": "all n >= 1, all contents over R and C", "why_tests_cant": "branches depend on magnitudes, signs and exact equalities that random inputs never produce", "anchors": ["include/tlapack/lapack/hessenberg_rq.hpp", "include/tlapack/blas/rotg.hpp"]}
{"id": "C69", "title": "Reduction of a pencil to Hessenberg-triangular form", "statement": "gghrd transforms (A, triu(B)) by unitary U, V into (A', B') with A = U*A'*V^H, triu(B) = U*B'*V^H, A' upper Hessenberg, B' upper triangular, accumulates Q*U and Z*V when asked, preserves the generalized eigenvalues, and does not touch Q and Z when they are not wanted. (Sizes of unwanted Q, Z are checked nevertheless.)", "quantifier": "all n, ilo < ihi <= n, wantq, wantz, all contents over R and C", "why_tests_cant": "branches depend on magnitudes, signs and exact equalities that random inputs never produce", "anchors": ["include/tlapack/lapack/gghrd.hpp", "include/tlapack/blas/rotg.hpp", "include/tlapack/blas/rot.hpp"]}
{"id": "C70", "title": "Tikhonov-regularised least squares", "statement": "tik_qr returns in the first n rows of b the X with (A^H A + lambda^2 I) X = A^H B, the unique minimiser of |A x - b|^2 + lambda^2 |x|^2 for every right-hand side; tkhnv rejects A with fewer rows than columns and mismatched b.", "quantifier": "all shapes with m >= n, all lambda and contents with lambda nonzero or A of full column rank, column norms at most blue_max", "why_tests_cant": "tests run a fixed list of sizes/seeds; the claim is for every size, every operand value and every option combination", "anchors": ["include/tlapack/lapack/tik_qr.hpp", "include/tlapack/lapack/tkhnv.hpp"]}
{"id": "C71", "title": "Symmetric tridiagonal eigenvalue problem", "statement": "steqr either divides by zero or returns 0 and, when the off-diagonal has converged to zero, d holds in ascending order the eigenvalues of T + E with |E|_F <= (n-1)*sqrt(2(ulp^2 |T|_F^2 + safmin)), with an orthogonal Q such that T + E = Q diag(d) Q^T and Z becomes Z*Q (Z untouched if not wanted); order <= 2 always succeeds and converges. (Violated: T with constant diagonal of order >= 3 divides by zero; the documented positive code for non-convergence is never returned.)", "quantifier": "all n >= 1, all d, e, all Z (real or complex), both values of want_z; exact real arithmetic with the code's own deflation thresholds", "why_tests_cant": "tests run a fixed list of sizes/seeds; the claim is for every size, every operand value and every option combination", "anchors": ["include/tlapack/lapack/steqr.hpp", "include/tlapack/lapack/lae2.hpp", "include/tlapack/lapack/laev2.hpp", "include/tlapack/lapack/lartg.hpp"]}
{"id": "C72", "title": "Unitary factors of the bidiagonal reduction", "statement": "ungbr_q and ungbr_p overwrite the output of gebd2 with the unitary factors Q and P^H of A = Q B P^H (all of them when square, the leading columns / rows otherwise), for both orientations (m >= k and m < k; k >= n and k < n), write only A and the workspace and return 0. (Violated: an empty matrix is accessed out of range.)", "quantifier": "all shapes, block sizes >= 1, contents over R and C", "why_tests_cant": "branches depend on magnitudes, signs and exact equalities that random inputs never produce", "anchors": ["include/tlapack/lapack/ungbr.hpp", "include/tlapack/lapack/ungq.hpp"]}
{"id": "C73", "title": "Blocked LQ factorization keeping the triangular factors", "statement": "gelqt factors an m-by-n matrix with m <= n as A = L Q with L the lower triangle left in A (real diagonal), Q unitary and given by the reflectors left in A whose scalars are the diagonals of the blocks of TT; each row block of TT holds the triangular factor T of the block reflector I - U T U^H made of the reflectors of that panel; only A, TT and the workspace are written and 0 is returned. (Violated: with m > n the rows below the last panel are never updated, so A is not L Q.)", "quantifier": "all m <= n, all block sizes >= 1, all contents over R and C with row norms at most blue_max", "why_tests_cant": "branches depend on magnitudes, signs and exact equalities that random inputs never produce", "anchors": ["include/tlapack/lapack/gelqt.hpp", "include/tlapack/lapack/gelq2.hpp", "include/tlapack/lapack/larft.hpp", "include/tlapack/lapack/larfb.hpp"]}
{"id": "C74", "title": "Recursive QR factorization with its triangular factor", "statement": "geqrt3 factors an m-by-n matrix with m >= n as A = Q R with R the upper triangle left in A (real diagonal), Q unitary and the product of the reflectors left in A whose scalars are the diagonal of T, and, unless T is declared a workspace, the upper triangle of T is the factor with Q = I - U T U^H; only A, the upper triangle of T and internal workspace are written, whatever the switch point between recursion and blocked code. (A with m < n is returned unchanged without an error.)", "quantifier": "all m >= n, all switch points nx, all block sizes >= 1, all contents over R and C with column norms at most blue_max", "why_tests_cant": "branches depend on magnitudes, signs and exact equalities that random inputs never produce", "anchors": ["include/tlapack/lapack/geqrt3.hpp", "include/tlapack/lapack/geqrf.hpp", "include/tlapack/lapack/larft.hpp"]}
{"id": "C75", "title": "Blocked reduction to Hessenberg form", "statement": "gehrd, whatever the block size and crossover point, reduces a square matrix to upper Hessenberg form by a unitary similarity: A = Q H Q^H with Q the product of the reflectors left below the subdiagonal and in tau, Q unitary, computed subdiagonal real; only A, entries ilo..ihi-2 of tau and the workspace are written and 0 is returned: the contract of the unblocked gehd2. (Violated: with the documented n-1 entries of tau and ihi = n the blocked code slices tau out of range; n = 0 is rejected.)", "quantifier": "all n >= 1, all ilo < ihi <= n, all block sizes >= 1 and crossover points, all contents over R and C with Frobenius norm at most blue_max", "why_tests_cant": "branches depend on magnitudes, signs and exact equalities that random inputs never produce", "anchors": ["include/tlapack/lapack/gehrd.hpp", "include/tlapack/lapack/lahr2.hpp", "include/tlapack/lapack/gehd2.hpp", "include/tlapack/lapack/larfb.hpp"]}
{"id": "C76", "title": "Blocked reduction to bidiagonal form", "statement": "gebrd, whatever the block size, reduces an m-by-n matrix to real bidiagonal form by unitary transformations: A = Q B Z^H with B upper bidiagonal when m >= n and lower bidiagonal otherwise, Q and Z the products of the reflectors left in the columns and rows of A with the scalars in tauv and tauw, both unitary; only A, tauv, tauw and the workspace are written and 0 is returned: the contract of the unblocked gebd2. (Violated: a block size of 0 makes it read outside of A.)", "quantifier": "all m, n, all block sizes >= 1, all contents over R and C with Frobenius norm at most blue_max", "why_tests_cant": "branches depend on magnitudes, signs and exact equalities that random inputs never produce", "anchors": ["include/tlapack/lapack/gebrd.hpp", "include/tlapack/lapack/labrd.hpp", "include/tlapack/lapack/gebd2.hpp"]}
{"id": "C77", "title": "Level-2 and blocked variants obey one contract", "statement": "householder_qr, householder_lq, householder_ql, householder_rq, householder_q_mul, gen_householder_q, hessenberg and bidiag give, for either variant and every positive block size, the same guarantee: the factorization, product, unitary factor or reduction of the documentation, return 0, write nothing but the arguments and the workspace, and the workspace size reported for the variant suffices.", "quantifier": "all shapes, both variants, all block sizes >= 1, all contents over R and C with norms at most blue_max", "why_tests_cant": "branches depend on magnitudes, signs and exact equalities that random inputs never produce", "anchors": ["include/tlapack/lapack/householder_qr.hpp", "include/tlapack/lapack/householder_lq.hpp", "include/tlapack/lapack/householder_ql.hpp", "include/tlapack/lapack/householder_rq.hpp", "include/tlapack/lapack/householder_q_mul.hpp", "include/tlapack/lapack/gen_householder_q.hpp", "include/tlapack/lapack/hessenberg.hpp", "include/tlapack/lapack/bidiag.hpp"]}
{"id": "C78", "title": "Wavefront application of many rotation sequences", "statement": "rot_sequence3 gives exactly the result of applying its l rotation sequences one after the other: A := Q(l-1)...Q(0) A (Left) or A (Q(l-1)...Q(0))^H (Right), for both directions, both storage orders, every number of sequences (odd or even, more or fewer than rotations per sequence), and writes nothing but A. (Violated: Left, Forward and more than 256 columns apply the start-up rotations once per block of 256 columns.)", "quantifier": "all shapes and numbers of sequences (Left/Forward: at most 256 columns when the wavefront code is used), both layouts, all contents over every field with conjugation", "why_tests_cant": "tests run a fixed list of sizes/seeds; the claim is for every size, every operand value and every option combination", "anchors": ["include/tlapack/lapack/rot_sequence3.hpp", "include/tlapack/lapack/rot_sequence.hpp"]}
{"id": "C79", "title": "Reordering a triangular Schur form", "statement": "On an upper triangular A, schur_swap exchanges diagonal entries j0 and j0+1 and schur_move moves diagonal entry ifst to position ilst (shifting those in between), each by a unitary similarity A = U A' U^H with A' upper triangular and Q' = Q U (so Q' A' Q'^H = Q A Q^H); all other diagonal entries are kept, the return value is 0, ifst and ilst are unchanged, and Q is neither written nor required to be separate from A when it is not wanted. (Violated: for complex matrices j0 = n-1 passes the argument check and A is accessed out of range.)", "quantifier": "all n, all j0 < n-1, all ifst, ilst < n, all contents over R and C (repeated eigenvalues included)", "why_tests_cant": "tests run a fixed list of sizes/seeds; the claim is for every size, every operand value and every option combination", "anchors": ["include/tlapack/lapack/schur_swap.hpp", "include/tlapack/lapack/schur_move.hpp"]}
{"id": "C80", "title": "lahqr computes a Schur form backward stably", "statement": "For a complex matrix that is block triangular at ilo and ihi and Hessenberg in between, lahqr ends after at most 30 max(10, nh) sweeps, and there are a unitary U and a matrix H with ||A - U H U^H||_F <= 60 max(10, nh) max(small, 3 eps ||A||_F) such that Z' = Z U, A' = H if the Schur form is wanted, rows i, ..., ihi-1 of H are upper triangular and w(i..ihi-1) is its diagonal, where i = ilo for return code 0 and i is the return code otherwise; with ilo = 0, ihi = n and code 0, w holds exactly the eigenvalues of a matrix within that distance of A, whether or not the Schur form is wanted; nothing but A, w and Z is written. (Violated: if ihi = n, the deflation test can read A(n, n-1), one row below the matrix.)", "quantifier": "all n, ilo <= ihi <= n, all contents, want_t and want_z, all deflation decisions and shifts the code can take, and every number of iterations", "why_tests_cant": "branches depend on magnitudes, signs and exact equalities that random inputs never produce", "anchors": ["include/tlapack/lapack/lahqr.hpp", "include/tlapack/lapack/lahqr_eig22.hpp"]}
{"id": "C81", "title": "svd_qr computes the SVD of a bidiagonal matrix backward stably", "statement": "For every real bidiagonal B of order n (upper or lower, any entries), svd_qr never divides by zero or accesses out of range; it returns after at most 30 n iterations, and there are orthogonal P, Q and an upper bidiagonal B' with B + E = P B' Q, ||E||_F <= (n-1) max(n safmin, 100 eps ||B||_F), the first n columns of U are multiplied by P and the first n rows of Vt by Q (if wanted; up to positive column resp. row scalings whose squares are within 2 eps^2 of 1), nothing else is written. Either the code is 0 and B' is diagonal, non-negative and sorted from largest to smallest, or n >= 3, the iteration limit was hit and the off-diagonal of B' vanishes from the returned index on. (Observed: the limit path returns istop without fixing signs or sorting, and istop can be 0 or 1.)", "quantifier": "all n, both shapes, all entries, all combinations of wanted vectors, every course of the iteration, over R and C for U and Vt", "why_tests_cant": "branches depend on magnitudes, signs and exact equalities that random inputs never produce", "anchors": ["include/tlapack/lapack/svd_qr.hpp", "include/tlapack/lapack/svd22.hpp", "include/tlapack/lapack/singularvalues22.hpp"]}
{"id": "C82", "title": "gesvd computes the singular value decomposition of a general matrix backward stably", "statement": "For every nonempty m-by-n matrix A (either shape, any choice of wanted factors, k = min(m,n)), gesvd never divides by zero or accesses out of range and writes nothing but A, U, Vt and its own memory; there are unitary W, X and a matrix S that is zero outside of an upper bidiagonal leading k-by-k block with A + E = W S X, ||E||_F <= (k-1) max(k safmin, 100 eps ||A||_F), the columns of U are the first columns of W and the rows of Vt the first rows of X (up to positive scalings whose squares are within 2 eps^2 of 1). Either the code is 0 and S is diagonal, non-negative and sorted from largest to smallest, or k >= 3, the iteration limit was hit and the off-diagonal of S vanishes from the returned index on; for k <= 2 the first case always occurs. (Violated for empty matrices: n = 0 with Vt wanted and m = 0 < n with U wanted access out of range.)", "quantifier": "all m, n >= 1, all contents with norm below overflow, all k <= columns(U) <= m, k <= rows(Vt) <= n, all combinations of wanted factors, every block size, over R and C", "why_tests_cant": "branches depend on magnitudes, signs and exact equalities that random inputs never produce", "anchors": ["include/tlapack/lapack/gesvd.hpp", "include/tlapack/lapack/gebrd.hpp", "include/tlapack/lapack/ungbr.hpp", "include/tlapack/lapack/svd_qr.hpp"]}
{"id": "C83", "title": "hetrf computes the Bunch-Kaufman factorization (lower triangle)", "statement": "For uplo = Lower and every Hermitian or symmetric matrix of order n given by its lower triangle, hetrf ends, returns pivots that describe a sequence of 1-by-1 and 2-by-2 blocks covering the matrix with all interchanges in range, and leaves in the lower triangle unit lower triangular strips and block diagonal D with A = M D M^op, M = P0 L0 P1 L1 ..., op the (conjugate) transpose, whenever it returns 0; this is always so for a nonsingular matrix. A return value info > 0 means that column info-1 was the first one found zero, and the same equation holds when the zero columns are read as zero. The opposite triangle and everything outside of A and the workspace are unchanged; the division by the pivot blocks never divides by zero. (Violated: with blocks of one column the loop never ends; the output array ipiv is read before it is written, a negative last entry surviving; a zero last pivot is not reported; and after info > 0 the numbers in the zero columns are stale, so that the factorization documented as complete is wrong.)", "quantifier": "all n >= 1, all block sizes >= 2, Hermitian and symmetric, all contents over R and C, every sequence of pivot decisions", "why_tests_cant": "branches depend on magnitudes, signs and exact equalities that random inputs never produce", "anchors": ["include/tlapack/lapack/hetrf.hpp", "include/tlapack/lapack/hetrf_blocked.hpp", "include/tlapack/lapack/hetf3.hpp"]}
{"id": "C84", "title": "trevc computes the eigenvectors of a complex upper triangular matrix", "statement": "For a complex upper triangular T of order n, any side and any mode, if every eigenvalue asked for differs from the earlier ones on the diagonal (right eigenvectors) and from the later ones (left eigenvectors), trevc succeeds whatever the protective scalings decide; column c(k) of Vr, c(k) = k or the number of selected eigenvalues before k, holds x with T x = T(k,k) x, x(k) > 0 and zeros below, and column c(k) of Vl holds y with y^H T = T(k,k) y^H, y(k) > 0 and zeros above; in the mode Back they are multiplied by the matrix given on entry, so that with A Q = Q T they are nonzero eigenvectors of A; select and the columns not asked for are unchanged and nothing but the requested matrices and the workspace is written. (Violated: whenever a right eigenvector of an eigenvalue that occurs earlier on the diagonal is asked for, the code divides by zero, e.g. for the identity; the documentation gives y^T T = w y^T.)", "quantifier": "all n >= 1, all upper triangular T, all sides, modes and selections, all scaling decisions", "why_tests_cant": "branches depend on magnitudes, signs and exact equalities that random inputs never produce", "anchors": ["include/tlapack/lapack/trevc.hpp", "include/tlapack/lapack/trevc_backsolve.hpp", "include/tlapack/lapack/trevc_forwardsolve.hpp", "include/tlapack/lapack/trevc_protect.hpp"]}
{"id": "C85", "title": "Legacy level-1 and level-2 interface", "statement": "The pointer-based wrappers copy, swap, axpy, scal, dot, dotu, rot, gemv, trmv, trsv, hemv, symv, ger, geru, syr, syr2, her, her2, for column-major and row-major storage, every leading dimension at least the minimum and every nonzero (also negative) increment, compute the BLAS operation on the matrices and vectors that BLAS documentation says those arguments denote (entry i of a vector with negative increment at x[(n-1-i)|inc|]), write only the output argument, and gemv rejects a zero increment or a short leading dimension before touching anything. (Violated: row-major her and her2 on complex data add the conjugate of the documented update; row-major gemv with ConjTrans conjugates its const x in place, so a matrix overlapping x is read wrongly; rotm's flag check can never fire.)", "quantifier": "all sizes, layouts, operations, increments, leading dimensions, addresses without overlap with the output, contents over every field with conjugation", "why_tests_cant": "tests run a fixed list of sizes/seeds; the claim is for every size, every operand value and every option combination", "anchors": ["include/tlapack/legacy_api/blas/copy.hpp", "include/tlapack/legacy_api/blas/gemv.hpp", "include/tlapack/legacy_api/blas/trmv.hpp", "include/tlapack/legacy_api/blas/trsv.hpp", "include/tlapack/legacy_api/blas/hemv.hpp", "include/tlapack/legacy_api/blas/her.hpp", "include/tlapack/legacy_api/blas/her2.hpp", "include/tlapack/legacy_api/blas/rotm.hpp"]}
{"id": "C86", "title": "Legacy level-3 interface", "statement": "The pointer-based wrappers gemm, hemm, symm, trmm, trsm, herk, syrk, her2k and syr2k, for column-major and row-major storage, all sides, triangles, operations and leading dimensions at least the minimum, compute the BLAS operation on the stored matrices (row-major calls are turned into column-major calls on the transposes without changing the result), including the shortcuts for alpha = 0, beta = 0 and empty sizes, write only the output matrix and, in the rank-k updates with alpha nonzero, only its selected triangle. (Violated: with alpha = 0 the rank-k wrappers also scale the other triangle, which uplo says is not referenced.)", "quantifier": "all sizes, layouts, sides, triangles, operations, leading dimensions, addresses without overlap with the output, contents over every field with conjugation", "why_tests_cant": "tests run a fixed list of sizes/seeds; the claim is for every size, every operand value and every option combination", "anchors": ["include/tlapack/legacy_api/blas/gemm.hpp", "include/tlapack/legacy_api/blas/hemm.hpp", "include/tlapack/legacy_api/blas/symm.hpp", "include/tlapack/legacy_api/blas/trmm.hpp", "include/tlapack/legacy_api/blas/trsm.hpp", "include/tlapack/legacy_api/blas/herk.hpp", "include/tlapack/legacy_api/blas/syrk.hpp", "include/tlapack/legacy_api/blas/her2k.hpp", "include/tlapack/legacy_api/blas/syr2k.hpp"]}
{"id": "C87", "title": "Legacy LAPACK interface", "statement": "The pointer-based wrappers lacpy, laset (both overloads), lascl on dense types, lange, lansy, lanhe, lantr, lassq, potrf, potrs, geqr2, ung2r, unmqr, larf, larft and larfb, with every leading dimension at least the number of stored rows and every nonzero increment, satisfy the contract of the routine they wrap on the column-major matrices their arguments denote, return 0 (the Cholesky code for potrf) and write nothing else. (Violated: ung2r only checks k and then uses n reflectors, reading tau[k..n-1]; banded lascl checks lda and then ignores it, scaling the wrong cells; unm2r passes the raw pointer and cannot be compiled; larft rejects k = 0 before its quick return for k = 0.)", "quantifier": "all sizes, options, leading dimensions, increments, addresses without overlap with the outputs, all contents", "why_tests_cant": "branches depend on magnitudes, signs and exact equalities that random inputs never produce", "anchors": ["include/tlapack/legacy_api/lapack/lacpy.hpp", "include/tlapack/legacy_api/lapack/laset.hpp", "include/tlapack/legacy_api/lapack/lascl.hpp", "include/tlapack/legacy_api/lapack/potrf.hpp", "include/tlapack/legacy_api/lapack/geqr2.hpp", "include/tlapack/legacy_api/lapack/ung2r.hpp", "include/tlapack/legacy_api/lapack/unmqr.hpp", "include/tlapack/legacy_api/lapack/larft.hpp", "include/tlapack/legacy_api/lapack/larfb.hpp"]}
{"id": "C88", "title": "generalized_schur_swap and generalized_schur_move reorder a complex generalized Schur form", "statement": "For upper triangular A and B of order n, generalized_schur_swap at j0 < n-1 and generalized_schur_move from ifst to ilst (complex matrices; also the 1-by-1 case of the real swap) return 0 and apply unitary U and V: A = U A' V^H, B = U B' V^H, Q' = Q U if wanted, Z' = Z V if wanted, with A' and B' upper triangular, so the explicitly stored zeros are genuine; if no diagonal pair is (0,0), the pair at each position is a nonzero multiple of the pair of the eigenvalue that belongs there: ifst moved to ilst, those in between shifted by one, others kept. Unwanted Q and Z and everything else are untouched. (Violated: j0 = n-1 passes the argument check and accesses column n; with a pair (0,0) nothing is exchanged and 0 is returned.)", "quantifier": "all n, all triangular pencils over every field with conjugation, all positions, all want flags", "why_tests_cant": "branches depend on magnitudes, signs and exact equalities that random inputs never produce", "anchors": ["include/tlapack/lapack/generalized_schur_swap.hpp", "include/tlapack/lapack/generalized_schur_move.hpp"]}
{"id": "C89", "title": "tik_bidiag_elden solves the Tikhonov problem", "statement": "tik_bidiag_elden leaves in the first n rows of b the matrix X with (A^H A + lambda^2 I) X = A^H B, the unique minimiser of ||A X - B||^2 + lambda^2 ||X||^2 for every right-hand side, whenever lambda is nonzero or A has full column rank; the result is the same as that of tik_qr, and nothing outside A, b and its workspace is written. (Deviation: with n = 0 it asks for an array of n-1 elements and slices past the end.)", "quantifier": "all m >= n >= 1, all matrices, right-hand sides, real lambda, block sizes, real and complex scalars", "why_tests_cant": "branches depend on magnitudes, signs and exact equalities that random inputs never produce", "anchors": ["include/tlapack/lapack/tik_bidiag_elden.hpp"]}
{"id": "C90", "title": "tik_svd solves a nearby Tikhonov problem", "statement": "With lambda nonzero, when the internal singular value decomposition converges, tik_svd leaves in the first n rows of b a matrix X with ((A+E)^H (A+E) + lambda^2 I) X = V^H diag(rho) V (A+E)^H B for a unitary V, |rho_i - 1| <= 5 eps^2 and ||E||_F at most n-1 times the documented singular value tolerance; for n <= 2 it always converges. Nothing outside A, b and its workspace is written. (Deviation: the return code of svd_qr is dropped, so a caller cannot see that the result is not a solution.)", "quantifier": "all m >= n >= 1, all matrices, right-hand sides, nonzero real lambda, block sizes, real and complex scalars", "why_tests_cant": "branches depend on magnitudes, signs and exact equalities that random inputs never produce", "anchors": ["include/tlapack/lapack/tik_svd.hpp", "include/tlapack/lapack/svd_qr.hpp"]}
{"id": "C91", "title": "move_bulge moves a bulge by a similarity", "statement": "move_bulge applies the delayed reflector to the last row of the 4-by-4 window, leaves in v a unitary reflector P with P^H (H(1,0),H(2,0),H(3,0)) = (H'(1,0),0,0), exactly while the bulge has not collapsed and up to 3/2 eps (|H(0,0)|+|H(1,1)|+|H(2,2)|) when a collapsed bulge is restarted with H(2,0) = 0, and changes no other entry. (Violated: restarting with H(2,0) nonzero multiplies only part of the inner product by tau, so a column of norm sqrt(481) is replaced by one of norm 17 and the similarity is lost; the documented 4-by-3 window is sliced up to column 4.)", "quantifier": "all windows, reflectors and shifts, real and complex scalars", "why_tests_cant": "branches depend on magnitudes, signs and exact equalities that random inputs never produce", "anchors": ["include/tlapack/lapack/move_bulge.hpp", "include/tlapack/lapack/lahqr_shiftcolumn.hpp"]}
{"id": "C92", "title": "Eigenvalues and shift vectors of small matrix pencils", "statement": "For every real 2-by-2 A and upper triangular B, lahqz_eig22 divides by nonzero numbers only and returns two pairs (alpha, beta) that are the eigenvalues, with multiplicity, of the pencil (A, B - D): det(x A - y B + y D) is a nonzero constant times (x alpha1 - y beta1)(x alpha2 - y beta2), where the diagonal D is zero unless a diagonal entry of B is below bmin = sqrt(safe_min) times the size of B, and |D| <= bmin. For complex matrices the same holds with an upper triangular D unless the discriminant is so large or small that it is rescaled. lahqz_shiftcolumn returns a nonzero multiple of (beta2 A - s2 B) B^-1 (beta1 A - s1 B) B^-1 e1 for 3-by-3 pencils, or zero if that multiple overflows: for complex matrices always, for real matrices with two real shifts or a conjugate pair of shifts when the internal scale factors are nonzero (and, for pairs, representable). (Violated: complex lahqz_eig22 divides by zero for A = B = I; it forgets to scale back the root of a rescaled discriminant, so that [1 s; s 1] with s = sqrt(safe_min) is reported singular; real lahqz_shiftcolumn divides by zero when A(1,0) = 0 or beta1 A(0,0) = s1 B(0,0); the 2-by-2 case ignores the second shift, contrary to its documentation.)", "quantifier": "all 2-by-2 and 3-by-3 pencils with triangular B, all shifts, all positive safe_min, real and complex", "why_tests_cant": "branches depend on magnitudes, signs and exact equalities that random inputs never produce", "anchors": ["include/tlapack/lapack/lahqz_eig22.hpp", "include/tlapack/lapack/lahqz_shiftcolumn.hpp"]}
{"id": "C93", "title": "pbtrf_with_workspace computes the Cholesky factor of a band matrix", "statement": "For a positive definite Hermitian band matrix of bandwidth kd stored in the band of one triangle of A (whatever the other cells hold), pbtrf_with_workspace with a block size 1 <= nb <= kd returns normally and leaves in that band the triangular band factor with positive diagonal (R^H R or L L^H equals the matrix); only the band of the selected triangle and the workspace are written. (Violated: for kd < nb, the default nb being 32, kd - ib wraps around and the first step accesses elements outside the matrix; the result of potrf is dropped, so that without exceptions a matrix that is not positive definite is not reported.)", "quantifier": "all n, 1 <= nb <= kd < n, both triangles, all contents, all options of the inner potrf, real and complex scalars", "why_tests_cant": "branches depend on magnitudes, signs and exact equalities that random inputs never produce", "anchors": ["include/tlapack/lapack/pbtrf_with_workspace.hpp"]}
{"id": "C94", "title": "lasy2 solves small Sylvester equations", "statement": "For real 2-by-2 TL, TR, B, transposed or not, and sign +1 or -1, lasy2 never divides by zero, returns 0 or 1, 0 < scale <= 1 and xnorm the infinity norm of X; if it returns 0, op(TL) X + isgn X op(TR) = scale B exactly, otherwise the coefficients of the equation it solves differ by at most 2 smin, smin = max(eps times the largest element, safe_min/eps), and the equation really is within smin of a singular one. The same holds for order one; empty matrices leave X alone and give scale 1 and xnorm 0. (Violated: the documented sizes 2-by-1 and 1-by-2 raise an exception; ConjTrans, for real data the transposition, is silently ignored.)", "quantifier": "all real matrices of order 0, 1, 2, all transpositions, signs, positive thresholds", "why_tests_cant": "branches depend on magnitudes, signs and exact equalities that random inputs never produce", "anchors": ["include/tlapack/lapack/lasy2.hpp"]}
{"id": "C95", "title": "trge_qr2 and trge_ung2r factor a triangle on top of a rectangle", "statement": "For 0 < n <= rows, trge_qr2 overwrites the upper triangle of the first n rows by R with real diagonal and the rows below by the tails of n reflectors whose unitary product Q satisfies [triangle; rectangle] = Q [R; 0], and neither reads nor writes the strictly lower part of the first n rows. trge_ung2r with n reflectors and k >= n columns replaces the upper triangle and the rows below by those entries of the first k columns of Q; the strictly lower part of the first n rows (zero in Q) is left as it was, so the result is the first k columns of Q exactly when that part was zero before. (Violated: with n = 0 both compute n - 1 of an unsigned type and leave the matrix; trge_ung2r does not zero the strictly lower part of the top block.)", "quantifier": "all n >= 1, all contents, column norms within the range of Blue's algorithm, real and complex scalars", "why_tests_cant": "branches depend on magnitudes, signs and exact equalities that random inputs never produce", "anchors": ["include/tlapack/lapack/trge_qr2.hpp", "include/tlapack/lapack/trge_ung2r.hpp"]}
{"id": "C96", "title": "schur_swap exchanges diagonal blocks of a real Schur form", "statement": "For two adjacent diagonal blocks of orders 1 or 2 of a real upper quasi-triangular matrix (two blocks of order 2: separated enough that lasy2 does not perturb its equation), the exchange in schur_swap returns 0 and leaves A' and Q' with A = U A' U^T and Q' = Q U for one orthogonal U: the second block's characteristic polynomial comes first, the first block's after it, the entry or block below them is exactly zero, and the entries outside the rows and columns of the two blocks are unchanged. When the blocks of order 2 have complex eigenvalues the final standardization leaves them with equal diagonal elements and off-diagonal elements of opposite sign, unless an exchanged block has b = -c with unequal diagonal elements, on which the standardization fails (C55).", "quantifier": "all n, all positions, blocks of order 1 and 2, all contents with column norms in the range of Blue's algorithm, with and without Q", "why_tests_cant": "branches depend on magnitudes, signs and exact equalities that random inputs never produce", "anchors": ["include/tlapack/lapack/schur_swap.hpp"]}
{"id": "C97", "title": "schur_move moves a diagonal block of a real Schur form", "statement": "For a real matrix in real Schur form (diagonal blocks of order 1, or of order 2 with equal diagonal elements and off-diagonal elements of opposite signs), schur_move with ifst and ilst any rows of two blocks moves the block of ifst behind (ifst before ilst) or before (ifst after ilst) the block of ilst: it returns 0, ifst the first row of the block before the move, ilst the first row of the block after it; the matrix is again in real Schur form with the diagonal blocks, up to similarity, in the moved order; A = U A' U^T and Q' = Q U for one orthogonal U. It is assumed that every exchange on the way meets the conditions of C96 (no overflow, blocks of order 2 separated, no exchanged block with b = -c and unequal diagonal). With ifst and ilst in the same block nothing is written; when the first exchange downwards fails it returns 1 with ilst the position of the block.", "quantifier": "all n, all block structures, all pairs of rows, all contents subject to the stated conditions, with and without Q", "why_tests_cant": "branches depend on magnitudes, signs and exact equalities that random inputs never produce", "anchors": ["include/tlapack/lapack/schur_move.hpp"]}
{"id": "C98", "title": "laed6 finds a root of the secular equation with three poles", "statement": "For increasing nonzero poles d, positive weights z, the origin between the two poles next to the wanted root and finit = f(0), f(x) = rho + sum z_i/(d_i - x) has exactly one root r between these two poles. laed6 divides by nonzero numbers only, returns 0 or 1, and a tau between the two poles and not on the other side of the origin; if it returns 0, tau is r, or |f(tau)| is at most 4 eps times a sum of moduli of the terms of f, or tau has a relative error of at most 4 eps, or tau is one of the two poles. (Violated: line 281 divides b instead of c by the scaling factor, so an iterate can jump onto a pole, which counts as converged: for the poles -2, -1, 1, weights 4, 1/2, 1/2 and rho = 2/3 the pole 1 is returned as the root with info = 0.)", "quantifier": "all poles, weights, rho, both intervals, both kinds of starting value, all positive eps and underflow thresholds", "why_tests_cant": "branches depend on magnitudes, signs and exact equalities that random inputs never produce", "anchors": ["include/tlapack/lapack/laed6.hpp"]}
{"id": "C99", "title": "Factor, then generate or apply Q", "statement": "For m >= n, geqrf (geqlf) followed by ungqr (ungql) on the same A and tau, with any two positive block sizes, leaves a matrix Q2 with orthonormal columns such that the original matrix is Q2 times the upper (lower) triangle that the factorization left; for m <= n, gelqf (gerqf) followed by unglq (ungrq) leaves Q2 with orthonormal rows such that the original is the lower (upper) triangle times Q2. unmqr with Q^H applied to a copy of the original matrix gives the triangular factor with zeros below it. For a unitary Q, applying op(Q) by unmqr, unmql, unmlq or unmrq and then its inverse, with any two block sizes, gives C back.", "quantifier": "all shapes, all contents with column (row) norms in the range of Blue's algorithm, all pairs of block sizes, real and complex scalars", "why_tests_cant": "tests run a fixed list of sizes/seeds; the claim is for every size, every operand value and every option combination", "anchors": ["include/tlapack/lapack/ungqr.hpp", "include/tlapack/lapack/ungql.hpp", "include/tlapack/lapack/unglq.hpp", "include/tlapack/lapack/ungrq.hpp", "include/tlapack/lapack/unmqr.hpp", "include/tlapack/lapack/unmql.hpp", "include/tlapack/lapack/unmlq.hpp", "include/tlapack/lapack/unmrq.hpp"]}
{"id": "C100", "title": "lahqz_schur22 computes the generalized Schur form of a real 2-by-2 pencil", "statement": "For a real 2-by-2 pencil (A, B) with upper triangular B, lahqz_schur22 divides by nonzero numbers only and returns orthogonal Q and Z (built from cl, sl, cr, sr, scal0, scal1 as documented) with A + E = Q S Z^T and B + F = Q T Z^T, S and T being the contents left in A and B: E has at most the entry below the diagonal, of modulus at most eps (|A00| + |A11|); F is diagonal with entries of modulus at most eps max(|B00|, |B01| + |B11|, safe_min). T is upper triangular with nonnegative diagonal. Either S is upper triangular too and the returned (alpha, beta) are the diagonals of S and T, or nothing is perturbed, T is diagonal with positive diagonal, the returned eigenvalues are not real and are those of the pencil.", "quantifier": "all real 2-by-2 A and upper triangular B, including singular B, all safe_min > 0 and eps >= sqrt(safe_min)", "why_tests_cant": "branches depend on magnitudes, signs and exact equalities that random inputs never produce", "anchors": ["include/tlapack/lapack/lahqz_schur22.hpp"]}
{"id": "C101", "title": "lahqz deflates infinite eigenvalues", "statement": "Let A be upper Hessenberg and B upper triangular of order n, with an active block of rows s..e-1 (A(s,s-1) = A(e,e-1) = 0), and let lahqz run its search for infinite eigenvalues with the full Schur form wanted. It returns a new start s' with s <= s' <= e and unitary U, V such that A = U A' V^H, B = U B' V^H + G, Q' = Q U and Z' = Z V, where G is a sum of s'-s rank-one matrices delta x y^H with unit vectors x, y and delta a diagonal entry of B that passed the negligibility test (so every entry of G is at most (s'-s) tol). A' is upper Hessenberg, B' upper triangular; for s <= t < s', B'(t,t) = 0, A'(t+1,t) = 0, alpha(t) = A'(t,t) and beta(t) = 0; the block s'..e-1 is decoupled; nothing changes outside the rows and columns of the block, in alpha and beta outside s..s'-1, or in other memory. If some diagonal entry of the block was negligible on entry, s' > s; otherwise nothing at all is written.", "quantifier": "all n, all blocks, all contents, every negligibility test, with and without Q and Z, real and complex scalars", "why_tests_cant": "tests run a fixed list of sizes/seeds; the claim is for every size, every operand value and every option combination", "anchors": ["include/tlapack/lapack/lahqz.hpp"]}
