# Formal model of <T>LAPACK in Lean 4

## 1. What is modelled, and how

<T>LAPACK is a header-only template library: every routine is generic in the
matrix/vector class and in the scalar type.  The model keeps both kinds of
genericity.

* **Memory.**  A store is a function `L -> T` from *cells* to scalars, `L` any
  type with decidable equality.  A matrix is a *view* (`MatV L`): number of rows,
  number of columns and a map `(i,j) |-> cell`; a vector is a `VecV L`.  All
  theorems hold for *every* view whose in-range cells are distinct
  (`MatV.Inj`), hence for every layout, leading dimension and sub-matrix; that
  the library's own `LegacyMatrix`/`LegacyVector` and their slices are such views
  is proved separately (`Verif/Layout.lean`, C01-C04).
* **Programs.**  A routine is a total function in the monad
  `M L T a = (L -> T) -> Except Err a x (L -> T)`: the store is kept when an
  exception is thrown, so theorems about failing calls can say what was written
  before.  The errors are `check` (`tlapack_check` failed: `std::domain_error`),
  `runtime k` (`tlapack_error`: `std::runtime_error` with code `k`), `ub` (an
  out-of-range element access or slice: the `assert`s of `operator()`/`slice`,
  i.e. undefined behaviour in a release build, or an integer division by zero) and `diverge` (a loop or recursion
  of the code that never ends, e.g. block size 0).  A loop is
  `forUp`/`forDown`/`forRet`/`forStep`, an in-place sub-matrix call passes a
  sub-view, so aliasing is the real one.
* **Scalars.**  Routines only assume the operations (`Add`, `Mul`, `Star`, ...),
  no laws.  "Bitwise" statements (which cell is read/written, what
  expression tree is evaluated) are proved without any law, hence hold for IEEE
  floating point, NaN and Inf included.  Algebraic statements are proved for
  exact arithmetic: a field with a star operation (`R`, `C`, `Q`, ...).
* **Indices** are unbounded naturals; C19 justifies the descending-loop idiom
  for wrapping unsigned integers.

A routine's theorem has the form: for all views of admissible shape, all
stores: *the run returns `ok` (no exception, no out-of-range access), the output
cells hold the specified values, and every other cell is unchanged*.  The
specifications are Mathlib `Matrix` expressions over
`Verif/Spec.lean` (a small file: the matrix seen through a view, op(A),
the triangular/Hermitian matrix represented by one triangle).

## 2. Plan per property

| id | modelled | proof |
|----|----------|-------|
| C01-C03 | address functions of LegacyMatrix/Vector and all view constructors | arithmetic (omega/nlinarith); C03 backward slices: counterexample + partial |
| C04 | the four `reshape` overloads, exceptions included | case analysis, injectivity and disjointness of cells |
| C05 | `WorkInfo` record with `minMax`, `+=`, `transpose` | case analysis, nonlinear arithmetic |
| C06 | `Coef` = StrongZero or a value, in every routine with beta | law-free functional characterisation of every output cell |
| C07-C17 | each BLAS routine, every branch | loop invariants giving each output cell, then matrix identity |
| C18 | all `tlapack_check`s | simp; safety is part of each C07-C17 theorem |
| C19 | BitVec w loops | induction |
| C20 | `iamax_ec/nc` over an abstract scalar with isnan/isinf/absf | loop invariant |
| C21, C22 | executable models | permutation + sortedness invariants |
| C23-C27 | regions, recursion, scaling | loop invariants; counterexamples for out-of-range reads |
| C28-C30 | potf2, potrf2, blocked variants | induction on size, block matrix algebra |
| C31-C36 | LU, inversion, products, solves | induction on size |
| C37-C39 | larfg, larf, ge{qr,ql,lq,rq}2, unmq_level2, ungq_level2 | reflector algebra over R/C, loop invariants |
| C40, C44 | the same models | relational (two-run) footprint logic, law free, no hypotheses |
| C41-C42 | lauum, mult_llh, mult_uhu, pttrf | induction on size; loop invariants |
| C43 | lassq, nrm2, lapy2, lapy3 | accumulator invariants (Blue's algorithm) |
| C45 | larft, larfb | product-of-reflectors identity by induction on k; block matrix algebra |
| C46-C47 | geqrf, geqlf, gelqf, gerqf, unmq, ungq (blocked) | loop invariants over blocks, embedding of the sub-factorization |
| C48 | lange, lantr, lansy, lanhe | running-maximum / column-sum invariants with an abstract NaN predicate; Blue accumulator for Fro |
| C49 | infnorm_colmajor, infnorm_symmetric_colmajor, infnorm_triangular_colmajor | workspace row-sum invariants |
| C50-C53 | ladiv, lae2, laev2, singularvalues22, svd22, rotg, lartg: straight-line kernels in `Option`, `none` = division by zero or root of a negative number | case analysis over every branch, real/complex algebra |
| C54 | rotm (loop), rotmg (while loops as least fixed points) | pair-loop invariant; termination by a measure on the logarithm of the weight |
| C55-C57 | lahqr_eig22, lahqr_schur22, lahqr_shiftcolumn, laed5, inv_house3 | the same as C50-C53; violations proved for whole families of inputs |
| C58-C59 | gehd2, unghr, unmhr | similarity invariant per reflector, Frobenius-norm bound invariant (keeps larfg's no-overflow hypothesis alive), embedding of the square block |
| C60 | gebd2, both branches | two-sided invariant with masked stored vectors |
| C61 | hetd2 (both triangles), ungtr | rank-2 update identity `H C H^H = C - v w^H - w v^H`, invariant on the trailing/leading block |
| C62 | trmm_out, all branches (branches differing only in the accessor are shared) | strong induction on the order of A, block matrix algebra |
| C63 | trsm_tri | the same, on top of C62 and trsm |
| C64 | gemmtr | column-loop invariants restricted to the triangle |
| C65 | hemm2, mult_hehe | dot-product loops over a Hermitian row; strong induction with 2 x 2 blocks |
| C66 | trmm_blocked_mixed (workspace in the precision of B) | loop invariant over block rows |
| C67 | rot_sequence with all eight loop nests (fused triples included) | rotations as maps of columns; folds of rotations = products of rotation matrices |
| C68 | hessenberg_rq over any rotg that satisfies the rotation laws (proved of the model of rotg, real and complex) | invariant: finished columns, product of right rotations so far |
| C69 | gghrd | invariant: existence of unitary U, V, zero pattern of A and B |
| C70 | tik_qr, tkhnv | composition of the geqrf/unmq/trsm theorems; normal equations of the augmented system; minimality by completing the square |
| C71 | steqr | bulge-chase invariant of one QR/QL sweep (orthogonal similarity of tridiagonal matrices); deflations as a perturbation bounded in the Frobenius norm and counted by nonzero off-diagonal entries; selection sort as a permutation |
| C72 | ungbr_q, ungbr_p | column/row shift loops tracked entrywise, then the square case of the blocked ungq (C47); reflectors with unit entry one further identified with an embedded product |
| C73 | gelqt | panel = gelq2 (C38) + larft into a row block of TT (C45, weak aliasing form) + larfb on the rows below; the QR invariant is carried with tau read off the diagonals of the blocks of TT; for m > n the deviation is proved |
| C74 | geqrt3 | induction on the depth of the recursion; the update between the halves is the block reflector of the left half (entrywise from trmm/gemm), the joined factor satisfies the recurrence of larft because T12 = -T11 (U1^H U2) T22 |
| C75 | lahr2, gehrd | invariant of the panel: Y = B V T, T the larft recurrence, column i of the panel is column i of P^H B P; block step of the Hessenberg invariant of C58, then the remaining columns by gehd2 |
| C76 | labrd, gebrd | the panel stands for the matrix A - V Y^H - X U; each half step generates the next reflector from the up-to-date column or row and extends Y or X so that this matrix undergoes the same step as in gebd2; block step of the bidiagonal invariant of C60 |
| C77 | householder_qr/lq/ql/rq, householder_q_mul, gen_householder_q, hessenberg, bidiag (variant dispatchers and their workspace queries) | case split on the variant; each branch is the theorem of the routine it calls (C38/C39/C46/C47/C58/C60/C75/C76), with the dispatcher's own workspace size |
| C78 | rot_sequence3 (all eight branches, fused kernel, phases, blocks of 256 lines) | each line carries a progress vector (how many rotations of each position have been applied); a rotation whose predecessors have been applied moves the line to the next state of the sequential run, whatever the order; start-up, pipeline, tail and shut-down schedules only apply enabled rotations; both loop nests are instances; deviation: the start-up phase of Left/Forward runs over all columns in each block |
| C79 | schur_swap (complex; 1×1 blocks), schur_move (complex) | Model/Schur; rotation similarity `simRot` and its equality with the partial row/column updates, invariant over the chain of swaps |
| C80 | lahqr (complex, single shift): termination, backward error, Schur form, eigenvalues | Model/Lahqr; ghost matrix equal to memory on the active blocks, set of cuts, one unitary similarity per step, every dropped entry bounded (scan and consecutive-small-subdiagonals test); FrobM for the norm |
| C81 | svd_qr on a bidiagonal matrix | loop invariant: bidiagonal, orthogonal factors, error counted by deflated entries; sweeps proved as one two-sided bulge chase on an integer-indexed bidiagonal band; 2 by 2 blocks by svd22; signs and selection sort |
| C82 | gesvd (both shapes, U and Vt optional and of any admissible width) | composition of C76, C24, C72 and C81: the unitary factors of gebrd in U and Vt, padding of the bidiagonal block, unitary invariance of the Frobenius norm |
| C83 | hetrf/hetrf_blocked/hetf3 with uplo = Lower, Hermitian and symmetric, in the store semantics with the pivot array as a value | invariant of the panel: A0 = M (D ⊕ (A22 − L W^op)) M^op with M the product of the interchanges and strips found so far (lower-left undone at the end), the pivot tests give the nonzero pivot block (growth bound 2α² ≤ 1 makes the 2-by-2 determinant nonzero); panels are embedded into the whole matrix and appended; a singular matrix is the only way to info > 0 by taking determinants |
| C84 | trevc: eigenvectors of a complex upper triangular matrix, all sides and modes | back and forward substitution as invariants (rows solved / columns updated, positive scale), for all outcomes of the scaling tests; loops over the columns with the number of selected indices; repeated eigenvalues lead to a division by zero |
| C85 | Legacy level-1/2 wrappers on raw addresses, both layouts, signed increments | each wrapper reduced to the modelled template routine on the view create_matrix/create_vector builds; row-major via transposed views |
| C86 | Legacy level-3 wrappers | transposition of matrix equations; generic lemma per family (hemm/symm, trmm/trsm, rank-k, rank-2k) |
| C87 | legacy LAPACK wrappers lacpy … larfb | each wrapper unfolded to the wrapped routine on stMat/stVec, then the contract of C24/C26/C28–C30/C36/C38/C39/C43/C45/C47/C48 |
| C88 | generalized_schur_swap/move (1×1 blocks) | two-sided rotation equations reused from gghrd (GgEq), 2×2 determinant identities for the eigenvalue pairs, invariant with the permutation moveIdx |
| C89 | tik_bidiag_elden, statement by statement: gebrd, unmqr, copies of d and e, the two rotations per step, back substitution, unmlq | `TkInv` (the normal equations of the part already reduced are carried by every rotation pair) is an invariant of the elimination loop; composed with C76, C47 into the normal equations; minimality from strict convexity; equality with C70's result by uniqueness |
| C90 | tik_svd with the real svd_qr model of C81 | composition of C76, C47, C81, C13; the filter `s/(s²+λ²)` is shown to solve the diagonal problem and the perturbation bounds of C81 are transported through the unitary factors |
| C91 | move_bulge on a 4 by 4 window, with larfg of C37 and the shift column of C55 | symbolic execution of the body; both reflectors come with C37's specification; the restart test bounds the dropped entries |
| C92 | lahqz_eig22, lahqz_shiftcolumn | algebra over R and C: characteristic polynomial of the shifted pencil, homogenized determinant, explicit inverse of the triangular B |
| C93 | pbtrf_with_workspace | row coordinates of the upper factor truncated to the band; trsm/gemm/herk block laws; the workspace keeps a zero triangle by induction on the triangular solve; append of Cholesky rows |
| C94 | lasy2 on ℝ with division by zero as none; result, backward error, singularity of the perturbed operator | invariant of Gaussian elimination with complete pivoting: the remaining system, extended by any perturbation of the remaining block, is equivalent to the original one with a permuted perturbation |
| C95 | trge_qr2, trge_ung2r on a masked view (strictly lower part of the top block read as zero) | the masked states satisfy the same chain of reflector steps as geqr2 and ungq, the inner sum over the zero rows dropped |
| C96 | real schur_swap: orthogonal exchange of adjacent blocks of order 1 and 2, standardization | window lemmas per reflector/rotation on functions Nat→Nat→ℝ (SwExch), lasy2 result of C94 for the Sylvester equation, lahqr_schur22 of C55 for the standardization |
| C97 | real schur_move: reordering by repeated exchanges of adjacent blocks | lists of block orders (RSchur), one exchange from C96, induction on the list of blocks passed; hypotheses quantified over the states the run reaches (DownReach, UpReach) |
| C98 | laed6: the root of a secular equation with three poles is unique; the iteration never divides by zero, stays between the poles and stops only at an acceptable point (a pole included: violation) | bracketing invariant of the iteration, monotonicity of f between the poles, intermediate value theorem |
| C99 | geqrf/ungqr, geqlf/ungql, gelqf/unglq, gerqf/ungrq, unmq round trips | composition of C46 and C47; the thin factor is Q times columns of the identity |
| C100 | lahqz_schur22, real: scaling, deflation of A or B, the two rotations (with choice of the better left rotation), svd22, signs; scalar function with Option | case split; Q S Z^T identities by 2x2 matrix algebra; eigenvalues from C92, svd22 from C50-C53 |
| C101 | lahqz, deflation of infinite eigenvalues (zero on the diagonal of B moved to the top) with want_s | equivalence equations and memory of gghrd (GgEq, GgMem) reused; shape invariant of the window with the zero of B at j; rank-one perturbation per deflated entry |

## 3. Trusted base

* **Lean's kernel** (4.33.0) and the axioms `propext`, `Classical.choice`, `Quot.sound`.
  No axiom is declared in this development, no proof is left open, nothing rests on compiled code.
* **Mathlib's definitions** occurring in statements: `Matrix`, `Matrix.mul`, `conjTranspose`,
  `RCLike`, `PosDef`-style predicates written out, `Equiv.Perm`, `Finset.sum`, `BitVec`.
* **The specification files** `Verif/Spec.lean`, `Verif/SpecHouse.lean`, `Verif/SpecBlk.lean`, `Verif/SpecNorm.lean`, `Verif/SpecKernel.lean`, `Verif/SpecReduce.lean`, `Verif/SpecBlasX.lean`, `Verif/SpecRot.lean`, `Verif/SpecTik.lean`, `Verif/SpecEig.lean`, `Verif/SpecGqt.lean`, `Verif/SpecFoot.lean`, and
  the few definitions placed beside theorems in `Verif/Props/*.lean` (each commented).
* **The faithfulness of the model** to the C++ text. Every model definition cites the file and lines
  it models. The model is hand-written; nothing checks it against the C++ mechanically.

### Modelled
`base/StrongZero.hpp` (C06), `LegacyMatrix`, `LegacyVector` element access and the slices, rows,
columns, transposes and reshapes of `plugins/legacyArray.hpp` (C01-C04), `base/workspace.hpp`
`WorkInfo` (C05), the BLAS templates copy, swap, scal, axpy, dot, dotu, asum, nrm2, iamax, rot, gemv, ger,
geru, her, her2, syr, syr2, hemv, symv, trmv, trsv, gemm, hemm, symm, herk, syrk, her2k, syr2k, trmm,
trsm; LAPACK: conjugate, hasnan, hasinf, laset, lacpy, transpose, conjtranspose, lascl, rscl, lasrt,
lamrg, lassq, lapy2, lapy3, potf2, potrf2, potrf_blocked, potrf_rl, potrf, potrs, potri,
trtri_recursive, lauum_recursive, mult_llh, mult_uhu, pttrf, getrf_level0, getrf_recursive, getrf,
ul_mult, lu_mult, getri_uili, getri_uxli, getri, larfg, larf, geqr2, geql2, gelq2, gerq2,
ungq_level2, unmq_level2, larft, larfb, geqrf, gelqf, geqlf, gerqf, unmq, ungq (blocked, with their
worksize functions), lange, lantr, lansy, lanhe, infnorm_*colmajor; gehd2, unghr, unmhr, gebd2, ungbr_q, ungbr_p, hetd2, ungtr; trmm_out, trsm_tri, gemmtr, hemm2, mult_hehe, trmm_blocked_mixed; rot_sequence, hessenberg_rq, gghrd; tik_qr, tkhnv (checks); steqr; gelqt; geqrt3; lahr2, gehrd; labrd, gebrd; the variant dispatchers householder_qr/lq/ql/rq, householder_q_mul, gen_householder_q, hessenberg, bidiag; lahqz: loop for infinite eigenvalues (want_s, alpha and beta as functions of the index; Model/LahqzInf); lahqz_schur22 (real); ungqr, ungql, unglq, ungrq, unmqr, unmql, unmlq, unmrq (named wrappers); laed6 (exact arithmetic over the reals, square root as an operation); schur_move (real); schur_swap (real); lapack/trge_qr2, trge_ung2r; lapack/lasy2.hpp (exact real arithmetic); pbtrf_with_workspace; lahqz_eig22, lahqz_shiftcolumn; move_bulge; tik_bidiag_elden, tik_svd; generalized_schur_swap.hpp (complex overload; 1×1 case of the real one), generalized_schur_move.hpp (complex); legacy_api/lapack/{geqr2,lacpy,laset,lange,lanhe,lansy,lantr,larf,larfb,larft,lascl,lassq,potrf,potrs,ung2r,unmqr}.hpp; legacy_api/blas level-3 wrappers (Model/Legacy.lean); legacy_api/blas level-1 and level-2 wrappers (Model/Legacy.lean; addresses are naturals, entries of one array scalar type); trevc_protectdiv, trevc_protectupdate, trevc_colnorms, trevc_backsolve_single, trevc_forwardsolve_single, trevc (complex); hetrf, hetrf_blocked, hetf3 (uplo = Lower); gesvd (allocated memory as parameters); svd_qr (complete); lahqr.hpp (complex): deflation scan, shift, sweep, main loop; schur_swap.hpp for 1×1 blocks and schur_move.hpp for complex matrices (Model/Schur); rot_sequence3; rotm, rotg, rotmg, lartg, ladiv, lae2, laev2, singularvalues22,
svd22, lahqr_eig22, lahqr_schur22, lahqr_shiftcolumn, laed5, and inv_house3 up to its call of larfg (real
input). The wrappers that only dispatch on options (householder_q*, ungqr, unmqr, ...) are
represented by the routine they call.

### Not modelled / simplifications
* The overloads that forward to an optimised BLAS (`TLAPACK_USE_LAPACKPP`) - only the templates.
* Floating-point rounding, overflow and underflow: algebraic theorems are over exact real/complex
  numbers (`RCLike`) or an exact field. Lean's `x / 0 = 0` is harmless where the theorem's hypotheses
  exclude zero divisors; law-free theorems (C06, C18, C20, C23, C24, C40, C44) hold for floats.
* Index overflow: indices are unbounded `Nat`, so a product like `m*n` never wraps. Wrap-around of
  `n-1` on `n = 0` is treated where it matters (C19 and the empty-matrix findings).
* Index arrays (`piv`, `index`) are values (`IArr`), not memory; workspaces are plain vectors.
* Vector increments are natural numbers (direction is separate).
* `while` loops whose bound is data dependent carry fuel and end in `diverge` when it runs out;
  theorems state how much fuel suffices.
* `thr`/`dbg` Boolean parameters stand for `opts.ec.internal` and for builds with error macros
  disabled; both values are covered.
* Householder constants (Blue's thresholds, `safe_min`) are parameters `HhPar` with laws `HhLaws`;
  `doublePar` shows that the values for `double` satisfy them.
* Template dispatch, type promotion, concepts, allocation, I/O, plugins for Eigen/mdspan/StarPU,
  multishift QR/QZ with aggressive early deflation, the QZ sweep of lahqz, trevc3, gghd3, laed2, laed4.

## 4. Findings (proved as theorems unless said otherwise)

1. `slice(LegacyVector, range)` with `Direction::Backward` is wrong unless the range ends at
   `n - begin` (`C03_backward_violated`).
2. hasnan/hasinf/lascl with UpperHessenberg access `A(m, m-1)`, out of range, when `n >= m >= 1`
   (`C23_*`, `C26_hessenberg_out_of_range`).
3. gemv returns early when `m == 0 || n == 0`: y is not scaled by beta when `n == 0`
   (`C08_gemv_doc_violated`).
4. ul_mult recurses forever on an empty matrix (`C34_ul_mult_empty`), so getri(UILI) does
   (`C35_getri_empty`); getri(UXLI) rejects its own workspace request for `n = 0`.
5. trtri_recursive passes the caller's options to the recursive calls, so the exception code is
   block-local (`C33_trtri_singular`).
6. potrf_blocked/potrf_rl: potf2 throws the block-local index (`C30_*`); `nb = 0` never ends.
7. `WorkInfo::transpose` drops `isContiguous`; `minMax` of non-contiguous requests is not enough
   (`C05_minMax_gaps_violated`).
8. `reshape` of a non-contiguous LegacyMatrix to 0 columns keeps `A.m` rows (`C04_reshape_empty_shape`).
9. Complex getrf_level0: multipliers can exceed 1 because pivots are chosen by `abs1`.
10. potri's documentation describes the inverse of the factor; it computes the inverse of A (`C36_potri`).
11. hetd2, hessenberg_rq on 0x0 matrices throw because `n-1` wraps (C19).
12. larf (split form): the size check parses as `(size(x) == (side == LEFT)) ? m : n`
    (`C38_larf_parts_empty_violated`, `C38_larf_parts_size_violated`).
13. lassq/nrm2 drop entries below blue_min if some entry exceeds blue_max (`C43_nrm2_big`), by design.
14. getri_uxli reports the largest index of a zero diagonal entry, not the first.
15. hemm/symm accept `uplo = General` and read only the upper triangle (C40_hemm).
16. (read, not proved) getri_uxli_worksize underflows for n = 0; getri_worksize passes an extra
    argument; unmq_level2 does not check `k <= nQ`.
17. larfb's shape check (larfb.hpp:141-146) is mis-parenthesised: `ncols(V) == k` only selects between
    the two comparisons (`C45_larfb_shape_violated`).
18. ungq with an empty tau (k = 0), Forward, divides by zero (`C47_ungq_no_reflectors_violated`);
    ungq_worksize does so Backward (read, not proved).
19. `opts.nb = 0`: geqrf & co. never return (`C46_geqrf_nb0_violated`); unmq divides by zero (modelled).
20. infnorm_triangular_colmajor initialises and scans `w[i]` for `i < n` although w has length m: out of
    range when `n > m` (`C49_infnorm_triangular_wide`); with Lower + Unit it skips column 0
    (`C49_infnorm_triangular_unit_lower`); (read, not proved) its dispatching wrapper passes too few
    arguments, and the infnorm_*colmajor templates compile only for real types.
21. rotmg: `if (flag == 0) … else { h[1] = -1; h[2] = 1; flag = -1 }` runs again on the second rescaling
    pass and overwrites the off-diagonal of H (`C54_rotmg_violation`).
22. lahqr_schur22 uses `sgn(0) = 0` where LAPACK uses `SIGN(1, 0) = 1`: equal diagonal entries with
    `bc > 0` divide by zero (`C55_schur22_equal_diag`), `b = -c` gives a non-rotation
    (`C55_schur22_skew`); and the `b = 0` branch at the end of dlanv2 is missing
    (`C55_schur22_defective`).
23. inv_house3: the negligible-pivot branch fills `v[1], v[2]` as if the columns had been swapped
    (`C57_inv_house3_violation`).
24. gehd2 on an empty matrix raises an error (`C58_gehd2_empty_violated`); gehd2 and unghr with
    `ilo = ihi = 0`, which the documentation allows, run with `ihi - 1` wrapped and access memory out of
    range (`C58_gehd2_ihi0_violated`, `C59_unghr_ihi0_violated`).
25. (read, not proved) gehd2 documents its precondition as "upper triangular outside rows and columns
    ilo to ihi-1" but a nonzero `A(ihi, ihi-1)` is needed to be absent as well for the result to be a
    similarity; unmhr's documentation swaps the ConjTrans rows; ungtr requires `size(tau) <= n-1` whereas
    hetd2 accepts longer vectors.
26. trmm_out and trsm_tri never return on empty matrices (`C62_trmm_out_empty_violated`,
    `C63_trsm_tri_empty_violated`); mult_hehe reads `A(0,0)` of one (`C65_mult_hehe_empty_violated`).
27. gemmtr's size check on C uses `&&` (`C64_gemmtr_check_violated`).
28. hemm2 with `uplo = General` uses one triangle, which one depends on side and op
    (`C65_hemm2_general_*_violated`); trmm_blocked_mixed implements one of its twelve documented cases
    (`C66_trmm_blocked_unimplemented_violated`).
29. (read, not proved) the hemm2 overload without `beta` passes its arguments in the wrong order and does
    not compile; mult_hehe prints an empty line to standard output in its Lower branch.
30. rot_sequence applies the rotations in the opposite order of its documentation, for both directions and both
    sides (`C67_direction_violated`), and `P**T` in it means `P**H`; a matrix without rows is rejected
    (`C67_empty_violated`).
31. hessenberg_rq accesses an empty matrix (`C68_empty_violated`); gghrd requires n-by-n `Q`, `Z` even when
    they are not wanted (`C69_unwanted_q_violated`).
32. steqr: the shift uses `e/(g + sgn(g)*r)` with `sgn(0) = 0`, so equal diagonal entries at the end of the
    active block divide by zero - every constant-diagonal matrix of order >= 3 with non-negligible off-diagonal
    (`C71_constant_diagonal_violated`); the test `iter == itmax` inside `for (; iter < itmax;)` is dead, so the
    documented code for non-convergence is never returned (`C71_code_never_positive`).
33. ungbr: `m - 1` wraps for `m = 0 < k` and `A(0,0)` is written for `n = 0`: empty matrices are accessed out of
    range (`C72_ungbr_empty_violated`).
34. gelqt: with more rows than columns the rows below the last panel are never updated (`if (j + ib < k)` should compare with m), so the result is not an LQ factorization (`C73_gelqt_tall_violated`, `C73_gelqt_column_violated`); the check `ncols(TT) < nb` is vacuous because nb is ncols(TT); nb = 0 never ends.
35. geqrt3: `T` larger than n-by-n makes larft throw when n <= nx (the diagonal of T is longer than V has columns), while the recursive branch accepts it; m < n returns silently without doing anything (`C74_geqrt3_wide`).
36. gehrd: `slice(tau, range{i, ihi})` needs ihi entries of tau, but n-1 are documented and checked; with ihi = n the blocked code is out of range (`C75_gehrd_tau_violated`); n = 0 fails a check (`C75_gehrd_empty_violated`).
37. gebrd: a block size of 0 is accepted and makes it read outside of A (`C76_gebrd_nb0_violated`); the last entry of tauw (m >= n) or tauv (m < n) is never written, where gebd2 sets it to 0 (by reading); nothing checks the sizes of tauv and tauw.
38. rot_sequence3, side Left, direction Forward, more than 256 columns: the start-up phase (lines 136 and 539) runs over all columns in every block of 256 columns, so its rotations are applied several times and the result is wrong (`C78_rot_sequence3_blocks_violated`); the unit tests stop at 13 columns.
39. schur_swap for complex matrices checks j0 < n instead of j0 + 1 < n: j0 = n-1 accesses A(n,n) (`C79_swap_bounds_violated`).
40. lahqr's deflation test uses `i < ihi` where LAPACK uses `i + 1 < ihi`: with ihi = n and two zero diagonal entries it reads A(n, n-1) outside of A, e.g. for [0 1; 1 0] (`C80_lahqr_out_of_range_violated`). Also, at iter = itmax lahqr returns istop even if everything has just been deflated (istop = ilo > 0).
41. svd_qr: when the iteration limit is reached the routine returns `istop`, which can be 0 or 1 after a last deflation, without making the values non-negative or sorting them; so code 0 alone does not guarantee sorted output (C81). The factors of a 2 by 2 block from svd22 are orthogonal only up to eps^2.
42. gesvd on an empty matrix: n = 0 with want_vt, or m = 0 < n with want_u, accesses out of range through ungbr_p / ungbr_q (`C82_empty_violated`); the sizes of s, U and Vt are not checked, and s must have exactly min(m,n) entries because svd_qr takes its order from size(s).
43. hetrf: with nb = 1 the loop over the panels never ends (C83_nb1_violated); the out-parameter ipiv is read at n-1 (Lower) or 0 (Upper) before it may have been written, so that negative garbage survives (C83_uninit_violated); a zero last 1-by-1 pivot is not reported (C83_last_violated); when info > 0 the zero column is not copied from the workspace to A, so that D and L hold stale numbers and the factorization documented as complete is wrong (C83_singular_violated, 3-by-3 matrix of ones).
44. trevc divides by `T(i,i) - T(k,k)` without LAPACK's perturbation by smin: with a repeated eigenvalue (the identity, for example) the quotient is 0/0 or x/0 and the eigenvectors are NaN or Inf (C84_repeated_violated). The documentation says `y^T T = w y^T`; the complex code computes `y^H T = w y^H`. The variable `ivmax` that holds an index is declared as a real number.
45. Legacy her and her2 with Layout::RowMajor on complex data add the conjugate of the documented update (C85_her_rowmajor_violated, C85_her2_rowmajor_violated); legacy gemv RowMajor+ConjTrans conjugates the const x in place during the call, so an A overlapping x is read wrongly (C85_gemv_alias_violated); legacy rotm's check flag < -2 && flag > 1 never fires (C85_rotm_flag_violated).
46. Legacy herk, syrk, her2k, syr2k with alpha = 0 scale or zero the whole matrix C, including the triangle that uplo says is not referenced (C86_alpha0_violated).
47. C87: legacy ung2r only checks k and uses n reflectors (C87_ung2r_k_ignored_violated, C87_ung2r_value_violated); legacy banded lascl ignores lda (C87_lascl_band_violated); legacy unm2r passes the raw pointer A and cannot be instantiated; legacy larft rejects k = 0 before its own quick return. The positive claim for banded lascl is not covered.
48. C88: generalized_schur_swap accepts j0 = n-1 and goes out of range (C88_swap_bounds_violated); on a singular pencil it returns 0 without exchanging (C88_singular_not_swapped_violated).
49. `tik_bidiag_elden` and `tik_svd` with `n = 0` compute `n - 1` in an unsigned type (`C89_empty_violated`).
50. `tik_svd` ignores the return value of `svd_qr`: when the iteration does not converge the caller gets no sign of it. The model returns the dropped code so that C90 can speak about it.
51. `move_bulge` computes `refsum = conj(vt[0])*H(1,0) + conj(vt[1])*H(2,0)` where `conj(vt[0])*(H(1,0) + conj(vt[1])*H(2,0))` is needed: with `H(2,0) ≠ 0` a collapsed bulge is restarted by a transformation that is not a similarity (`C91_restart_violated`); its documentation says that `H` is 4 by 3 but column 3 is sliced.
52. lahqz_eig22.hpp:210-221: for complex matrices mu_big may be 0 (A = B = I), dividing by zero, and the root of a discriminant that was rescaled at 194-207 is used unscaled (C92_eig22_complex_identity_violated, C92_eig22_complex_scaling_violated). lahqz_shiftcolumn.hpp:111 divides by scale1 and scale2, which are 0 when the pencil is deflated or the shift is exact, and divides although the scaling at 91-102 may have been skipped (C92_shiftcolumn_deflated_violated); lines 80-85 ignore s2 and beta2 (C92_shiftcolumn2_violated).
53. pbtrf_with_workspace.hpp:90,163: i2 = kd - ib wraps around when kd < nb (default nb = 32), the slices then leave the matrix (C93_kd_lt_nb_violated); lines 86 and 159 drop the return value of potrf and potf2 (C93_failure_ignored).
54. lasy2 (C94): the documented sizes 2x1 and 1x2 raise an exception, and Op::ConjTrans is silently treated as NoTrans (for real data it is the transposition).
55. trge_qr2 and trge_ung2r (C95): n = 0 wraps around and leaves the matrix; trge_ung2r does not zero the strictly lower part of the top block, so its output is not orthonormal unless that part was zero on entry.
56. schur_swap.hpp (real): the return codes of the recursive calls (a block of order 2 that has been split) are dropped, and a failure of lahqr_schur22 (b + c = 0 with a ≠ d, C55) is inherited; the recursive case is modelled, but C96 is about blocks that are not split (orders 1, and 2 with a nonzero subdiagonal element).
57. schur_move.hpp (real): the conditions of C96 must hold at each exchange; on a block with b = -c and unequal diagonal elements the standardization silently destroys the similarity (C55), and schur_move returns 0.
58. laed6.hpp:281 writes c = b / temp where c = c / temp is meant; an iterate equal to a pole counts as converged, so a pole can be returned as the root with info = 0 (proved: poles -2, -1, 1).
59. the documentation of unmlq, unmrq and unmqr gives C := C Q^H for side Left with ConjTrans and C := Q^H C for side Right (sides exchanged).
60. lahqz_schur22.hpp:369 scales B(1,0) by bnorm although it was not divided by it: harmless when B(1,0) = 0, otherwise a stored nonzero below the diagonal is changed (C100 assumes B(1,0) = 0). The bound eps >= sqrt(safe_min) used by C100 fails for half precision.
61. lahqz (not proved): `k_defl % 2 * non_convergence_limit == 0` parses as `(k_defl % 2) * limit`; as it is evaluated only when k_defl is a multiple of 10 it is always true, and the alternative exceptional shift is never used. lahqz with nh = 1 sets alpha and beta but does not return (harmless).
