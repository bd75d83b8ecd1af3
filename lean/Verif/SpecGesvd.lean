import Verif.Model.Gesvd
import Verif.SpecSvd
import Verif.SpecReduce

/-! # Admissible calls of gesvd -/

namespace TLA

/-- Admissible call of gesvd with `k = min(m,n)`: `s` holds `k` values, `U` has the rows of `A` and between `k` and `m` columns, `Vt` has the
columns of `A` and between `k` and `n` rows, the memory allocated by the routine has the sizes it asks for, and nothing overlaps. -/
structure GesvdAdm {L : Type} (nb : Nat) (wu wv : Bool) (A : MatV L) (s : RArr) (U V : MatV L) (w : GesvdMem L) : Prop where
  hnb : 0 < nb
  hm : 0 < A.m
  hn : 0 < A.n
  hs : s.n = min A.m A.n
  htv : w.tauv.n = min A.m A.n
  htw : w.tauw.n = min A.m A.n
  brd : BrdOK A w.tauv w.tauw w.wb
  hwb : (gebrdWorksize nb A).size ≤ w.wb.n
  um : wu = true → U.m = A.m ∧ min A.m A.n ≤ U.n ∧ U.n ≤ A.m
  uq : wu = true → QrOK U w.tauv w.wq ∧ A.Disj U ∧ A.DisjV w.wq ∧ U.DisjV w.tauw ∧ w.tauw.Disj w.wq
  uw : wu = true → (ungbrQWorksize A.n U w.tauv.n nb).size ≤ w.wq.n
  vn : wv = true → V.n = A.n ∧ min A.m A.n ≤ V.m ∧ V.m ≤ A.n
  vq : wv = true → QrOK V w.tauw w.wp ∧ A.Disj V
  vw : wv = true → (ungbrPWorksize A.m V w.tauw.n nb).size ≤ w.wp.n
  uv : wu = true → wv = true → U.Disj V ∧ U.DisjV w.wp

/-- The cells gesvd may write. -/
def GesvdMem.Foot {L : Type} (w : GesvdMem L) (wu wv : Bool) (A U V : MatV L) (l : L) : Prop :=
  A.Owns l ∨ w.tauv.Owns l ∨ w.tauw.Owns l ∨ w.wb.Owns l ∨ (wu = true ∧ (U.Owns l ∨ w.wq.Owns l)) ∨ (wv = true ∧ (V.Owns l ∨ w.wp.Owns l))

end TLA
