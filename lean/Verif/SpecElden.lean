import Verif.Model.TikElden
import Verif.SpecTik
import Verif.SpecReduce

/-! # Admissible calls of tik_bidiag_elden -/

namespace TLA
variable {L : Type}

/-- Admissible call of tik_bidiag_elden: `A` has at least one column and as many rows as columns, the local arrays have the sizes the routine
allocates, and distinct objects do not overlap. -/
structure EldenOK (nb : Nat) (A b : MatV L) (tauv tauw : VecV L) (wk : MatV L) (work : VecV L) : Prop where
  hn : 0 < A.n
  hmn : A.n ≤ A.m
  hbm : b.m = A.m
  hnb : 0 < nb
  tvn : tauv.n = A.n
  twn : tauw.n = A.n
  wkm : wk.m = A.n
  wkn : wk.n = b.n
  brd : BrdOK A tauv tauw work
  binj : b.Inj
  kinj : wk.Inj
  dAb : A.Disj b
  dvb : tauv.DisjM b
  dwb : tauw.DisjM b
  dbw : b.DisjV work
  dbk : b.Disj wk
  dAk : A.Disj wk
  dwk : tauw.DisjM wk
  w1 : (gebrdWorksize nb A).size ≤ work.n
  w2 : (unmqBlkWorksize .Left b A.n nb).size ≤ work.n
  w3 : (unmqBlkWorksize .Left (b.sub 1 A.n 0 b.n) (A.n - 1) nb).size ≤ work.n

end TLA
