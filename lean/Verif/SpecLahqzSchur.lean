import Verif.Model.LahqzSchur
import Verif.SpecKernel
import Verif.SpecQz

/-!
# Vocabulary for the generalized Schur form of a 2 by 2 pencil
-/

namespace TLA.Kernel
open Matrix

def Pen.A (x : Pen) : Matrix (Fin 2) (Fin 2) ℝ := !![x.a00, x.a01; x.a10, x.a11]
def Pen.B (x : Pen) : Matrix (Fin 2) (Fin 2) ℝ := !![x.b00, x.b01; x.b10, x.b11]

/-- `Q` and `Z` as documented: `A = Q S Z'`, `B = Q T Z'`. -/
def QsOut.Q (o : QsOut) : Matrix (Fin 2) (Fin 2) ℝ := !![o.cl, -o.sl; o.sl, o.cl]
def QsOut.Z (o : QsOut) : Matrix (Fin 2) (Fin 2) ℝ := !![o.cr, -o.sr; o.sr, o.cr] * !![o.scal0, 0; 0, o.scal1]

end TLA.Kernel
