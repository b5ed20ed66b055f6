import Verif.Model.Interp
import Mathlib.Analysis.SpecialFunctions.Sqrt

/-!
# Numbers for the equations of state

A square root on top of `FloatLike`.
-/

namespace Eos
open FloatLike

/-- Floating point with `np.sqrt`, used at `/repo/neutralocean/eos/jmd95.py` lines 152, 212, 339,
`/repo/neutralocean/eos/jmdfwg06.py` lines 103, 134, 215 and `/repo/neutralocean/eos/gsw.py` line 473. -/
class FloatSqrt (F : Type*) extends FloatLike F where
  sqrt : F → F

/-- `np.sqrt` on exact numbers: NaN below zero. -/
noncomputable def flSqrt : Fl ℝ → Fl ℝ
  | .nan => .nan
  | .ninf => .nan
  | .pinf => .pinf
  | .fin x => if x < 0 then .nan else .fin (Real.sqrt x)

noncomputable instance : FloatSqrt (Fl ℝ) where
  sqrt := flSqrt

end Eos
