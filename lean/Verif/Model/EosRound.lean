import Verif.Model.EosBase
import Verif.Model.Rounding

/-!
# Square root in rounded arithmetic
-/

namespace Eos
variable {rnd : ℝ → ℝ}

/-- `np.sqrt` as used at `/repo/neutralocean/eos/jmd95.py` lines 152, 212, 339, `/repo/neutralocean/eos/jmdfwg06.py` lines 103, 134, 215
and `/repo/neutralocean/eos/gsw.py` line 473, on `float64`: the rounded square root (IEEE 754 requires this). -/
noncomputable instance : FloatSqrt (Rfl rnd) where
  sqrt x := Rfl.round rnd (flSqrt x)

end Eos
