import Verif.Model.EosBase
import Verif.Lemmas.InterpExact
import Mathlib.Analysis.Calculus.Deriv.Mul
import Mathlib.Analysis.Calculus.Deriv.Add
import Mathlib.Analysis.Calculus.Deriv.Inv
import Mathlib.Analysis.Calculus.Deriv.Comp
import Mathlib.Analysis.Calculus.Deriv.Slope
import Mathlib.Tactic.FieldSimp
import Mathlib.Tactic.Ring
import Mathlib.Tactic.NormNum.OfScientific

/-!
# Lemmas for the equations of state
-/

namespace Eos
open FloatLike Interp
open Fl hiding nan

/-- Differentiate an expression built from sums, differences and products. -/
macro "hderiv" : tactic => `(tactic|
  repeat' first
    | exact hasDerivAt_const _ _
    | exact hasDerivAt_id' _
    | apply HasDerivAt.fun_add
    | apply HasDerivAt.fun_sub
    | apply HasDerivAt.fun_mul)

@[simp] theorem sqrt_fin {x : ℝ} (h : 0 ≤ x) : FloatSqrt.sqrt (Fl.fin x) = Fl.fin (Real.sqrt x) := by
  show flSqrt (.fin x) = _
  simp only [flSqrt]
  rw [if_neg (not_lt.mpr h)]

theorem sqrt_neg {x : ℝ} (h : x < 0) : FloatSqrt.sqrt (Fl.fin x) = (Fl.nan : Fl ℝ) := by
  show flSqrt (.fin x) = _
  simp only [flSqrt]
  rw [if_pos h]

/-- `s * sqrt s` is differentiable at every `s ≥ 0` (from the right at zero). -/
theorem hasDeriv_mul_sqrt {s : ℝ} (hs : 0 ≤ s) :
    HasDerivWithinAt (fun s => s * Real.sqrt s) (3 / 2 * Real.sqrt s) (Set.Ici 0) s := by
  rcases hs.eq_or_lt with h | h
  · subst h
    rw [Real.sqrt_zero, mul_zero, hasDerivWithinAt_iff_tendsto_slope]
    have : Filter.Tendsto (fun x : ℝ => Real.sqrt x) (nhdsWithin 0 (Set.Ici 0 \ {0})) (nhds 0) := by
      have := (Real.continuous_sqrt.tendsto (0 : ℝ)).mono_left (nhdsWithin_le_nhds (s := Set.Ici 0 \ {0}))
      rwa [Real.sqrt_zero] at this
    refine this.congr' ?_
    filter_upwards [self_mem_nhdsWithin] with x hx
    have hx0 : x ≠ 0 := hx.2
    rw [slope_def_field]
    simp only [sub_zero, zero_mul]
    field_simp
  · have h1 := (hasDerivAt_id' s).fun_mul (Real.hasDerivAt_sqrt h.ne')
    apply HasDerivAt.hasDerivWithinAt
    refine h1.congr_deriv ?_
    have hp := Real.sqrt_pos.mpr h
    have hq := Real.mul_self_sqrt hs
    field_simp
    nlinarith [hq]

end Eos
