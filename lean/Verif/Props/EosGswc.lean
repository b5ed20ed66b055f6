import Verif.Model.EosGswc
import Mathlib.Analysis.Calculus.Deriv.Mul
import Mathlib.Analysis.Calculus.Deriv.Comp
import Mathlib.Analysis.Calculus.Deriv.Add
import Mathlib.Data.Real.Basic

/-! # Units of the derivatives in `gswc` -/

namespace Gswc
open FloatLike
open Fl hiding nan

/-- What the documentation of GSW says of `rho_first_derivatives`: derivatives of the density with respect to salinity, temperature,
and pressure **in Pa**, at finite arguments, where `rho` takes the pressure in dbar (1 dbar = 10 000 Pa). -/
structure GswDerivs (rho : ℝ → ℝ → ℝ → ℝ) (fd : Fl ℝ → Fl ℝ → Fl ℝ → Fl ℝ × Fl ℝ × Fl ℝ) (s t p : ℝ) where
  rs : ℝ
  rt : ℝ
  rpPa : ℝ
  val : fd (.fin s) (.fin t) (.fin p) = (.fin rs, .fin rt, .fin rpPa)
  hs : HasDerivAt (fun x => rho x t p) rs s
  ht : HasDerivAt (fun x => rho s x p) rt t
  hp : HasDerivAt (fun q => rho s t (q / 10000)) rpPa (10000 * p)

/-- **C116** Given what GSW documents, `rho_s_t` and `rho_p` are the derivatives of `rho` with respect to its own arguments; in
particular `rho_p` is per dbar. -/
theorem gswc_derivatives {rho : ℝ → ℝ → ℝ → ℝ} {fd : Fl ℝ → Fl ℝ → Fl ℝ → Fl ℝ × Fl ℝ × Fl ℝ} {s t p : ℝ}
    (h : GswDerivs rho fd s t p) :
    ∃ rs rt rp : ℝ, rhoST fd (.fin s) (.fin t) (.fin p) = (.fin rs, .fin rt) ∧ rhoP fd (.fin s) (.fin t) (.fin p) = .fin rp ∧
      HasDerivAt (fun x => rho x t p) rs s ∧ HasDerivAt (fun x => rho s x p) rt t ∧ HasDerivAt (fun x => rho s t x) rp p := by
  refine ⟨h.rs, h.rt, h.rpPa * 10000, ?_, ?_, h.hs, h.ht, ?_⟩
  · simp [rhoST, h.val]
  · simp only [rhoP, h.val, lit_eq, fin_mul]
    norm_num
  · have h1 : HasDerivAt (fun x : ℝ => 10000 * x) 10000 p := by
      simpa using (hasDerivAt_id p).const_mul (10000 : ℝ)
    have := HasDerivAt.comp p h.hp h1
    refine this.congr_of_eventuallyEq (Filter.Eventually.of_forall fun x => ?_)
    simp [Function.comp]

/-- The hypotheses can be met: `rho = s + t p`. -/
noncomputable example : GswDerivs (fun s t p => s + t * p) (fun _ t p => (.fin 1, p, t * .fin (1 / 10000))) 35 4 100 where
  rs := 1
  rt := 100
  rpPa := 4 / 10000
  val := by simp only [fin_mul]; norm_num
  hs := by simpa using (hasDerivAt_id (35 : ℝ)).add_const (4 * 100 : ℝ)
  ht := by simpa using ((hasDerivAt_id (4 : ℝ)).mul_const 100).const_add 35
  hp := by
    have := (((hasDerivAt_id (10000 * 100 : ℝ)).div_const 10000).const_mul 4).const_add 35
    simpa [div_eq_mul_inv] using this

end Gswc
