import Verif.Model.EosJmdfwg06
import Verif.Lemmas.Eos
import Verif.Props.Interp

/-!
# Properties of the jmdfwg06 equation of state (C51)
-/

namespace Jmdfwg06
open FloatLike Interp Eos
open Fl hiding nan

/-- A literal as a real number. -/
def cR (q : ℚ) : ℝ := q

/-- A coefficient as a real number. -/
def kR (n : Co) : ℝ := co n

theorem cf_eq (n : Co) : (cf n : Fl ℝ) = .fin (kR n) := rfl

/-- The numerator of the rational function. -/
noncomputable def N (s t p : ℝ) : ℝ := num kR s t p (t * t)

/-- The denominator of the rational function. -/
noncomputable def D (s t p : ℝ) : ℝ := den kR (Real.sqrt s) s t p (t * t)

/-- In-situ density as a rational function. -/
noncomputable def density (s t p : ℝ) : ℝ := N s t p / D s t p

/-- **C51** `rho` computes the rational function. -/
theorem rho_eq {s t p : ℝ} (hs : 0 ≤ s) (hD : D s t p ≠ 0) :
    rho (Fl.fin s) (.fin t) (.fin p) = some (.fin (density s t p)) := by
  have e1 : den cf (FloatSqrt.sqrt (Fl.fin s)) (Fl.fin s) (.fin t) (.fin p) (Fl.fin (t * t)) = .fin (D s t p) := by
    rw [sqrt_fin hs]; simp only [den, cf_eq, fin_add, fin_mul, D]
  have e2 : num cf (Fl.fin s) (.fin t) (.fin p) (Fl.fin (t * t)) = .fin (N s t p) := by
    simp only [num, cf_eq, fin_add, fin_mul, N]
  unfold rho
  simp only [e1, e2, lit_eq, sdiv_fin hD, Option.bind_eq_bind, Option.bind_some, Option.pure_def, fin_mul, density]
  rw [show ((1.0 : ℚ) : ℝ) = 1 by norm_num, mul_one_div]

/-! ### Derivatives of the numerator and denominator -/

theorem D_split (t p : ℝ) : ∃ A B E : ℝ, ∀ r s, den kR r s t p (t * t) = A + B * s + E * (s * r) ∧
    denS cR kR r t (t * t) = B + E * (3 / 2 * r) := by
  refine ⟨den kR 0 0 t p (t * t), den kR 0 1 t p (t * t) - den kR 0 0 t p (t * t),
    den kR 1 1 t p (t * t) - den kR 0 1 t p (t * t), fun r s => ⟨?_, ?_⟩⟩
  · simp only [den]; ring
  · have : cR 1.5 = 3 / 2 := by norm_num [cR]
    simp only [den, denS, this]; ring

theorem D_deriv_s {s t p : ℝ} (hs : 0 ≤ s) :
    HasDerivWithinAt (fun s => D s t p) (denS cR kR (Real.sqrt s) t (t * t)) (Set.Ici 0) s := by
  obtain ⟨A, B, E, h⟩ := D_split t p
  have e : (fun s => D s t p) = fun s => A + B * s + E * (s * Real.sqrt s) := funext fun s => (h _ s).1
  rw [e, (h _ s).2]
  have h1 : HasDerivWithinAt (fun s : ℝ => A + B * s) (0 + B * 1) (Set.Ici 0) s :=
    ((hasDerivAt_const s A).fun_add ((hasDerivAt_id' s).const_mul B)).hasDerivWithinAt
  refine (h1.fun_add ((hasDeriv_mul_sqrt hs).const_mul E)).congr_deriv ?_
  ring

theorem N_deriv_s (s t p : ℝ) : HasDerivAt (fun s => N s t p) (numS cR kR s t p) s := by
  have h2 : cR 2.0 = 2 := by norm_num [cR]
  unfold N
  simp only [num, numS, h2]
  refine HasDerivAt.congr_deriv (by hderiv) ?_
  ring

theorem N_deriv_t (s t p : ℝ) : HasDerivAt (fun t => N s t p) (numT cR kR s t p (p * t)) t := by
  have h2 : cR 2.0 = 2 := by norm_num [cR]
  have h3 : cR 3.0 = 3 := by norm_num [cR]
  unfold N
  simp only [num, numT, h2, h3]
  refine HasDerivAt.congr_deriv (by hderiv) ?_
  ring

theorem D_deriv_t (s t p : ℝ) : HasDerivAt (fun t => D s t p)
    (denT cR kR (Real.sqrt s) s t p (t * t) (p * t)) t := by
  have h2 : cR 2.0 = 2 := by norm_num [cR]
  have h3 : cR 3.0 = 3 := by norm_num [cR]
  have h4 : cR 4.0 = 4 := by norm_num [cR]
  unfold D
  simp only [den, denT, h2, h3, h4]
  refine HasDerivAt.congr_deriv (by hderiv) ?_
  ring

theorem N_deriv_p (s t p : ℝ) : HasDerivAt (fun p => N s t p) (numP_ cR kR s (t * t) p) p := by
  have h2 : cR 2.0 = 2 := by norm_num [cR]
  unfold N
  simp only [num, numP_, h2]
  refine HasDerivAt.congr_deriv (by hderiv) ?_
  ring

theorem D_deriv_p (s t p : ℝ) : HasDerivAt (fun p => D s t p) (denP_ cR kR t p (t * t)) p := by
  have h2 : cR 2.0 = 2 := by norm_num [cR]
  have h3 : cR 3.0 = 3 := by norm_num [cR]
  unfold D
  simp only [den, denP_, h2, h3]
  refine HasDerivAt.congr_deriv (by hderiv) ?_
  ring

/-- The quotient rule in the form used by the code. -/
theorem quotient_rule {f g : ℝ → ℝ} {f' g' x : ℝ} {S : Set ℝ} (hf : HasDerivWithinAt f f' S x) (hg : HasDerivWithinAt g g' S x)
    (hg0 : g x ≠ 0) : HasDerivWithinAt (fun x => f x / g x) ((f' - f x * g' * (1 / g x)) * (1 / g x)) S x := by
  refine (hf.fun_div hg hg0).congr_deriv ?_
  field_simp

/-- The value of the salinity derivative. -/
noncomputable def dS (s t p : ℝ) : ℝ :=
  (numS cR kR s t p - N s t p * denS cR kR (Real.sqrt s) t (t * t) * (1 / D s t p)) * (1 / D s t p)

/-- The value of the temperature derivative. -/
noncomputable def dT (s t p : ℝ) : ℝ :=
  (numT cR kR s t p (p * t) - N s t p * denT cR kR (Real.sqrt s) s t p (t * t) (p * t) * (1 / D s t p)) * (1 / D s t p)

/-- The value of the pressure derivative. -/
noncomputable def dP (s t p : ℝ) : ℝ :=
  (numP_ cR kR s (t * t) p - N s t p * denP_ cR kR t p (t * t) * (1 / D s t p)) * (1 / D s t p)

theorem rhoST_val {s t p : ℝ} (hs : 0 ≤ s) (hD : D s t p ≠ 0) :
    rhoST (Fl.fin s) (.fin t) (.fin p) = some (.fin (dS s t p), .fin (dT s t p)) := by
  have e1 : denST cf (Fl.fin (Real.sqrt s)) (Fl.fin s) (.fin t) (.fin p) (Fl.fin (t * t)) (.fin (p * t))
      = .fin (D s t p) := by
    simp only [denST, den, cf_eq, fin_add, fin_mul, D, mul_assoc]
  have e2 : numST cf (Fl.fin s) (.fin t) (.fin p) (Fl.fin (t * t)) = .fin (N s t p) := by
    simp only [numST, num, cf_eq, fin_add, fin_mul, N]
  unfold rhoST
  simp only [sqrt_fin hs, e1, e2, numS, numT, denS, denT, lit_eq, cf_eq, sdiv_fin hD, Option.bind_eq_bind, Option.bind_some,
    Option.pure_def, fin_mul, fin_add, fin_sub, cR, show ((1.0 : ℚ) : ℝ) = 1 by norm_num, dS, dT]

theorem rhoP_val {s t p : ℝ} (hs : 0 ≤ s) (hD : D s t p ≠ 0) :
    rhoP (Fl.fin s) (.fin t) (.fin p) = some (.fin (dP s t p)) := by
  have e1 : denP cf (FloatSqrt.sqrt (Fl.fin s)) (Fl.fin s) (.fin t) (.fin p) (Fl.fin (t * t)) = .fin (D s t p) := by
    rw [sqrt_fin hs]; simp only [denP, den, cf_eq, fin_add, fin_mul, D]
  have e2 : numP cf (Fl.fin s) (.fin t) (.fin p) (Fl.fin (t * t)) = .fin (N s t p) := by
    simp only [numP, num, cf_eq, fin_add, fin_mul, N]
  unfold rhoP
  simp only [e1, e2, numP_, denP_, lit_eq, cf_eq, sdiv_fin hD, Option.bind_eq_bind, Option.bind_some,
    Option.pure_def, fin_mul, fin_add, fin_sub, cR, show ((1.0 : ℚ) : ℝ) = 1 by norm_num, dP]

theorem density_deriv_s {s t p : ℝ} (hs : 0 ≤ s) (hD : D s t p ≠ 0) :
    HasDerivWithinAt (fun s => density s t p) (dS s t p) (Set.Ici 0) s :=
  quotient_rule (f := fun s => N s t p) (g := fun s => D s t p) (N_deriv_s s t p).hasDerivWithinAt (D_deriv_s hs) hD

theorem density_deriv_t {s t p : ℝ} (hD : D s t p ≠ 0) : HasDerivAt (fun t => density s t p) (dT s t p) t := by
  have := quotient_rule (f := fun t => N s t p) (g := fun t => D s t p) (N_deriv_t s t p).hasDerivWithinAt
    (D_deriv_t s t p).hasDerivWithinAt hD (S := Set.univ)
  rwa [hasDerivWithinAt_univ] at this

theorem density_deriv_p {s t p : ℝ} (hD : D s t p ≠ 0) : HasDerivAt (fun p => density s t p) (dP s t p) p := by
  have := quotient_rule (f := fun p => N s t p) (g := fun p => D s t p) (N_deriv_p s t p).hasDerivWithinAt
    (D_deriv_p s t p).hasDerivWithinAt hD (S := Set.univ)
  rwa [hasDerivWithinAt_univ] at this

/-- **C51** `rho_s_t` returns the exact partial derivatives of the density in salinity (for every `s ≥ 0`; from the
right at `s = 0`) and temperature. -/
theorem rhoST_derivatives {s t p : ℝ} (hs : 0 ≤ s) (hD : D s t p ≠ 0) :
    ∃ a b : ℝ, rhoST (Fl.fin s) (.fin t) (.fin p) = some (.fin a, .fin b) ∧
      HasDerivWithinAt (fun s => density s t p) a (Set.Ici 0) s ∧ HasDerivAt (fun t => density s t p) b t :=
  ⟨_, _, rhoST_val hs hD, density_deriv_s hs hD, density_deriv_t hD⟩

/-- **C51** `rho_p` returns the exact partial derivative of the density in pressure. -/
theorem rhoP_derivative {s t p : ℝ} (hs : 0 ≤ s) (hD : D s t p ≠ 0) :
    ∃ a : ℝ, rhoP (Fl.fin s) (.fin t) (.fin p) = some (.fin a) ∧ HasDerivAt (fun p => density s t p) a p :=
  ⟨_, rhoP_val hs hD, density_deriv_p hD⟩

/-! ### NaN -/

theorem sdiv_nan_right (x : Fl ℝ) : sdiv x Fl.nan = some Fl.nan := by
  unfold sdiv
  rw [div_nan]
  rfl

/-- **C93** NaN in any argument, or a negative salinity, gives NaN density. -/
theorem jmdfwg06_nan (s t p : Fl ℝ) (h : isNaN s = true ∨ isNaN t = true ∨ isNaN p = true ∨ lt s (lit 0) = true) :
    rho s t p = some Fl.nan := by
  have hs : FloatSqrt.sqrt (Fl.nan : Fl ℝ) = Fl.nan := rfl
  have key : den cf (FloatSqrt.sqrt s) s t p (t * t) = Fl.nan := by
    simp only [isNaN_iff] at h
    rcases h with rfl | rfl | rfl | h
    · simp only [hs, den, nan_add, add_nan, nan_mul, mul_nan]
    · simp only [den, nan_add, add_nan, nan_mul, mul_nan]
    · simp only [den, nan_add, add_nan, nan_mul, mul_nan]
    · have : FloatSqrt.sqrt s = Fl.nan := by
        cases s with
        | nan => rfl
        | ninf => rfl
        | pinf => exact absurd h Bool.false_ne_true
        | fin x =>
          rw [lit_eq, Rat.cast_zero, lt_fin, decide_eq_true_eq] at h
          exact sqrt_neg h
      rw [this]
      simp only [den, nan_add, add_nan, nan_mul, mul_nan]
  unfold rho
  simp only [key, sdiv_nan_right, Option.bind_eq_bind, Option.bind_some, Option.pure_def, mul_nan]

end Jmdfwg06
