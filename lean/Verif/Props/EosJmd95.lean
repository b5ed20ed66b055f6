import Verif.Model.EosJmd95
import Verif.Lemmas.Eos
import Verif.Props.Interp

/-!
# Properties of the jmd95 equation of state (C50)
-/

namespace Jmd95
open FloatLike Interp Eos
open Fl hiding nan

/-- A literal as a real number. -/
def cR (q : ℚ) : ℝ := q

/-- A coefficient as a real number. -/
def kR (n : Co) : ℝ := co n

/-! ### The two spellings of the coefficients agree -/

theorem bulkLit_eq {R : Type*} [Add R] [Sub R] [Mul R] (c : ℚ → R) (r s t p : R) :
    bulkLit c r s t p = bulk (fun n => c (co n)) r s t p := rfl

theorem dens0Lit_eq {R : Type*} [Add R] [Sub R] [Mul R] (c : ℚ → R) (r s t : R) :
    dens0Lit c r s t = dens0InS (fun n => c (co n)) r s t := rfl

theorem dens0InT_eq {R : Type*} [Add R] [Sub R] [Mul R] (k : Co → R) (r s t : R) :
    dens0InT k r s t = dens0InS k r s t := rfl

theorem pRho_eq {R : Type*} [Add R] [Sub R] [Mul R] (k : Co → R) (r s t : R) : pRho k r s t = dens0InS k r s t := rfl

theorem pK_eq (k : Co → ℝ) (r s t p : ℝ) : pK k r s t p (pK1plusK2 k r s t (pK2 k s t p)) = bulk k r s t p := by
  simp only [pK, pK1plusK2, pK2, bulk]; ring

/-! ### Exact values -/

theorem num_eq (n : Co) : (num n : Fl ℝ) = .fin (kR n) := rfl

theorem bulk_fin (r s t p : ℝ) : bulk (num (F := Fl ℝ)) (.fin r) (.fin s) (.fin t) (.fin p) = .fin (bulk kR r s t p) := by
  simp only [bulk, num_eq, fin_add, fin_mul]

theorem dens0_fin (r s t : ℝ) : dens0InS (num (F := Fl ℝ)) (.fin r) (.fin s) (.fin t) = .fin (dens0InS kR r s t) := by
  simp only [dens0InS, num_eq, fin_add, fin_mul]

theorem bulkS_fin (r s t p : ℝ) : bulkS lit (num (F := Fl ℝ)) (.fin r) (.fin s) (.fin t) (.fin p) = .fin (bulkS cR kR r s t p) := by
  simp only [bulkS, num_eq, fin_add, fin_mul, lit_eq, cR]

theorem dens0S_fin (r s t : ℝ) : dens0S lit (num (F := Fl ℝ)) (.fin r) (.fin s) (.fin t) = .fin (dens0S cR kR r s t) := by
  simp only [dens0S, num_eq, fin_add, fin_mul, lit_eq, cR]

theorem bulkT_fin (r s t p : ℝ) : bulkT lit (num (F := Fl ℝ)) (.fin r) (.fin s) (.fin t) (.fin p) = .fin (bulkT cR kR r s t p) := by
  simp only [bulkT, num_eq, fin_add, fin_mul, lit_eq, cR]

theorem dens0T_fin (r s t : ℝ) : dens0T lit (num (F := Fl ℝ)) (.fin r) (.fin s) (.fin t) = .fin (dens0T cR kR r s t) := by
  simp only [dens0T, num_eq, fin_add, fin_mul, lit_eq, cR]

theorem pK2_fin (s t p : ℝ) : pK2 (num (F := Fl ℝ)) (.fin s) (.fin t) (.fin p) = .fin (pK2 kR s t p) := by
  simp only [pK2, num_eq, fin_add, fin_mul]

theorem pK1_fin (r s t q : ℝ) : pK1plusK2 (num (F := Fl ℝ)) (.fin r) (.fin s) (.fin t) (.fin q) = .fin (pK1plusK2 kR r s t q) := by
  simp only [pK1plusK2, num_eq, fin_add, fin_mul]

theorem pK_fin (r s t p q : ℝ) : pK (num (F := Fl ℝ)) (.fin r) (.fin s) (.fin t) (.fin p) (.fin q) = .fin (pK kR r s t p q) := by
  simp only [pK, num_eq, fin_add, fin_mul]

/-- The secant bulk modulus. -/
noncomputable def K (s t p : ℝ) : ℝ := bulk kR (Real.sqrt s) s t p

/-- Density at zero pressure. -/
noncomputable def rho0 (s t : ℝ) : ℝ := dens0InS kR (Real.sqrt s) s t

/-- In-situ density, `ρ₀ / (1 - p / K)`. -/
noncomputable def density (s t p : ℝ) : ℝ := rho0 s t / (1 - p / K s t p)

/-- **C50** `rho` computes `ρ₀ / (1 - p / K)`. -/
theorem rho_eq {s t p : ℝ} (hs : 0 ≤ s) (hK : K s t p ≠ 0) (hp : K s t p ≠ p) :
    rho (Fl.fin s) (.fin t) (.fin p) = some (.fin (density s t p)) := by
  have h1 : (1 : ℝ) - p / K s t p ≠ 0 := by
    intro h
    apply hp
    field_simp at h
    linarith
  unfold rho
  have e1 : bulkLit lit (FloatSqrt.sqrt (Fl.fin s)) (Fl.fin s) (.fin t) (.fin p) = .fin (K s t p) := by
    rw [sqrt_fin hs, bulkLit_eq]; exact bulk_fin _ _ _ _
  have e2 : dens0Lit lit (FloatSqrt.sqrt (Fl.fin s)) (Fl.fin s) (.fin t) = .fin (rho0 s t) := by
    rw [sqrt_fin hs, dens0Lit_eq]; exact dens0_fin _ _ _
  simp only [e1, e2, sdiv_fin hK]
  show sdiv (Fl.fin (rho0 s t)) (lit 1.0 - Fl.fin (p / K s t p)) = _
  rw [lit_eq, fin_sub, show ((1.0 : ℚ) : ℝ) = 1 by norm_num, sdiv_fin h1]
  rfl

/-! ### Derivatives -/

theorem bulk_split (t p : ℝ) : ∃ A B D : ℝ, ∀ r s, bulk kR r s t p = A + B * s + D * (s * r) ∧
    bulkS cR kR r s t p = B + D * (3 / 2 * r) := by
  refine ⟨bulk kR 0 0 t p, bulk kR 0 1 t p - bulk kR 0 0 t p, bulk kR 1 1 t p - bulk kR 0 1 t p, fun r s => ⟨?_, ?_⟩⟩
  · simp only [bulk]; ring
  · have : cR 1.5 = 3 / 2 := by norm_num [cR]
    simp only [bulk, bulkS, this]; ring

theorem dens0_split (t : ℝ) : ∃ A B D E : ℝ, ∀ r s, dens0InS kR r s t = A + B * s + D * (s * r) + E * (s * s) ∧
    dens0S cR kR r s t = B + D * (3 / 2 * r) + E * (2 * s) := by
  refine ⟨dens0InS kR 0 0 t, dens0InS kR 0 1 t - dens0InS kR 0 0 t - kR .CSw8, dens0InS kR 1 1 t - dens0InS kR 0 1 t, kR .CSw8,
    fun r s => ⟨?_, ?_⟩⟩
  · simp only [dens0InS]; ring
  · have : cR 1.5 = 3 / 2 := by norm_num [cR]
    have h2 : cR 2.0 = 2 := by norm_num [cR]
    simp only [dens0InS, dens0S, this, h2]; ring

theorem K_deriv_s {s t p : ℝ} (hs : 0 ≤ s) :
    HasDerivWithinAt (fun s => K s t p) (bulkS cR kR (Real.sqrt s) s t p) (Set.Ici 0) s := by
  obtain ⟨A, B, D, h⟩ := bulk_split t p
  have e : (fun s => K s t p) = fun s => A + B * s + D * (s * Real.sqrt s) := funext fun s => (h _ s).1
  rw [e, (h _ s).2]
  have h1 : HasDerivWithinAt (fun s : ℝ => A + B * s) (0 + B * 1) (Set.Ici 0) s :=
    ((hasDerivAt_const s A).fun_add ((hasDerivAt_id' s).const_mul B)).hasDerivWithinAt
  refine (h1.fun_add ((hasDeriv_mul_sqrt hs).const_mul D)).congr_deriv ?_
  ring

theorem rho0_deriv_s {s t : ℝ} (hs : 0 ≤ s) :
    HasDerivWithinAt (fun s => rho0 s t) (dens0S cR kR (Real.sqrt s) s t) (Set.Ici 0) s := by
  obtain ⟨A, B, D, E, h⟩ := dens0_split t
  have e : (fun s => rho0 s t) = fun s => A + B * s + D * (s * Real.sqrt s) + E * (s * s) := funext fun s => (h _ s).1
  rw [e, (h _ s).2]
  have h1 : HasDerivWithinAt (fun s : ℝ => A + B * s) (0 + B * 1) (Set.Ici 0) s :=
    ((hasDerivAt_const s A).fun_add ((hasDerivAt_id' s).const_mul B)).hasDerivWithinAt
  have h2 : HasDerivWithinAt (fun s : ℝ => E * (s * s)) (E * (1 * s + s * 1)) (Set.Ici 0) s :=
    (((hasDerivAt_id' s).fun_mul (hasDerivAt_id' s)).const_mul E).hasDerivWithinAt
  refine ((h1.fun_add ((hasDeriv_mul_sqrt hs).const_mul D)).fun_add h2).congr_deriv ?_
  ring

theorem K_deriv_t (s t p : ℝ) : HasDerivAt (fun t => K s t p) (bulkT cR kR (Real.sqrt s) s t p) t := by
  have h2 : cR 2.0 = 2 := by norm_num [cR]
  have h3 : cR 3.0 = 3 := by norm_num [cR]
  have h4 : cR 4.0 = 4 := by norm_num [cR]
  unfold K
  simp only [bulk, bulkT, h2, h3, h4]
  refine HasDerivAt.congr_deriv (by hderiv) ?_
  ring

theorem rho0_deriv_t (s t : ℝ) : HasDerivAt (fun t => rho0 s t) (dens0T cR kR (Real.sqrt s) s t) t := by
  have h2 : cR 2.0 = 2 := by norm_num [cR]
  have h3 : cR 3.0 = 3 := by norm_num [cR]
  have h4 : cR 4.0 = 4 := by norm_num [cR]
  have h5 : cR 5.0 = 5 := by norm_num [cR]
  unfold rho0
  simp only [dens0InS, dens0T, h2, h3, h4, h5]
  refine HasDerivAt.congr_deriv (by hderiv) ?_
  ring

theorem K_deriv_p (s t p : ℝ) : HasDerivAt (fun p => K s t p)
    (pK1plusK2 kR (Real.sqrt s) s t (pK2 kR s t p) + pK2 kR s t p) p := by
  unfold K
  simp only [bulk, pK1plusK2, pK2]
  refine HasDerivAt.congr_deriv (by hderiv) ?_
  ring

/-- The quotient rule for `ρ₀ / (1 - p / K)`, in the form used by the code. -/
theorem quotient_rule {f g : ℝ → ℝ} {f' g' x p : ℝ} {S : Set ℝ} (hf : HasDerivWithinAt f f' S x) (hg : HasDerivWithinAt g g' S x)
    (hK : g x ≠ 0) (hp : g x - p ≠ 0) : HasDerivWithinAt (fun x => f x / (1 - p / g x))
      ((f' * g x - f x * p / (g x - p) * g') / (g x - p)) S x := by
  have h1 : (1 : ℝ) - p / g x ≠ 0 := by
    intro h
    apply hp
    field_simp at h
    linarith
  have hq : HasDerivWithinAt (fun x => 1 - p / g x) (0 - (0 * g x - p * g') / g x ^ 2) S x :=
    ((hasDerivWithinAt_const x S (1 : ℝ)).fun_sub ((hasDerivWithinAt_const x S p).fun_div hg hK))
  refine (hf.fun_div hq h1).congr_deriv ?_
  have e : (1 : ℝ) - p / g x = (g x - p) / g x := by field_simp
  rw [e]
  field_simp
  ring

/-- The value of the salinity derivative. -/
noncomputable def dS (s t p : ℝ) : ℝ :=
  (dens0S cR kR (Real.sqrt s) s t * K s t p - rho0 s t * p / (K s t p - p) * bulkS cR kR (Real.sqrt s) s t p) / (K s t p - p)

/-- The value of the temperature derivative. -/
noncomputable def dT (s t p : ℝ) : ℝ :=
  (dens0T cR kR (Real.sqrt s) s t * K s t p - rho0 s t * p / (K s t p - p) * bulkT cR kR (Real.sqrt s) s t p) / (K s t p - p)

/-- The value of the pressure derivative. -/
noncomputable def dP (s t p : ℝ) : ℝ :=
  rho0 s t * (K s t p - p * (pK1plusK2 kR (Real.sqrt s) s t (pK2 kR s t p) + pK2 kR s t p)) / ((K s t p - p) * (K s t p - p))

theorem rhoST_val {s t p : ℝ} (hs : 0 ≤ s) (hp : K s t p ≠ p) :
    rhoST (Fl.fin s) (.fin t) (.fin p) = some (.fin (dS s t p), .fin (dT s t p)) := by
  have hd : K s t p - p ≠ 0 := sub_ne_zero.mpr hp
  unfold rhoST
  simp only [sqrt_fin hs, bulk_fin, dens0InT_eq, dens0_fin, dens0S_fin, bulkS_fin, dens0T_fin, bulkT_fin]
  rw [show bulk kR (Real.sqrt s) s t p = K s t p from rfl, show dens0InS kR (Real.sqrt s) s t = rho0 s t from rfl]
  simp only [fin_mul, fin_sub, sdiv_fin hd, Option.bind_eq_bind, Option.bind_some, Option.pure_def]
  rfl

theorem rhoP_val {s t p : ℝ} (hs : 0 ≤ s) (hp : K s t p ≠ p) :
    rhoP (Fl.fin s) (.fin t) (.fin p) = some (.fin (dP s t p)) := by
  have hd : K s t p - p ≠ 0 := sub_ne_zero.mpr hp
  unfold rhoP
  simp only [sqrt_fin hs, pK2_fin, pK1_fin, pK_fin, pRho_eq, dens0_fin, pK_eq]
  rw [show bulk kR (Real.sqrt s) s t p = K s t p from rfl, show dens0InS kR (Real.sqrt s) s t = rho0 s t from rfl]
  simp only [fin_add, fin_mul, fin_sub, sdiv_fin (mul_ne_zero hd hd)]
  rfl

theorem density_deriv_s {s t p : ℝ} (hs : 0 ≤ s) (hK : K s t p ≠ 0) (hp : K s t p ≠ p) :
    HasDerivWithinAt (fun s => density s t p) (dS s t p) (Set.Ici 0) s :=
  quotient_rule (f := fun s => rho0 s t) (g := fun s => K s t p) (rho0_deriv_s hs) (K_deriv_s hs) hK (sub_ne_zero.mpr hp)

theorem density_deriv_t {s t p : ℝ} (hK : K s t p ≠ 0) (hp : K s t p ≠ p) :
    HasDerivAt (fun t => density s t p) (dT s t p) t := by
  have := quotient_rule (f := fun t => rho0 s t) (g := fun t => K s t p) (rho0_deriv_t s t).hasDerivWithinAt
    (K_deriv_t s t p).hasDerivWithinAt hK (sub_ne_zero.mpr hp) (S := Set.univ)
  rwa [hasDerivWithinAt_univ] at this

theorem density_deriv_p {s t p : ℝ} (hK : K s t p ≠ 0) (hp : K s t p ≠ p) :
    HasDerivAt (fun p => density s t p) (dP s t p) p := by
  have hd : K s t p - p ≠ 0 := sub_ne_zero.mpr hp
  have h1 : (1 : ℝ) - p / K s t p ≠ 0 := by
    intro h
    apply hp
    field_simp at h
    linarith
  have hq := (hasDerivAt_const p (1 : ℝ)).fun_sub ((hasDerivAt_id' p).fun_div (K_deriv_p s t p) hK)
  have := (hasDerivAt_const p (rho0 s t)).fun_div hq h1
  refine this.congr_deriv ?_
  have e : (1 : ℝ) - p / K s t p = (K s t p - p) / K s t p := by field_simp
  unfold dP
  rw [e]
  field_simp
  ring

/-- **C50** `rho_s_t` returns the exact partial derivatives of the density in salinity (for every `s ≥ 0`; from the
right at `s = 0`) and temperature, wherever the density is defined. -/
theorem rhoST_derivatives {s t p : ℝ} (hs : 0 ≤ s) (hK : K s t p ≠ 0) (hp : K s t p ≠ p) :
    ∃ a b : ℝ, rhoST (Fl.fin s) (.fin t) (.fin p) = some (.fin a, .fin b) ∧
      HasDerivWithinAt (fun s => density s t p) a (Set.Ici 0) s ∧ HasDerivAt (fun t => density s t p) b t :=
  ⟨_, _, rhoST_val hs hp, density_deriv_s hs hK hp, density_deriv_t hK hp⟩

/-- **C50** `rho_p` returns the exact partial derivative of the density in pressure. -/
theorem rhoP_derivative {s t p : ℝ} (hs : 0 ≤ s) (hK : K s t p ≠ 0) (hp : K s t p ≠ p) :
    ∃ a : ℝ, rhoP (Fl.fin s) (.fin t) (.fin p) = some (.fin a) ∧ HasDerivAt (fun p => density s t p) a p :=
  ⟨_, rhoP_val hs hp, density_deriv_p hK hp⟩

/-! ### NaN -/

theorem sdiv_nan_right (x : Fl ℝ) : sdiv x Fl.nan = some Fl.nan := by
  unfold sdiv
  rw [div_nan]
  rfl

theorem sdiv_nan_left {x y : Fl ℝ} {w : Fl ℝ} (h : sdiv x y = some w) : sdiv Fl.nan y = some Fl.nan := by
  unfold sdiv at h ⊢
  split_ifs at h ⊢
  rw [nan_div]

/-- **C93** NaN in any argument, or a negative salinity, gives NaN density. -/
theorem jmd95_nan (s t p : Fl ℝ) (h : isNaN s = true ∨ isNaN t = true ∨ isNaN p = true ∨ lt s (lit 0) = true) :
    rho s t p = some Fl.nan := by
  have hs : FloatSqrt.sqrt (Fl.nan : Fl ℝ) = Fl.nan := rfl
  have key : bulkLit lit (FloatSqrt.sqrt s) s t p = Fl.nan := by
    simp only [isNaN_iff] at h
    rcases h with rfl | rfl | rfl | h
    · simp only [hs, bulkLit, nan_add, add_nan, nan_mul, mul_nan]
    · simp only [bulkLit, nan_add, add_nan, nan_mul, mul_nan]
    · simp only [bulkLit, nan_add, add_nan, nan_mul, mul_nan]
    · have : FloatSqrt.sqrt s = Fl.nan := by
        cases s with
        | nan => rfl
        | ninf => rfl
        | pinf => exact absurd h Bool.false_ne_true
        | fin x =>
          rw [lit_eq, Rat.cast_zero, lt_fin, decide_eq_true_eq] at h
          exact sqrt_neg h
      rw [this]
      simp only [bulkLit, nan_add, add_nan, nan_mul, mul_nan]
  unfold rho
  simp only [key, sdiv_nan_right, Option.bind_eq_bind, Option.bind_some, sub_nan]

end Jmd95
