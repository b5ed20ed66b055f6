import Verif.Lemmas.FzeroBounds
import Mathlib.Topology.Order.IntermediateValue
import Mathlib.Topology.Instances.Real.Lemmas

/-!
# Root finding: properties C01–C06 (and C63)

`f : Fl α → Fl α` is the Python function; `g : α → α` is its exact value on the search range.
-/

namespace Fzero
open FloatLike
open Fl hiding nan

variable {α : Type*} [Field α] [LinearOrder α] [IsStrictOrderedRing α]

/-- `f` is finite on `[A, B]`, with value `g`. -/
def FiniteOn (f : Fl α → Fl α) (g : α → α) (A B : α) : Prop :=
  ∀ x, A ≤ x → x ≤ B → f (fin x) = fin (g x)

/-- A piecewise linear test function with root `1/2`: used to show hypotheses are satisfiable. -/
def exF : Fl ℚ → Fl ℚ
  | fin x => fin (x - 1/2)
  | _ => Fl.nan

/-- **C01** Whenever `brent` returns on a bracketing interval (any fuel, `t ≥ 0`), the result is a number
in `[a,b]` which is a root or is within `2*(2*eps*|r|+t)` of a point where `f` has the opposite sign. -/
theorem brent_sign_change {f : Fl α → Fl α} {g : α → α} {a b t : α} {fuel : ℕ} {r : Fl α}
    (hab : a ≤ b) (hf : FiniteOn f g a b) (ht : 0 ≤ t) (hs : g a * g b ≤ 0)
    (hr : brent fuel f (fin a) (fin b) (fin t) = .ret r) :
    ∃ x, r = fin x ∧ a ≤ x ∧ x ≤ b ∧
      (g x = 0 ∨ ∃ c, a ≤ c ∧ c ≤ b ∧ |c - x| ≤ 2 * (2 * (1 / 2 ^ 52) * |x| + t) ∧ g x * g c < 0) := by
  have ha := hf a (le_refl _) hab
  have hb := hf b hab (le_refl _)
  unfold brent at hr
  simp only [isNaN_fin, lt_fin, ha, hb, fin_mul, lit_eq, Rat.cast_zero, Bool.false_or, fin_sub] at hr
  rw [if_neg (by simpa using hab), if_neg (by simpa using hs)] at hr
  have I : BInv g a b a b a (g a) (g b) (g a) :=
    ⟨⟨le_refl _, hab⟩, ⟨hab, le_refl _⟩, ⟨le_refl _, hab⟩, rfl, rfl, rfl, by rw [mul_comm]; exact hs⟩
  have h2 : (2 : α) * (1 / 2 ^ 52) = 2 * (eps64 : α) := by unfold eps64; push_cast; ring
  rcases brentLoop_fin_partial (d := b - a) (e := b - a) hf ht fuel I with h | ⟨x, h, h1⟩
  · rw [h] at hr; cases hr
  · rw [h] at hr
    cases hr
    refine ⟨x, rfl, h1.1, h1.2.1, ?_⟩
    rcases h1.2.2 with h0 | ⟨c, c1, c2, c3, c4⟩
    · exact Or.inl h0
    · refine Or.inr ⟨c, c1, c2, ?_, c4⟩
      rw [h2]; exact c3

/-- The hypotheses of `brent_sign_change` are met, and a value is returned, in a concrete case. -/
example : ∃ r, brent 50 exF (fin 0) (fin 2) (fin (1/100)) = .ret r ∧
    FiniteOn exF (fun x => x - 1/2) 0 2 ∧ ((0 : ℚ) - 1/2) * (2 - 1/2) ≤ 0 :=
  ⟨fin (1/2), by decide +kernel, fun _ _ _ => rfl, by norm_num⟩

/-- **C01** For continuous real `f` there is an exact root within `2*(2*eps*|r|+t)` of the result. -/
theorem brent_root_nearby {f : Fl ℝ → Fl ℝ} {g : ℝ → ℝ} {a b t : ℝ} {fuel : ℕ} {r : Fl ℝ}
    (hab : a ≤ b) (hf : FiniteOn f g a b) (hg : ContinuousOn g (Set.Icc a b)) (ht : 0 ≤ t)
    (hs : g a * g b ≤ 0) (hr : brent fuel f (fin a) (fin b) (fin t) = .ret r) :
    ∃ x z, r = fin x ∧ a ≤ x ∧ x ≤ b ∧ a ≤ z ∧ z ≤ b ∧ g z = 0 ∧
      |z - x| ≤ 2 * (2 * (1 / 2 ^ 52) * |x| + t) := by
  obtain ⟨x, rfl, h1, h2, h3⟩ := brent_sign_change hab hf ht hs hr
  have htol : 0 ≤ 2 * (2 * (1 / 2 ^ 52) * |x| + t) := by
    have := abs_nonneg x
    positivity
  rcases h3 with h3 | ⟨c, c1, c2, c3, c4⟩
  · exact ⟨x, x, rfl, h1, h2, h1, h2, h3, by simpa using htol⟩
  · have hsub : Set.uIcc x c ⊆ Set.Icc a b := by
      intro y hy
      rcases Set.mem_uIcc.mp hy with hy | hy
      · exact ⟨h1.trans hy.1, hy.2.trans c2⟩
      · exact ⟨c1.trans hy.1, hy.2.trans h2⟩
    have hz : (0 : ℝ) ∈ Set.uIcc (g x) (g c) := by
      rcases mul_neg_iff.mp c4 with h | h
      · exact Set.mem_uIcc.mpr (Or.inr ⟨h.2.le, h.1.le⟩)
      · exact Set.mem_uIcc.mpr (Or.inl ⟨h.1.le, h.2.le⟩)
    obtain ⟨z, hz1, hz2⟩ := intermediate_value_uIcc (hg.mono hsub) hz
    refine ⟨x, z, rfl, h1, h2, (hsub hz1).1, (hsub hz1).2, hz2, le_trans ?_ c3⟩
    have := Set.abs_sub_left_of_mem_uIcc hz1
    rwa [abs_sub_comm z x, abs_sub_comm c x, abs_sub_comm x z, abs_sub_comm x c]

example : FiniteOn (fun y : Fl ℝ => y - fin 1) (fun x => x - 1) 0 2 ∧
    ContinuousOn (fun x : ℝ => x - 1) (Set.Icc 0 2) :=
  ⟨fun x _ _ => by simp, (continuous_id.sub continuous_const).continuousOn⟩

/-- **C02** `brent` terminates: for `t > 0` there is a number of loop passes, at most
`2*(b-a)/t + 1` (rounded up), after which it has returned — whatever `f` is.  More passes allowed
do not change the result (it is the same for all larger fuels). -/
theorem brent_terminates {f : Fl α → Fl α} {g : α → α} {a b t : α} (n : ℕ)
    (hab : a ≤ b) (hf : FiniteOn f g a b) (ht : 0 < t) (hn : 2 * (b - a) / t ≤ n) :
    ∃ r, brent (n + 1) f (fin a) (fin b) (fin t) = .ret r ∧
      ∀ m, brent (n + 1 + m) f (fin a) (fin b) (fin t) = .ret r := by
  have ha := hf a (le_refl _) hab
  have hb := hf b hab (le_refl _)
  have hlen : |a - b| ≤ n * (t / 2) + 2 * t := by
    rw [div_le_iff₀ ht] at hn
    rw [abs_of_nonpos (by linarith)]
    linarith
  have mono : ∀ (m k : ℕ) (s : BrentSt (Fl α)) (r : Fl α),
      brentLoop f (fin t) k s = .ret r → brentLoop f (fin t) (k + m) s = .ret r := by
    intro m k
    induction k with
    | zero => intro s r h; simp [brentLoop] at h
    | succ k ih =>
      intro s r h
      rw [show k + 1 + m = (k + m) + 1 by omega, brentLoop]
      rw [brentLoop] at h
      cases hst : brentStep f (fin t) s with
      | done b' => rw [hst] at h; exact h
      | zeroDiv => rw [hst] at h; exact absurd h (by simp)
      | next s' => rw [hst] at h; exact ih _ _ h
  unfold brent
  simp only [isNaN_fin, lt_fin, ha, hb, fin_mul, lit_eq, Rat.cast_zero, Bool.false_or, fin_sub]
  rw [if_neg (by simpa using hab)]
  by_cases hs : g a * g b ≤ 0
  · have I : BInv g a b a b a (g a) (g b) (g a) :=
      ⟨⟨le_refl _, hab⟩, ⟨hab, le_refl _⟩, ⟨le_refl _, hab⟩, rfl, rfl, rfl, by rw [mul_comm]; exact hs⟩
    obtain ⟨r, h1, h2⟩ := brentLoop_fin (d := b - a) (e := b - a) hf ht n I hlen
    have hs' : ¬ (decide (0 < g a * g b) = true) := by simpa using hs
    refine ⟨fin r, by rw [if_neg hs']; exact h1, fun m => ?_⟩
    rw [if_neg (by simpa using hab), if_neg hs']
    exact mono m _ _ _ h1
  · have hs' : decide (0 < g a * g b) = true := by simpa using hs
    refine ⟨Fl.nan, by rw [if_pos hs']; rfl, fun m => ?_⟩
    rw [if_neg (by simpa using hab), if_pos hs']; rfl

example : (2 * ((2 : ℚ) - 0) / (1/100) ≤ (400 : ℕ)) ∧ FiniteOn exF (fun x => x - 1/2) 0 2 :=
  ⟨by norm_num, fun _ _ _ => rfl⟩

/-- **C03** On finite bounds `brent` returns NaN exactly when `a > b` or `f(a)*f(b) > 0`; it never
raises `ZeroDivisionError`. (`f` finite between the bounds, `t ≥ 0`.) -/
theorem brent_nan_iff {f : Fl α → Fl α} {g : α → α} {a b t : α} {fuel : ℕ} {r : Fl α}
    (hf : FiniteOn f g a b) (ht : 0 ≤ t) (hr : brent fuel f (fin a) (fin b) (fin t) = .ret r) :
    r = Fl.nan ↔ (b < a ∨ 0 < g a * g b) := by
  by_cases hab : b < a
  · have : r = Fl.nan := by
      unfold brent at hr
      simp [hab] at hr
      exact hr.symm
    simp [this, hab]
  · have hab := not_lt.mp hab
    by_cases hs : g a * g b ≤ 0
    · obtain ⟨x, rfl, _⟩ := brent_sign_change hab hf ht hs hr
      simp [hab, hs]
    · have ha := hf a (le_refl _) hab
      have hb := hf b hab (le_refl _)
      have hs := not_le.mp hs
      have : r = Fl.nan := by
        unfold brent at hr
        simp [ha, hb, hs] at hr
        exact hr.symm
      simp [this, hs]

/-- **C03** no division by zero, and no other exception, for any fuel. -/
theorem brent_no_exception {f : Fl α → Fl α} {g : α → α} {a b t : α} {fuel : ℕ}
    (hf : FiniteOn f g a b) (ht : 0 ≤ t) :
    brent fuel f (fin a) (fin b) (fin t) ≠ .zeroDiv ∧ brent fuel f (fin a) (fin b) (fin t) ≠ .unbound := by
  by_cases hab : b < a
  · unfold brent; simp [hab]
  · have hab := not_lt.mp hab
    have ha := hf a (le_refl _) hab
    have hb := hf b hab (le_refl _)
    unfold brent
    simp only [isNaN_fin, lt_fin, ha, hb, fin_mul, lit_eq, Rat.cast_zero, Bool.false_or, fin_sub]
    rw [if_neg (by simpa using hab)]
    by_cases hs : g a * g b ≤ 0
    · rw [if_neg (by simpa using hs)]
      have I : BInv g a b a b a (g a) (g b) (g a) :=
        ⟨⟨le_refl _, hab⟩, ⟨hab, le_refl _⟩, ⟨le_refl _, hab⟩, rfl, rfl, rfl, by rw [mul_comm]; exact hs⟩
      rcases brentLoop_fin_partial (d := b - a) (e := b - a) hf ht fuel I with h | ⟨x, h, _⟩ <;>
        · show brentLoop f (fin t) fuel (finSt a b a (b - a) (b - a) (g a) (g b) (g a)) ≠ _ ∧ _
          rw [h]; simp
    · rw [if_pos (by simpa using hs)]
      simp

/-- **C03** NaN bounds give NaN, for any function and any arithmetic. -/
theorem brent_nan_bounds {F : Type*} [FloatLike F] (f : F → F) (a b t : F) (fuel : ℕ)
    (h : isNaN a = true ∨ isNaN b = true) : brent fuel f a b t = .ret nan := by
  unfold brent
  rcases h with h | h <;> simp [h]

example : FiniteOn exF (fun x => x - 1/2) 0 2 ∧
    brent 3 exF (fin 0) (fin (1/4)) (fin (1/100)) = .ret Fl.nan := ⟨fun _ _ _ => rfl, by decide +kernel⟩

/-- **C04/C05** Everything about `guess_to_bounds` on a finite range: with 13 or more loop passes it
always returns (no unbound variable, no endless loop); the result is NaN only if `f(A)` and `f(B)` are nonzero
of the same sign; otherwise it is a sub-interval of `[A,B]` with `f(a)*f(b) <= 0`, which either has exactly one
positive end value or is a single point at an end of the range where `f` vanishes. -/
theorem guessToBounds_spec {f : Fl α → Fl α} {g : α → α} {x A B : α} (fuel : ℕ)
    (hAB : A ≤ B) (hf : FiniteOn f g A B) (hfuel : 13 ≤ fuel) :
    (guessToBounds fuel f (fin x) (fin A) (fin B) = .ret (Fl.nan, Fl.nan) ∧ 0 < g A * g B) ∨
    ∃ a b, guessToBounds fuel f (fin x) (fin A) (fin B) = .ret (fin a, fin b) ∧
      A ≤ a ∧ a ≤ b ∧ b ≤ B ∧ g a * g b ≤ 0 ∧
      ((a = b ∧ (a = A ∨ a = B) ∧ g a = 0) ∨ ¬ (0 < g a ↔ 0 < g b)) := by
  have hA := hf A (le_refl _) hAB
  have hB := hf B hAB (le_refl _)
  unfold guessToBounds
  simp only [hA, hB, feq_fin, lit_eq, Rat.cast_zero, fmax_fin, fmin_fin]
  by_cases h1 : g A = 0
  · right
    rw [if_pos (by simpa using h1)]
    exact ⟨A, A, rfl, le_refl _, le_refl _, hAB, by rw [h1]; simp, Or.inl ⟨rfl, Or.inl rfl, h1⟩⟩
  rw [if_neg (by simpa using h1)]
  by_cases h2 : g B = 0
  · right
    rw [if_pos (by simpa using h2)]
    exact ⟨B, B, rfl, hAB, le_refl _, le_refl _, by rw [h2]; simp, Or.inl ⟨rfl, Or.inr rfl, h2⟩⟩
  rw [if_neg (by simpa using h2)]
  have hx1 : A ≤ min (max x A) B := le_min (le_max_right _ _) hAB
  have hx2 : min (max x A) B ≤ B := min_le_right _ _
  obtain ⟨a0, b0, dm, dp, fp, fq, hi, I⟩ := gtbInit_fin hx1 hx2 hf
  rw [hi]
  obtain ⟨n, rfl⟩ : ∃ n, fuel = n + 1 := ⟨fuel - 1, by omega⟩
  obtain ⟨r, hr, hp⟩ := gtbLoop_fin hf n (by omega) I
  rw [hr]
  rcases hp with ⟨rfl, h3⟩ | ⟨a, b, rfl, h3, h4, h5, h6⟩
  · left
    refine ⟨rfl, ?_⟩
    rcases lt_or_gt_of_ne h1 with h | h
    · have : g B < 0 := by
        rcases lt_or_gt_of_ne h2 with h' | h'
        · exact h'
        · exact absurd (h3.mpr h') (not_lt.mpr h.le)
      exact mul_pos_of_neg_of_neg h this
    · exact mul_pos h (h3.mp h)
  · right
    refine ⟨a, b, rfl, h3, h4, h5, ?_, Or.inr h6⟩
    by_cases ha : 0 < g a
    · have : ¬ 0 < g b := fun hb => h6 ⟨fun _ => hb, fun _ => ha⟩
      exact mul_nonpos_of_nonneg_of_nonpos ha.le (not_lt.mp this)
    · have : 0 < g b := by
        by_contra hb
        exact h6 ⟨fun h => absurd h ha, fun h => absurd h hb⟩
      exact mul_nonpos_of_nonpos_of_nonneg (not_lt.mp ha) this.le

/-- **C04** The interval is never rejected: `brent` on it returns a number. -/
theorem guessToBounds_brent_finite {f : Fl α → Fl α} {g : α → α} {x A B a b t : α} {fuel fuel' : ℕ} {r : Fl α}
    (hAB : A ≤ B) (hf : FiniteOn f g A B) (hfuel : 13 ≤ fuel) (ht : 0 ≤ t)
    (hb : guessToBounds fuel f (fin x) (fin A) (fin B) = .ret (fin a, fin b))
    (hr : brent fuel' f (fin a) (fin b) (fin t) = .ret r) : r ≠ Fl.nan := by
  rcases guessToBounds_spec (x := x) fuel hAB hf hfuel with ⟨h, _⟩ | ⟨a', b', h, h1, h2, h3, h4, _⟩
  · rw [hb] at h; simp at h
  · rw [hb] at h
    simp only [Outcome.ret.injEq, Prod.mk.injEq, Fl.fin.injEq] at h
    obtain ⟨rfl, rfl⟩ := h
    have hf' : FiniteOn f g a b := fun y h5 h6 => hf y (h1.trans h5) (h6.trans h3)
    obtain ⟨y, rfl, _⟩ := brent_sign_change h2 hf' ht h4 hr
    simp

/-- **C05** If the end values differ in sign (or vanish) the search succeeds. -/
theorem guessToBounds_finds {f : Fl α → Fl α} {g : α → α} {x A B : α} {fuel : ℕ}
    (hAB : A ≤ B) (hf : FiniteOn f g A B) (hfuel : 13 ≤ fuel) (hs : g A * g B ≤ 0) :
    ∃ a b, guessToBounds fuel f (fin x) (fin A) (fin B) = .ret (fin a, fin b) ∧
      A ≤ a ∧ a ≤ b ∧ b ≤ B ∧ g a * g b ≤ 0 := by
  rcases guessToBounds_spec (x := x) fuel hAB hf hfuel with ⟨_, h⟩ | ⟨a', b', h, h1, h2, h3, h4, _⟩
  · exact absurd h (not_lt.mpr hs)
  · exact ⟨a', b', h, h1, h2, h3, h4⟩

example : FiniteOn exF (fun x => x - 1/2) 0 2 ∧ ((0 : ℚ) - 1/2) * (2 - 1/2) ≤ 0 ∧
    guessToBounds 13 exF (fin 0) (fin 1) (fin 2) = .ret (Fl.nan, Fl.nan) :=
  ⟨fun _ _ _ => rfl, by norm_num, by decide +kernel⟩

/-- **C06** Total correctness of `brent_guess` for continuous functions: with enough passes it returns; it
returns NaN only if the end values have the same strict sign; otherwise an exact root is within
`2*(2*eps*|r|+t)` of the result. -/
theorem brentGuess_spec {f : Fl ℝ → Fl ℝ} {g : ℝ → ℝ} {x A B t : ℝ} (n : ℕ)
    (hAB : A ≤ B) (hf : FiniteOn f g A B) (hg : ContinuousOn g (Set.Icc A B)) (ht : 0 < t)
    (hn : 2 * (B - A) / t ≤ n) :
    (brentGuess (n + 13) f (fin x) (fin A) (fin B) (fin t) = .ret Fl.nan ∧ 0 < g A * g B) ∨
    ∃ r z, brentGuess (n + 13) f (fin x) (fin A) (fin B) (fin t) = .ret (fin r) ∧ A ≤ r ∧ r ≤ B ∧
      A ≤ z ∧ z ≤ B ∧ g z = 0 ∧ |z - r| ≤ 2 * (2 * (1 / 2 ^ 52) * |r| + t) := by
  unfold brentGuess
  rcases guessToBounds_spec (x := x) (n + 13) hAB hf (by omega) with ⟨h, h1⟩ | ⟨a, b, h, h1, h2, h3, h4, _⟩
  · left
    rw [h]
    exact ⟨brent_nan_bounds _ _ _ _ _ (Or.inl rfl), h1⟩
  · right
    rw [h]
    have hf' : FiniteOn f g a b := fun y h5 h6 => hf y (h1.trans h5) (h6.trans h3)
    have hn' : 2 * (b - a) / t ≤ ((n + 12 : ℕ) : ℝ) := by
      refine le_trans ?_ (hn.trans (by push_cast; linarith))
      apply div_le_div_of_nonneg_right _ ht.le
      linarith
    obtain ⟨r, hr, _⟩ := brent_terminates (n + 12) h2 hf' ht hn'
    obtain ⟨y, z, rfl, e1, e2, e3, e4, e5, e6⟩ := brent_root_nearby h2 hf'
      (hg.mono (Set.Icc_subset_Icc h1 h3)) ht.le h4 hr
    exact ⟨y, z, hr, h1.trans e1, e2.trans h3, h1.trans e3, e4.trans h3, e5, e6⟩

/-- **C06** In particular a sign change between the ends is always found. -/
theorem brentGuess_finds_root {f : Fl ℝ → Fl ℝ} {g : ℝ → ℝ} {x A B t : ℝ} (n : ℕ)
    (hAB : A ≤ B) (hf : FiniteOn f g A B) (hg : ContinuousOn g (Set.Icc A B)) (ht : 0 < t)
    (hn : 2 * (B - A) / t ≤ n) (hs : g A * g B ≤ 0) :
    ∃ r z, brentGuess (n + 13) f (fin x) (fin A) (fin B) (fin t) = .ret (fin r) ∧ A ≤ r ∧ r ≤ B ∧
      A ≤ z ∧ z ≤ B ∧ g z = 0 ∧ |z - r| ≤ 2 * (2 * (1 / 2 ^ 52) * |r| + t) := by
  rcases brentGuess_spec (x := x) n hAB hf hg ht hn with h | h
  · exact absurd h.2 (not_lt.mpr hs)
  · exact h

example : FiniteOn (fun y : Fl ℝ => y - fin 1) (fun x => x - 1) 0 2 ∧
    ContinuousOn (fun x : ℝ => x - 1) (Set.Icc 0 2) ∧ ((0 : ℝ) - 1) * (2 - 1) ≤ 0 ∧
    2 * ((2 : ℝ) - 0) / 1 ≤ ((4 : ℕ) : ℝ) :=
  ⟨fun x _ _ => by simp, (continuous_id.sub continuous_const).continuousOn, by norm_num, by norm_num⟩

/-! ## Independence of rounding (C63) -/

section generic
variable {F : Type*} [FloatLike F]

/-- **C63** In *any* arithmetic (any rounding of `+ - * /`, any `abs`, any literals), if `f` never returns NaN
(its values are either `> 0` or `<= 0`, not both) and the loop of `brent` starts from ends of opposite sign class,
then the returned value `r` is exactly `f(r) == 0` or has a companion `c` with `f(c)` in the other sign class and
`abs(0.5*(c-r)) <= 2*eps*abs(r)+t` as computed. -/
theorem brentLoop_sign_change_any_arithmetic {f : F → F} {t : F}
    (hnan : ∀ x, lt (lit 0) (f x) = !(le (f x) (lit 0))) (fuel : ℕ) :
    ∀ {s : BrentSt F} {r : F}, s.fb = f s.b → s.fc = f s.c →
      lt (lit 0) (f s.b) ≠ lt (lit 0) (f s.c) →
      brentLoop f t fuel s = .ret r →
      feq (f r) (lit 0) = true ∨ ∃ c, lt (lit 0) (f r) ≠ lt (lit 0) (f c) ∧
        le (abs (lit (1/2) * (c - r))) (lit 2 * lit eps64 * abs r + t) = true := by
  induction fuel with
  | zero => intro s r _ _ _ h; simp [brentLoop] at h
  | succ n ih =>
    intro s r hb hc ho h
    have hsw : (brentSwap s).fb = f (brentSwap s).b ∧ (brentSwap s).fc = f (brentSwap s).c ∧
        lt (lit 0) (f (brentSwap s).b) ≠ lt (lit 0) (f (brentSwap s).c) := by
      unfold brentSwap
      split_ifs
      · exact ⟨hc, hb, ho.symm⟩
      · exact ⟨hb, hc, ho⟩
    rw [brentLoop] at h
    unfold brentStep at h
    generalize brentSwap s = s' at hsw h
    obtain ⟨hb', hc', ho'⟩ := hsw
    simp only at h
    by_cases hstop : (le (abs (lit (1/2) * (s'.c - s'.b))) (lit 2 * lit eps64 * abs s'.b + t)
        || feq s'.fb (lit 0)) = true
    · rw [if_pos hstop] at h
      simp only [Outcome.ret.injEq] at h
      subst h
      rcases (Bool.or_eq_true _ _).mp hstop with h1 | h1
      · exact Or.inr ⟨_, ho', h1⟩
      · left; rw [← hb']; exact h1
    · rw [if_neg hstop] at h
      cases hch : brentChoose s' (lit 2 * lit eps64 * abs s'.b + t) (lit (1/2) * (s'.c - s'.b)) with
      | none => rw [hch] at h; simp at h
      | some ed =>
        obtain ⟨e, d⟩ := ed
        rw [hch] at h
        simp only at h
        refine ih ?_ ?_ ?_ h
        · unfold brentMove
          simp only
          split_ifs <;> rfl
        · unfold brentMove
          simp only
          split_ifs <;> first | exact hb' | exact hc'
        · unfold brentMove
          simp only
          generalize (if lt (lit 2 * lit eps64 * abs s'.b + t) (abs d) = true then s'.b + d
            else if lt (lit 0) (lit (1/2) * (s'.c - s'.b)) = true then
              s'.b + (lit 2 * lit eps64 * abs s'.b + t) else s'.b - (lit 2 * lit eps64 * abs s'.b + t)) = b'
          have e1 := hnan b'
          have e2 := hnan s'.c
          split_ifs with hcl
          · simp only
            rw [hc'] at hcl
            cases h1 : lt (lit 0) (f b') <;> cases h2 : lt (lit 0) (f s'.c) <;>
              cases h3 : lt (lit 0) (f s'.b) <;> simp_all
          · simp only
            rw [hc'] at hcl
            cases h1 : lt (lit 0) (f b') <;> cases h2 : lt (lit 0) (f s'.c) <;> simp_all

example : (∀ x : Fl ℚ, lt (lit 0) ((fun y => if isFinite y then y - fin (1/2) else fin 1) x) =
    !(le ((fun y => if isFinite y then y - fin (1/2) else fin 1) x) (lit 0))) := by
  intro x
  cases x with
  | fin y =>
    simp
    by_cases h : 2⁻¹ < y
    · rw [decide_eq_true h, decide_eq_false (not_le.mpr h)]; rfl
    · rw [decide_eq_false h, decide_eq_true (not_lt.mp h)]; rfl
  | _ => simp

end generic

end Fzero
