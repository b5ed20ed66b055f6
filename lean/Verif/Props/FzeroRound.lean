import Verif.Lemmas.FzeroRound
import Mathlib.Topology.Order.IntermediateValue
import Mathlib.Topology.Instances.Real.Lemmas

/-!
# Root finding in rounded arithmetic: properties C118–C120

The theorems C01–C06 are about exact arithmetic.  Here every `+ - * /` and every literal is rounded, with any rounding
that has the accuracy of `float64` (`StdRound`).  `f` is an arbitrary function on the numbers, e.g. one that is
itself computed with rounding; `g` is its value.
-/

namespace Fzero
open FloatLike

variable {α : Type*} [Field α] [LinearOrder α] [IsStrictOrderedRing α] {rnd : α → α}

/-- `f` is finite on `[A, B]`, with value `g`. -/
def FiniteOnR (rnd : α → α) (f : Rfl rnd → Rfl rnd) (g : α → α) (A B : α) : Prop :=
  ∀ x, A ≤ x → x ≤ B → f (Rfl.fin x) = Rfl.fin (g x)

/-- A test function computed in double precision, with root near `1/3`. -/
def exR : Rfl Rounding53.rnd53 → Rfl Rounding53.rnd53 := fun x => lit 3 * x - lit 1

theorem brentLoop_mono {F : Type*} [FloatLike F] {f : F → F} {t : F} (m : ℕ) :
    ∀ (k : ℕ) (s : BrentSt F) (r : F), brentLoop f t k s = .ret r → brentLoop f t (k + m) s = .ret r := by
  intro k
  induction k with
  | zero => intro s r h; simp [brentLoop] at h
  | succ k ih =>
    intro s r h
    rw [show k + 1 + m = (k + m) + 1 by omega, brentLoop]
    rw [brentLoop] at h
    cases hst : brentStep f t s with
    | done b' => rw [hst] at h; exact h
    | zeroDiv => rw [hst] at h; exact absurd h (by simp)
    | next s' => rw [hst] at h; exact ih _ _ h

/-- **C118** `brent` in rounded arithmetic, for any `f` and any rounding of double precision accuracy (no overflow or
underflow): for `t > 0` it stops within `2.5*(b-a)/t + 1` passes (rounded up); it returns NaN exactly when
`f(a)*f(b) > 0`; otherwise it returns a number in `[a,b]` that is a zero of the computed function or has a point with
a value of the opposite sign within `(2 + 2^-46)*(2*eps*|r|+t)`. -/
theorem brent_rounded (R : StdRound rnd) {f : Rfl rnd → Rfl rnd} {g : α → α} {a b t : α} (n : ℕ)
    (hab : a ≤ b) (hf : FiniteOnR rnd f g a b) (ht : 0 < t) (hn : 5 / 2 * (b - a) / t ≤ n) :
    (0 < g a * g b ∧ ∀ m, brent m f (Rfl.fin a) (Rfl.fin b) (Rfl.fin t) = .ret Rfl.qnan) ∨
    (g a * g b ≤ 0 ∧ ∃ r, (∀ m, brent (n + 1 + m) f (Rfl.fin a) (Rfl.fin b) (Rfl.fin t) = .ret (Rfl.fin r)) ∧
      a ≤ r ∧ r ≤ b ∧
      (g r = 0 ∨ ∃ c, a ≤ c ∧ c ≤ b ∧ |c - r| ≤ (2 + 1 / 2 ^ 46) * (2 * (1 / 2 ^ 52) * |r| + t) ∧ g r * g c < 0)) := by
  have ha := hf a (le_refl _) hab
  have hb := hf b hab (le_refl _)
  have e2 : ∀ x : α, 2 * (1 / 2 ^ 52) * |x| + t = tolAt t x := by
    intro x; unfold tolAt eps64; push_cast; ring
  unfold brent
  simp only [Rfl.isNaN_fin, Rfl.lt_fin, ha, hb, Rfl.fin_mul, Rfl.lit_eq, Rat.cast_zero, R.zero, Bool.false_or, Rfl.fin_sub]
  by_cases hs : g a * g b ≤ 0
  · right
    refine ⟨hs, ?_⟩
    have I : BInv g a b a b a (g a) (g b) (g a) :=
      ⟨⟨le_refl _, hab⟩, ⟨hab, le_refl _⟩, ⟨le_refl _, hab⟩, rfl, rfl, rfl, by rw [mul_comm]; exact hs⟩
    have hlen : |a - b| ≤ n * (2 / 5 * t) := by
      rw [div_le_iff₀ ht] at hn
      rw [abs_of_nonpos (by linarith)]
      linarith
    obtain ⟨r, h1, h2, h3, h4⟩ := brentLoop_rnd R (d := rnd (b - a)) (e := rnd (b - a)) hf ht n I hlen
    refine ⟨r, fun m => ?_, h2, h3, ?_⟩
    · rw [if_neg (by simpa using hab), if_neg (by simpa using R.nonpos hs)]
      exact brentLoop_mono m _ _ _ h1
    · rw [e2]; exact h4
  · left
    have hs := not_le.mp hs
    refine ⟨hs, fun m => ?_⟩
    rw [if_neg (by simpa using hab), if_pos (by simpa using R.pos_iff.mpr hs)]
    rfl

/-- The hypotheses of `brent_rounded` are met by double precision arithmetic, where the result is `1/3` rounded. -/
example : StdRound Rounding53.rnd53 ∧
    FiniteOnR Rounding53.rnd53 exR
      (fun x => Rounding53.rnd53 (Rounding53.rnd53 (Rounding53.rnd53 3 * x) - Rounding53.rnd53 1)) 0 2 ∧
    brent 20 exR (Rfl.fin 0) (Rfl.fin 2) (Rfl.fin (1/100)) = .ret (Rfl.fin (3002399751580331 / 2 ^ 53)) :=
  ⟨Rounding53.rnd53_std, fun _ _ _ => by simp [exR], by decide +kernel⟩

/-- **C118** In rounded arithmetic too `brent` never divides by zero, for any `t ≥ 0` and any number of passes. -/
theorem brent_rounded_no_exception (R : StdRound rnd) {f : Rfl rnd → Rfl rnd} {g : α → α} {a b t : α} {fuel : ℕ}
    (hf : FiniteOnR rnd f g a b) (ht : 0 ≤ t) :
    brent fuel f (Rfl.fin a) (Rfl.fin b) (Rfl.fin t) ≠ .zeroDiv ∧
      brent fuel f (Rfl.fin a) (Rfl.fin b) (Rfl.fin t) ≠ .unbound := by
  by_cases hab : b < a
  · unfold brent; simp [hab]
  · have hab := not_lt.mp hab
    have ha := hf a (le_refl _) hab
    have hb := hf b hab (le_refl _)
    unfold brent
    simp only [Rfl.isNaN_fin, Rfl.lt_fin, ha, hb, Rfl.fin_mul, Rfl.lit_eq, Rat.cast_zero, R.zero, Bool.false_or, Rfl.fin_sub]
    rw [if_neg (by simpa using hab)]
    by_cases hs : g a * g b ≤ 0
    · rw [if_neg (by simpa using R.nonpos hs)]
      have I : BInv g a b a b a (g a) (g b) (g a) :=
        ⟨⟨le_refl _, hab⟩, ⟨hab, le_refl _⟩, ⟨le_refl _, hab⟩, rfl, rfl, rfl, by rw [mul_comm]; exact hs⟩
      rcases brentLoop_rnd_partial R (d := rnd (b - a)) (e := rnd (b - a)) hf ht fuel I with h | ⟨x, h, _⟩ <;>
        · show brentLoop f (Rfl.fin t) fuel (rSt rnd a b a (rnd (b - a)) (rnd (b - a)) (g a) (g b) (g a)) ≠ _ ∧ _
          rw [h]; simp
    · rw [if_pos (by simpa using R.pos_iff.mpr (not_le.mp hs))]
      simp

/-- **C119** `guess_to_bounds` in rounded arithmetic, for representable `x, A, B`: within 13 passes it returns; NaN only
if `f(A)` and `f(B)` are nonzero of the same sign; otherwise a sub-interval of `[A,B]` with `f(a)*f(b) <= 0`. -/
theorem guessToBounds_rounded (R : StdRound rnd) {f : Rfl rnd → Rfl rnd} {g : α → α} {x A B : α} (fuel : ℕ)
    (hAB : A ≤ B) (hx : rnd x = x) (hA : rnd A = A) (hB : rnd B = B)
    (hf : FiniteOnR rnd f g A B) (hfuel : 13 ≤ fuel) :
    (guessToBounds fuel f (Rfl.fin x) (Rfl.fin A) (Rfl.fin B) = .ret (Rfl.qnan, Rfl.qnan) ∧ 0 < g A * g B) ∨
    ∃ a b, guessToBounds fuel f (Rfl.fin x) (Rfl.fin A) (Rfl.fin B) = .ret (Rfl.fin a, Rfl.fin b) ∧
      A ≤ a ∧ a ≤ b ∧ b ≤ B ∧ g a * g b ≤ 0 ∧
      ((a = b ∧ (a = A ∨ a = B) ∧ g a = 0) ∨ ¬ (0 < g a ↔ 0 < g b)) := by
  have hA' := hf A (le_refl _) hAB
  have hB' := hf B hAB (le_refl _)
  unfold guessToBounds
  simp only [hA', hB', Rfl.feq_fin, Rfl.lit_eq, Rat.cast_zero, R.zero, Rfl.fmax_fin, Rfl.fmin_fin]
  by_cases h1 : g A = 0
  · right
    rw [if_pos (by simpa using h1)]
    exact ⟨A, A, rfl, le_refl _, le_refl _, hAB, by rw [h1]; simp, Or.inl ⟨rfl, Or.inl rfl, h1⟩⟩
  rw [if_neg (by simpa using h1)]
  by_cases h2 : g B = 0
  · right
    rw [if_pos (by simpa using h2)]
    exact ⟨B, B, rfl, hAB, le_refl _, le_refl _, by rw [h2]; simp, Or.inl ⟨rfl, Or.inr rfl, h2⟩⟩
  rw [if_neg (by simpa using h2)]
  have hx1 : A ≤ min (max x A) B := le_min (le_max_right _ _) hAB
  have hx2 : min (max x A) B ≤ B := min_le_right _ _
  have hx3 : rnd (min (max x A) B) = min (max x A) B := by
    rcases min_choice (max x A) B with h | h
    · rw [h]
      rcases max_choice x A with h' | h' <;> rw [h']
      · exact hx
      · exact hA
    · rw [h]; exact hB
  obtain ⟨a0, b0, dm, dp, fp, fq, hi, I⟩ := gtbInit_rnd R hx1 hx2 hx3 hA hB hf
  rw [hi]
  obtain ⟨n, rfl⟩ : ∃ n, fuel = n + 1 := ⟨fuel - 1, by omega⟩
  obtain ⟨r, hr, hp⟩ := gtbLoop_rnd R hx3 hA hB hf n (by omega) I
  rw [hr]
  rcases hp with ⟨rfl, h3⟩ | ⟨a, b, rfl, h3, h4, h5, h6⟩
  · left
    refine ⟨rfl, ?_⟩
    rcases lt_or_gt_of_ne h1 with h | h
    · have : g B < 0 := by
        rcases lt_or_gt_of_ne h2 with h' | h'
        · exact h'
        · exact absurd (h3.mpr h') (not_lt.mpr h.le)
      exact mul_pos_of_neg_of_neg h this
    · exact mul_pos h (h3.mp h)
  · right
    refine ⟨a, b, rfl, h3, h4, h5, ?_, Or.inr h6⟩
    by_cases ha : 0 < g a
    · have : ¬ 0 < g b := fun hb => h6 ⟨fun _ => hb, fun _ => ha⟩
      exact mul_nonpos_of_nonneg_of_nonpos ha.le (not_lt.mp this)
    · have : 0 < g b := by
        by_contra hb
        exact h6 ⟨fun h => absurd h ha, fun h => absurd h hb⟩
      exact mul_nonpos_of_nonpos_of_nonneg (not_lt.mp ha) this.le

/-- **C119** `brent_guess` in rounded arithmetic. -/
theorem brentGuess_rounded (R : StdRound rnd) {f : Rfl rnd → Rfl rnd} {g : α → α} {x A B t : α} (n : ℕ)
    (hAB : A ≤ B) (hx : rnd x = x) (hA : rnd A = A) (hB : rnd B = B)
    (hf : FiniteOnR rnd f g A B) (ht : 0 < t) (hn : 5 / 2 * (B - A) / t ≤ n) :
    (brentGuess (n + 13) f (Rfl.fin x) (Rfl.fin A) (Rfl.fin B) (Rfl.fin t) = .ret Rfl.qnan ∧ 0 < g A * g B) ∨
    ∃ r, brentGuess (n + 13) f (Rfl.fin x) (Rfl.fin A) (Rfl.fin B) (Rfl.fin t) = .ret (Rfl.fin r) ∧ A ≤ r ∧ r ≤ B ∧
      (g r = 0 ∨ ∃ c, A ≤ c ∧ c ≤ B ∧ |c - r| ≤ (2 + 1 / 2 ^ 46) * (2 * (1 / 2 ^ 52) * |r| + t) ∧ g r * g c < 0) := by
  unfold brentGuess
  rcases guessToBounds_rounded R (x := x) (n + 13) hAB hx hA hB hf (by omega) with ⟨h, h1⟩ | ⟨a, b, h, h1, h2, h3, h4, _⟩
  · left
    rw [h]
    refine ⟨?_, h1⟩
    show brent _ _ (Rfl.qnan : Rfl rnd) _ _ = _
    unfold brent
    simp
  · right
    rw [h]
    have hf' : FiniteOnR rnd f g a b := fun y h5 h6 => hf y (h1.trans h5) (h6.trans h3)
    have hn' : 5 / 2 * (b - a) / t ≤ n := by
      refine le_trans ?_ hn
      apply div_le_div_of_nonneg_right _ ht.le
      linarith
    rcases brent_rounded R n h2 hf' ht hn' with ⟨h5, _⟩ | ⟨_, r, h5, h6, h7, h8⟩
    · exact absurd h5 (not_lt.mpr h4)
    · refine ⟨r, ?_, h1.trans h6, h7.trans h3, ?_⟩
      · have := h5 12
        rw [show n + 1 + 12 = n + 13 by omega] at this
        exact this
      · rcases h8 with h8 | ⟨c, c1, c2, c3, c4⟩
        · exact Or.inl h8
        · exact Or.inr ⟨c, h1.trans c1, c2.trans h3, c3, c4⟩

example : brentGuess 20 exR (Rfl.fin 1) (Rfl.fin 0) (Rfl.fin 2) (Rfl.fin (1/100)) =
      .ret (Rfl.fin (3002399751580331 / 2 ^ 53)) ∧
    Rounding53.rnd53 1 = 1 ∧ Rounding53.rnd53 0 = 0 ∧ Rounding53.rnd53 2 = 2 := by decide +kernel

/-- **C119** If the function is computed with error at most `δ` from a continuous function `G` whose computed end values
differ in sign, then `brent_guess` finds a point within `(2 + 2^-46)*(2*eps*|r|+t)` of a point where `|G| ≤ δ`: rounding
inside `f` and inside the solver costs no more than its own size. -/
theorem brentGuess_rounded_near_root {rnd : ℝ → ℝ} (R : StdRound rnd) {f : Rfl rnd → Rfl rnd} {g G : ℝ → ℝ}
    {x A B t δ : ℝ} (n : ℕ)
    (hAB : A ≤ B) (hx : rnd x = x) (hA : rnd A = A) (hB : rnd B = B)
    (hf : FiniteOnR rnd f g A B) (ht : 0 < t) (hn : 5 / 2 * (B - A) / t ≤ n)
    (hG : ContinuousOn G (Set.Icc A B)) (hd : ∀ y ∈ Set.Icc A B, |g y - G y| ≤ δ) (hs : g A * g B ≤ 0) :
    ∃ r z, brentGuess (n + 13) f (Rfl.fin x) (Rfl.fin A) (Rfl.fin B) (Rfl.fin t) = .ret (Rfl.fin r) ∧
      A ≤ r ∧ r ≤ B ∧ A ≤ z ∧ z ≤ B ∧ |G z| ≤ δ ∧ |z - r| ≤ (2 + 1 / 2 ^ 46) * (2 * (1 / 2 ^ 52) * |r| + t) := by
  rcases brentGuess_rounded R n hAB hx hA hB hf ht hn with ⟨_, h⟩ | ⟨r, h1, h2, h3, h4⟩
  · exact absurd h (not_lt.mpr hs)
  · have htol : 0 ≤ (2 + 1 / 2 ^ 46) * (2 * (1 / 2 ^ 52) * |r| + t) := by
      have := abs_nonneg r; positivity
    have hr := hd r ⟨h2, h3⟩
    rcases h4 with h4 | ⟨c, c1, c2, c3, c4⟩
    · refine ⟨r, r, h1, h2, h3, h2, h3, ?_, by simpa using htol⟩
      rw [h4] at hr
      simpa using hr
    · have hc := hd c ⟨c1, c2⟩
      by_cases e1 : |G r| ≤ δ
      · exact ⟨r, r, h1, h2, h3, h2, h3, e1, by simpa using htol⟩
      by_cases e2 : |G c| ≤ δ
      · exact ⟨r, c, h1, h2, h3, c1, c2, e2, c3⟩
      have hδ : 0 ≤ δ := le_trans (abs_nonneg _) hr
      have hsub : Set.uIcc r c ⊆ Set.Icc A B := by
        intro y hy
        rcases Set.mem_uIcc.mp hy with hy | hy
        · exact ⟨h2.trans hy.1, hy.2.trans c2⟩
        · exact ⟨c1.trans hy.1, hy.2.trans h3⟩
      rw [abs_le] at hr hc
      have hz : (0 : ℝ) ∈ Set.uIcc (G r) (G c) := by
        rcases mul_neg_iff.mp c4 with ⟨p, q⟩ | ⟨p, q⟩
        · refine Set.mem_uIcc.mpr (Or.inr ⟨?_, ?_⟩)
          · by_contra hh
            exact e2 (abs_le.mpr ⟨by linarith [not_le.mp hh], by linarith [hc.1]⟩)
          · by_contra hh
            exact e1 (abs_le.mpr ⟨by linarith [hr.2], by linarith [not_le.mp hh]⟩)
        · refine Set.mem_uIcc.mpr (Or.inl ⟨?_, ?_⟩)
          · by_contra hh
            exact e1 (abs_le.mpr ⟨by linarith [not_le.mp hh], by linarith [hr.1]⟩)
          · by_contra hh
            exact e2 (abs_le.mpr ⟨by linarith [hc.2], by linarith [not_le.mp hh]⟩)
      obtain ⟨z, hz1, hz2⟩ := intermediate_value_uIcc (hG.mono hsub) hz
      refine ⟨r, z, h1, h2, h3, (hsub hz1).1, (hsub hz1).2, by rw [hz2]; simpa using hδ, le_trans ?_ c3⟩
      have := Set.abs_sub_left_of_mem_uIcc hz1
      rwa [abs_sub_comm z r, abs_sub_comm c r, abs_sub_comm r z, abs_sub_comm r c]

/-- **C120** (violated) "Protection against input range that doesn't have a sign change": with the underflow of
`float64`, `f(a)*f(b)` can round to zero though `f(a)` and `f(b)` are both positive; then `brent` returns a number
instead of NaN. -/
theorem brent_same_sign_false :
    ∃ (f : Rfl Rounding53.rnd64 → Rfl Rounding53.rnd64) (v : ℚ), 0 < v ∧ (∀ x, f x = Rfl.fin v) ∧
      brent 20 f (Rfl.fin 0) (Rfl.fin 1) (Rfl.fin (1/100)) ≠ .ret Rfl.qnan ∧
      ∃ r, brent 20 f (Rfl.fin 0) (Rfl.fin 1) (Rfl.fin (1/100)) = .ret (Rfl.fin r) :=
  ⟨fun _ => Rfl.fin (1 / 2 ^ 600), 1 / 2 ^ 600, by norm_num, fun _ => rfl, by decide +kernel,
    43 / 64, by decide +kernel⟩

end Fzero
