import Verif.Lemmas.InterpExact
import Verif.Lemmas.InterpGeneric

set_option linter.unusedSectionVars false

namespace Interp
open FloatLike
open Fl hiding nan

variable {α : Type*} [Field α] [LinearOrder α] [IsStrictOrderedRing α]

theorem sdiv_fin {x y : α} (h : y ≠ 0) : sdiv (Fl.fin x) (Fl.fin y) = some (Fl.fin (x / y)) := by
  unfold sdiv
  simp [h, fin_div]

theorem sign_fin (x : α) : sign (Fl.fin x) = Fl.fin (if 0 < x then 1 else if x < 0 then -1 else 0) := by
  unfold sign
  rcases lt_trichotomy x 0 with h | h | h
  · simp [h, not_lt.mpr h.le]
  · simp [h]
  · simp [h]

theorem feq_sign (x y : α) : feq (sign (Fl.fin x)) (sign (Fl.fin y)) =
    decide ((0 < x ∧ 0 < y) ∨ (x < 0 ∧ y < 0) ∨ (x = 0 ∧ y = 0)) := by
  rw [sign_fin, sign_fin, feq_fin]
  congr 1
  apply propext
  rcases lt_trichotomy x 0 with h | rfl | h
  · rcases lt_trichotomy y 0 with h' | rfl | h'
    · simp [h, h', not_lt.mpr h.le, not_lt.mpr h'.le]
    · simp [h, not_lt.mpr h.le, h.ne]
    · simp [h, h', not_lt.mpr h.le, not_lt.mpr h'.le, h.ne]; norm_num
  · rcases lt_trichotomy y 0 with h' | rfl | h'
    · simp [h', not_lt.mpr h'.le, h'.ne]
    · simp
    · simp [h', h'.ne']
  · rcases lt_trichotomy y 0 with h' | rfl | h'
    · simp [h, h', not_lt.mpr h.le, not_lt.mpr h'.le, h.ne']; norm_num
    · simp [h, not_lt.mpr h.le, h.ne']
    · simp [h, h']

/-- A slope `d` on a piece with chord slope `δ`: between `0` and `3δ`. -/
def SlopeOK (δ d : α) : Prop := (0 ≤ δ → 0 ≤ d ∧ d ≤ 3 * δ) ∧ (δ ≤ 0 → 3 * δ ≤ d ∧ d ≤ 0)

theorem endSlope_ok {h0 h1 δ0 δ1 : α} (p0 : 0 < h0) (p1 : 0 < h1) :
    ∃ d, endSlope (Fl.fin h0) (Fl.fin h1) (Fl.fin δ0) (Fl.fin δ1) = some (Fl.fin d) ∧ SlopeOK δ0 d := by
  have hne : h0 + h1 ≠ 0 := by positivity
  unfold endSlope
  simp only [lit_eq, fin_mul, fin_add, fin_sub, sdiv_fin hne, Option.bind_eq_bind, Option.bind_some, feq_sign, abs_fin,
    lt_fin]
  set d := (((2 : ℚ) : α) * h0 + h1) * δ0 - h0 * δ1 with hd
  have hq : d / (h0 + h1) * (h0 + h1) = d := div_mul_cancel₀ _ hne
  set q := d / (h0 + h1) with hqd
  push_cast at hd
  by_cases c1 : (0 < q ∧ 0 < δ0) ∨ (q < 0 ∧ δ0 < 0) ∨ (q = 0 ∧ δ0 = 0)
  swap
  · refine ⟨0, by simp [c1], ?_, ?_⟩
    · intro h; exact ⟨le_refl _, by linarith⟩
    · intro h; exact ⟨by linarith, le_refl _⟩
  by_cases c2 : (0 < δ0 ∧ 0 < δ1) ∨ (δ0 < 0 ∧ δ1 < 0) ∨ (δ0 = 0 ∧ δ1 = 0)
  · refine ⟨q, by simp [c1, c2], ?_⟩
    rcases c1 with ⟨c, c'⟩ | ⟨c, c'⟩ | ⟨c, c'⟩
    · have : 0 < δ1 := by
        rcases c2 with ⟨_, e⟩ | ⟨e, _⟩ | ⟨e, _⟩
        · exact e
        · linarith
        · linarith
      refine ⟨fun _ => ⟨c.le, ?_⟩, fun h => by linarith⟩
      by_contra hc
      push Not at hc
      have := mul_lt_mul_of_pos_right hc (by positivity : 0 < h0 + h1)
      nlinarith [mul_pos p0 c', mul_pos p1 c', mul_pos p0 ‹0 < δ1›]
    · have : δ1 < 0 := by
        rcases c2 with ⟨e, _⟩ | ⟨_, e⟩ | ⟨e, _⟩
        · linarith
        · exact e
        · linarith
      refine ⟨fun h => by linarith, fun _ => ⟨?_, c.le⟩⟩
      by_contra hc
      push Not at hc
      have := mul_lt_mul_of_pos_right hc (by positivity : 0 < h0 + h1)
      nlinarith [mul_pos p0 (neg_pos.mpr c'), mul_pos p1 (neg_pos.mpr c'), mul_pos p0 (neg_pos.mpr ‹δ1 < 0›)]
    · rw [c, c']; exact ⟨fun _ => by simp, fun _ => by simp⟩
  · by_cases c3 : |3 * δ0| < |q|
    · refine ⟨3 * δ0, by simp [c1, c2, -abs_mul, -not_or]; intro h; exact absurd c3 (not_lt.mpr h), ?_, ?_⟩
      · intro h; exact ⟨by linarith, le_refl _⟩
      · intro h; exact ⟨le_refl _, by linarith⟩
    · refine ⟨q, by simp [c1, c2, -abs_mul, -not_or]; intro h; exact absurd h c3, ?_⟩
      push Not at c3
      rcases c1 with ⟨c, c'⟩ | ⟨c, c'⟩ | ⟨c, c'⟩
      · rw [abs_of_pos c, abs_of_pos (by linarith)] at c3
        exact ⟨fun _ => ⟨c.le, c3⟩, fun h => by linarith⟩
      · rw [abs_of_neg c, abs_of_neg (by linarith)] at c3
        exact ⟨fun h => by linarith, fun _ => ⟨by linarith, c.le⟩⟩
      · rw [c, c']; exact ⟨fun _ => by simp, fun _ => by simp⟩

theorem hmean_bound {w1 w2 a b : α} (hw1 : 0 < w1) (hw2 : 0 < w2) (h12 : w2 ≤ 2 * w1) (ha : 0 < a) (hb : 0 < b) :
    0 ≤ (w1 + w2) / (w1 / a + w2 / b) ∧ (w1 + w2) / (w1 / a + w2 / b) ≤ 3 * a := by
  have h1 : 0 < w1 / a + w2 / b := by positivity
  refine ⟨by positivity, ?_⟩
  rw [div_le_iff₀ h1]
  have : 3 * a * (w1 / a + w2 / b) = 3 * w1 + 3 * a * (w2 / b) := by field_simp
  rw [this]
  have : 0 ≤ 3 * a * (w2 / b) := by positivity
  linarith

theorem midSlope_ok {h0 h1 δ0 δ1 : α} (p0 : 0 < h0) (p1 : 0 < h1) :
    ∃ d, midSlope (Fl.fin h0) (Fl.fin h1) (Fl.fin δ0) (Fl.fin δ1) = some (Fl.fin d) ∧ SlopeOK δ0 d ∧ SlopeOK δ1 d := by
  unfold midSlope
  rw [sign_fin, sign_fin, fin_mul, lit_eq, lt_fin]
  by_cases c : (0 < δ0 ∧ 0 < δ1) ∨ (δ0 < 0 ∧ δ1 < 0)
  · have hw1 : 0 < h0 + 2 * h1 := by positivity
    have hw2 : 0 < 2 * h0 + h1 := by positivity
    have hpos : (((0 : ℚ) : α)) < (if 0 < δ0 then 1 else if δ0 < 0 then -1 else 0) *
        (if 0 < δ1 then 1 else if δ1 < 0 then -1 else 0) := by
      rcases c with ⟨c, c'⟩ | ⟨c, c'⟩
      · simp [c, c']
      · simp [c, c', not_lt.mpr c.le, not_lt.mpr c'.le]
    rw [decide_eq_true hpos]
    have n0 : δ0 ≠ 0 := by rcases c with ⟨c, _⟩ | ⟨c, _⟩; exact c.ne'; exact c.ne
    have n1 : δ1 ≠ 0 := by rcases c with ⟨_, c⟩ | ⟨_, c⟩; exact c.ne'; exact c.ne
    have n2 : (h0 + 2 * h1) / δ0 + (2 * h0 + h1) / δ1 ≠ 0 := by
      rcases c with ⟨c, c'⟩ | ⟨c, c'⟩
      · positivity
      · have := div_neg_of_pos_of_neg hw1 c
        have := div_neg_of_pos_of_neg hw2 c'
        intro h; linarith
    refine ⟨(h0 + 2 * h1 + (2 * h0 + h1)) / ((h0 + 2 * h1) / δ0 + (2 * h0 + h1) / δ1), ?_, ?_⟩
    · simp only [if_true, lit_eq, fin_mul, fin_add, Rat.cast_ofNat, sdiv_fin n0, sdiv_fin n1, Option.bind_eq_bind,
        Option.bind_some, sdiv_fin n2]
    · rcases c with ⟨c, c'⟩ | ⟨c, c'⟩
      · have b1 := hmean_bound hw1 hw2 (by linarith) c c'
        have b2 := hmean_bound hw2 hw1 (by linarith) c' c
        rw [add_comm (2 * h0 + h1) (h0 + 2 * h1), add_comm ((2 * h0 + h1) / δ1)] at b2
        exact ⟨⟨fun _ => b1, fun h => by linarith⟩, ⟨fun _ => b2, fun h => by linarith⟩⟩
      · have b1 := hmean_bound hw1 hw2 (by linarith) (neg_pos.mpr c) (neg_pos.mpr c')
        have b2 := hmean_bound hw2 hw1 (by linarith) (neg_pos.mpr c') (neg_pos.mpr c)
        rw [add_comm (2 * h0 + h1) (h0 + 2 * h1), add_comm ((2 * h0 + h1) / -δ1)] at b2
        have e : (h0 + 2 * h1 + (2 * h0 + h1)) / ((h0 + 2 * h1) / -δ0 + (2 * h0 + h1) / -δ1)
            = - ((h0 + 2 * h1 + (2 * h0 + h1)) / ((h0 + 2 * h1) / δ0 + (2 * h0 + h1) / δ1)) := by
          rw [div_neg, div_neg, ← neg_add, div_neg]
        rw [e] at b1 b2
        exact ⟨⟨fun h => by linarith, fun _ => ⟨by linarith [b1.2], by linarith [b1.1]⟩⟩,
          ⟨fun h => by linarith, fun _ => ⟨by linarith [b2.2], by linarith [b2.1]⟩⟩⟩
  · have hneg : ¬ (((0 : ℚ) : α)) < (if 0 < δ0 then 1 else if δ0 < 0 then -1 else 0) *
        (if 0 < δ1 then 1 else if δ1 < 0 then -1 else 0) := by
      push Not at c
      rcases lt_trichotomy δ0 0 with h | h | h
      · have := c.2 h
        rcases this.lt_or_eq with h' | h'
        · simp [h, h', not_lt.mpr h.le]
        · simp [← h']
      · simp [h]
      · have := c.1 h
        rcases this.lt_or_eq with h' | h'
        · simp [h, h', not_lt.mpr h'.le]
        · simp [h']
    rw [decide_eq_false hneg]
    refine ⟨0, by simp, ⟨?_, ?_⟩, ⟨?_, ?_⟩⟩
    · intro h; exact ⟨le_refl _, by linarith⟩
    · intro h; exact ⟨by linarith, le_refl _⟩
    · intro h; exact ⟨le_refl _, by linarith⟩
    · intro h; exact ⟨by linarith, le_refl _⟩

/-- Coefficients of the Hermite cubic with end values `y`, `y + hδ` and end slopes `d0`, `d1`. -/
def hermC (h δ d0 d1 y : α) : List α :=
  [((d1 - δ) / h - (δ - d0) / h) / h, 2 * ((δ - d0) / h) - (d1 - δ) / h, d0, y]

theorem hermite_fin {h δ d0 d1 y : α} (hh : h ≠ 0) :
    hermite (Fl.fin h) (Fl.fin δ) (Fl.fin d0) (Fl.fin d1) (Fl.fin y) = some ((hermC h δ d0 d1 y).map Fl.fin) := by
  unfold hermite hermC
  simp [sdiv_fin hh]

/-- Value of the cubic. -/
def hermV (h δ d0 d1 y u : α) : α := (hermC h δ d0 d1 y).foldl (fun v c => v * u + c) 0

theorem hermV_zero {h δ d0 d1 y : α} : hermV h δ d0 d1 y 0 = y := by
  simp [hermV, hermC]

theorem hermV_end {h δ d0 d1 y : α} (hh : h ≠ 0) : hermV h δ d0 d1 y h = y + h * δ := by
  simp only [hermV, hermC, List.foldl]
  field_simp
  ring

/-- Slope of the cubic. -/
def hermD (h δ d0 d1 y u : α) : α :=
  3 * (((d1 - δ) / h - (δ - d0) / h) / h) * u ^ 2 + 2 * (2 * ((δ - d0) / h) - (d1 - δ) / h) * u + d0

theorem hermD_zero {h δ d0 d1 y : α} : hermD h δ d0 d1 y 0 = d0 := by simp [hermD]

theorem hermD_end {h δ d0 d1 y : α} (hh : h ≠ 0) : hermD h δ d0 d1 y h = d1 := by
  simp only [hermD]
  field_simp
  ring

theorem pval_herm_zero (h δ d0 d1 y u : α) :
    pval (Fl.fin u) ((hermC h δ d0 d1 y).map Fl.fin) 0 = Fl.fin (hermV h δ d0 d1 y u) := by
  unfold pval
  rw [if_pos rfl, lit_eq, Rat.cast_zero, foldl_fin]; rfl

theorem pval_herm_one (h δ d0 d1 y u : α) :
    pval (Fl.fin u) ((hermC h δ d0 d1 y).map Fl.fin) 1 = Fl.fin (hermD h δ d0 d1 y u) := by
  unfold pval hermC hermD
  simp [multiplier, List.range', List.zipIdx]
  ring

/-- The normalised cubic is a combination of four increasing ones. -/
theorem herm_mono_unit {a b s t : α} (ha : 0 ≤ a) (ha3 : a ≤ 3) (hb : 0 ≤ b) (hb3 : b ≤ 3)
    (hs : 0 ≤ s) (hst : s ≤ t) (ht : t ≤ 1) :
    (a + b - 2) * s ^ 3 + (3 - 2 * a - b) * s ^ 2 + a * s ≤ (a + b - 2) * t ^ 3 + (3 - 2 * a - b) * t ^ 2 + a * t := by
  -- difference = (t - s) * quadratic form, linear in a and b; check the four corners
  have hQ : 0 ≤ (a + b - 2) * (t ^ 2 + t * s + s ^ 2) + (3 - 2 * a - b) * (t + s) + a := by
    have c00 : 0 ≤ (-2) * (t ^ 2 + t * s + s ^ 2) + 3 * (t + s) := by
      nlinarith [mul_nonneg hs (by linarith : (0:α) ≤ 1 - s), mul_nonneg (by linarith : (0:α) ≤ t) (by linarith : (0:α) ≤ 1 - t),
        mul_nonneg hs (by linarith : (0:α) ≤ 1 - t), mul_nonneg (by linarith : (0:α) ≤ t) (by linarith : (0:α) ≤ 1 - s)]
    have c30 : 0 ≤ (t ^ 2 + t * s + s ^ 2) - 3 * (t + s) + 3 := by
      nlinarith [sq_nonneg (1 - s), sq_nonneg (1 - t), mul_nonneg (by linarith : (0:α) ≤ 1 - s) (by linarith : (0:α) ≤ 1 - t)]
    have c03 : 0 ≤ (t ^ 2 + t * s + s ^ 2) := by
      nlinarith [sq_nonneg s, sq_nonneg t, mul_nonneg hs (by linarith : (0:α) ≤ t)]
    have c33 : 0 ≤ 4 * (t ^ 2 + t * s + s ^ 2) - 6 * (t + s) + 3 := by
      nlinarith [sq_nonneg (2 * s + 2 * t - 2), sq_nonneg (s - t), sq_nonneg (s + t - 1)]
    have e : 9 * ((a + b - 2) * (t ^ 2 + t * s + s ^ 2) + (3 - 2 * a - b) * (t + s) + a)
        = (3 - a) * (3 - b) * ((-2) * (t ^ 2 + t * s + s ^ 2) + 3 * (t + s))
        + a * (3 - b) * ((t ^ 2 + t * s + s ^ 2) - 3 * (t + s) + 3)
        + (3 - a) * b * (t ^ 2 + t * s + s ^ 2)
        + a * b * (4 * (t ^ 2 + t * s + s ^ 2) - 6 * (t + s) + 3) := by ring
    have ha' : 0 ≤ 3 - a := by linarith
    have hb' : 0 ≤ 3 - b := by linarith
    have := mul_nonneg (mul_nonneg ha' hb') c00
    have := mul_nonneg (mul_nonneg ha hb') c30
    have := mul_nonneg (mul_nonneg ha' hb) c03
    have := mul_nonneg (mul_nonneg ha hb) c33
    linarith
  have hd : 0 ≤ t - s := by linarith
  have := mul_nonneg hd hQ
  nlinarith [this]

theorem hermV_unit {h δ d0 d1 y u : α} (hh : h ≠ 0) (hδ : δ ≠ 0) :
    hermV h δ d0 d1 y u = y + h * δ * ((d0 / δ + d1 / δ - 2) * (u / h) ^ 3 +
      (3 - 2 * (d0 / δ) - d1 / δ) * (u / h) ^ 2 + d0 / δ * (u / h)) := by
  simp only [hermV, hermC, List.foldl]
  field_simp
  ring

theorem hermV_mono {h δ d0 d1 y u v : α} (hh : 0 < h) (hδ : 0 ≤ δ) (h0 : SlopeOK δ d0) (h1 : SlopeOK δ d1)
    (hu : 0 ≤ u) (huv : u ≤ v) (hv : v ≤ h) : hermV h δ d0 d1 y u ≤ hermV h δ d0 d1 y v := by
  rcases hδ.lt_or_eq with hδ' | hδ'
  · rw [hermV_unit hh.ne' hδ'.ne', hermV_unit hh.ne' hδ'.ne']
    have b0 := h0.1 hδ
    have b1 := h1.1 hδ
    have := herm_mono_unit (a := d0 / δ) (b := d1 / δ) (s := u / h) (t := v / h)
      (by have := b0.1; positivity) (by rw [div_le_iff₀ hδ']; exact b0.2) (by have := b1.1; positivity)
      (by rw [div_le_iff₀ hδ']; exact b1.2) (by positivity) (by gcongr) (by rw [div_le_one hh]; exact hv)
    have := mul_le_mul_of_nonneg_left this (by positivity : 0 ≤ h * δ)
    linarith
  · subst hδ'
    have b0 := h0.1 (le_refl _)
    have b1 := h1.1 (le_refl _)
    have e0 : d0 = 0 := by linarith [b0.1, b0.2]
    have e1 : d1 = 0 := by linarith [b1.1, b1.2]
    subst e0 e1
    simp [hermV, hermC]

theorem hermV_neg {h δ d0 d1 y u : α} : hermV h (-δ) (-d0) (-d1) (-y) u = - hermV h δ d0 d1 y u := by
  simp only [hermV, hermC, List.foldl]
  ring

theorem SlopeOK.neg {δ d : α} (h : SlopeOK δ d) : SlopeOK (-δ) (-d) := by
  refine ⟨fun h' => ?_, fun h' => ?_⟩
  · have := h.2 (by linarith); exact ⟨by linarith, by linarith⟩
  · have := h.1 (by linarith); exact ⟨by linarith, by linarith⟩

theorem hermV_anti {h δ d0 d1 y u v : α} (hh : 0 < h) (hδ : δ ≤ 0) (h0 : SlopeOK δ d0) (h1 : SlopeOK δ d1)
    (hu : 0 ≤ u) (huv : u ≤ v) (hv : v ≤ h) : hermV h δ d0 d1 y v ≤ hermV h δ d0 d1 y u := by
  have := hermV_mono (y := -y) hh (by linarith : 0 ≤ -δ) h0.neg h1.neg hu huv hv
  rw [hermV_neg, hermV_neg] at this
  linarith

/-! ### The coefficient table of a block -/

variable {X Y : Arr (Fl α)} {k K : ℕ} {a y : ℕ → α}

theorem Block.diffX (B : Block X Y k K a y) {i : ℕ} (h1 : k ≤ i) (h2 : i + 1 < K) :
    (diffSame X).get i = Fl.fin (a (i + 1) - a i) := by
  have := B.K_le
  rw [diffSame_get (by omega), B.hX _ (by omega) (by omega), B.hX _ h1 (by omega), fin_sub]

theorem Block.diffY (B : Block X Y k K a y) {i : ℕ} (h1 : k ≤ i) (h2 : i + 1 < K) :
    (diffSame Y).get i = Fl.fin (y (i + 1) - y i) := by
  have := B.K_le
  have := B.size
  rw [diffSame_get (by omega), B.hY _ (by omega) (by omega), B.hY _ h1 (by omega), fin_sub]

/-- chord slope -/
def chord (a y : ℕ → α) (i : ℕ) : α := (y (i + 1) - y i) / (a (i + 1) - a i)

theorem Block.hpos (B : Block X Y k K a y) {i : ℕ} (h1 : k ≤ i) (h2 : i + 1 < K) : 0 < a (i + 1) - a i := by
  have := B.inc i h1 h2; linarith

theorem Block.chordδ (B : Block X Y k K a y) {i : ℕ} (h1 : k ≤ i) (h2 : i + 1 < K) :
    (diffSame Y).get i / (diffSame X).get i = Fl.fin (chord a y i) := by
  rw [B.diffX h1 h2, B.diffY h1 h2, fin_div _ _ (B.hpos h1 h2).ne']; rfl

theorem Block.slope (B : Block X Y k K a y) (h3 : 2 < K - k) {i : ℕ} (h1 : k ≤ i) (h2 : i < K) :
    ∃ d, slopeAt (diffSame X).get (fun j => (diffSame Y).get j / (diffSame X).get j) k K i = some (Fl.fin d) ∧
      (i + 1 < K → SlopeOK (chord a y i) d) ∧ (k < i → SlopeOK (chord a y (i - 1)) d) := by
  unfold slopeAt
  simp only
  by_cases c1 : i = k
  · rw [if_pos c1, B.diffX (le_refl k) (by omega), B.diffX (by omega : k ≤ k + 1) (by omega),
      ← B.diffX (le_refl k) (by omega), ← B.diffX (by omega : k ≤ k + 1) (by omega),
      B.chordδ (le_refl k) (by omega), B.chordδ (by omega : k ≤ k + 1) (by omega),
      B.diffX (le_refl k) (by omega), B.diffX (by omega : k ≤ k + 1) (by omega)]
    obtain ⟨d, h, h'⟩ := endSlope_ok (δ0 := chord a y k) (δ1 := chord a y (k + 1)) (B.hpos (le_refl k) (by omega))
      (B.hpos (by omega : k ≤ k + 1) (by omega))
    exact ⟨d, h, fun _ => c1 ▸ h', fun h => by omega⟩
  rw [if_neg c1]
  by_cases c2 : i = K - 1
  · rw [if_pos c2, B.chordδ (by omega : k ≤ K - 2) (by omega), B.chordδ (by omega : k ≤ K - 3) (by omega),
      B.diffX (by omega : k ≤ K - 2) (by omega), B.diffX (by omega : k ≤ K - 3) (by omega)]
    obtain ⟨d, h, h'⟩ := endSlope_ok (δ0 := chord a y (K - 2)) (δ1 := chord a y (K - 3))
      (B.hpos (by omega : k ≤ K - 2) (by omega)) (B.hpos (by omega : k ≤ K - 3) (by omega))
    refine ⟨d, h, fun _ => by omega, fun _ => ?_⟩
    rw [show i - 1 = K - 2 by omega]; exact h'
  rw [if_neg c2, B.chordδ (by omega : k ≤ i - 1) (by omega), B.chordδ h1 (by omega),
      B.diffX (by omega : k ≤ i - 1) (by omega), B.diffX h1 (by omega)]
  obtain ⟨d, h, h', h''⟩ := midSlope_ok (δ0 := chord a y (i - 1)) (δ1 := chord a y i)
      (B.hpos (by omega : k ≤ i - 1) (by omega)) (B.hpos h1 (by omega))
  exact ⟨d, h, fun _ => h'', fun _ => h'⟩

/-- What the PCHIP table contains: Hermite cubics with shape-preserving slopes `d`, which are those computed. -/
theorem Block.pchip' (B : Block X Y k K a y) :
    ∃ (C : PPC (Fl α)) (d : ℕ → α), pchipCoeffs1 X Y = some C ∧
      (∀ i, k ≤ i → i + 1 < K → SlopeOK (chord a y i) (d i) ∧ SlopeOK (chord a y i) (d (i + 1))) ∧
      (∀ i, k ≤ i → i + 1 < K →
        C.row i = (hermC (a (i + 1) - a i) (chord a y i) (d i) (d (i + 1)) (y i)).map Fl.fin) ∧
      (2 < K - k → ∀ i, k ≤ i → i < K →
        slopeAt (diffSame X).get (fun j => (diffSame Y).get j / (diffSame X).get j) k K i = some (Fl.fin (d i))) ∧
      (K = k + 2 → ∀ i, d i = chord a y k) := by
  unfold pchipCoeffs1
  rw [B.vr]
  have hs := B.size
  have htwo := B.two
  by_cases h3 : 2 < K - k
  · choose! d hd hd1 hd2 using fun i (h : k ≤ i ∧ i < K) => B.slope h3 h.1 h.2
    have hrow : ∀ i, k ≤ i → i + 1 < K → pchipRow X Y k K i =
        some ((hermC (a (i + 1) - a i) (chord a y i) (d i) (d (i + 1)) (y i)).map Fl.fin) := by
      intro i h1 h2
      unfold pchipRow
      simp only [hd i ⟨h1, by omega⟩, hd (i + 1) ⟨by omega, h2⟩, Option.bind_eq_bind, Option.bind_some]
      rw [B.chordδ h1 h2, B.diffX h1 h2, B.hY i h1 (by omega)]
      exact hermite_fin (B.hpos h1 h2).ne'
    refine ⟨⟨X.size, fun i => if k ≤ i ∧ i < K - 1 then (pchipRow X Y k K i).getD [Fl.nan, Fl.nan, Fl.nan, Y.get i]
      else [Fl.nan, Fl.nan, Fl.nan, Y.get i]⟩, d, ?_, ?_, ?_, fun _ i h1 h2 => hd i ⟨h1, h2⟩, fun h => by omega⟩
    · unfold pchipCoeffsAux
      simp only
      rw [if_pos h3, if_pos]
      · rfl
      · rw [List.all_eq_true]
        intro i hi
        rw [List.mem_range'_1] at hi
        rw [hrow i hi.1 (by omega)]; rfl
    · intro i h1 h2
      refine ⟨hd1 i ⟨h1, by omega⟩ h2, ?_⟩
      have := hd2 (i + 1) ⟨by omega, h2⟩ (by omega)
      simpa using this
    · intro i h1 h2
      simp only
      rw [if_pos ⟨h1, by omega⟩, hrow i h1 h2]; rfl
  · have hK : K = k + 2 := by omega
    refine ⟨⟨X.size, fun i => if i = k then [Fl.fin 0, Fl.fin 0, Fl.fin (chord a y k), Y.get i]
      else [Fl.nan, Fl.nan, Fl.nan, Y.get i]⟩, fun _ => chord a y k, ?_, ?_, ?_, fun h => absurd h h3, fun _ _ => rfl⟩
    · unfold pchipCoeffsAux
      simp only
      rw [if_neg h3, if_pos (by omega), B.hX (k + 1) (by omega) (by omega), B.hX k (by omega) (by omega),
        B.hY (k + 1) (by omega) (by omega), B.hY k (by omega) (by omega), fin_sub, fin_sub,
        sdiv_fin (B.hpos (le_refl k) (by omega)).ne']
      simp [chord]
    · intro i h1 h2
      have : i = k := by omega
      subst this
      refine ⟨⟨?_, ?_⟩, ⟨?_, ?_⟩⟩ <;> intro h <;> constructor <;> linarith
    · intro i h1 h2
      have : i = k := by omega
      subst this
      simp [hermC, B.hY i h1 (by omega)]

/-- What the PCHIP table contains: Hermite cubics with shape-preserving slopes `d`. -/
theorem Block.pchip (B : Block X Y k K a y) :
    ∃ (C : PPC (Fl α)) (d : ℕ → α), pchipCoeffs1 X Y = some C ∧
      (∀ i, k ≤ i → i + 1 < K → SlopeOK (chord a y i) (d i) ∧ SlopeOK (chord a y i) (d (i + 1))) ∧
      ∀ i, k ≤ i → i + 1 < K →
        C.row i = (hermC (a (i + 1) - a i) (chord a y i) (d i) (d (i + 1)) (y i)).map Fl.fin := by
  obtain ⟨C, d, h1, h2, h3, _⟩ := B.pchip'
  exact ⟨C, d, h1, h2, h3⟩

/-- Evaluating a table whose last column is the data. -/
theorem ppval1_eq {C : PPC (Fl α)} (hvr : validRange2 X C.lastCol = (k, K)) (x : Fl α) (d : ℕ) :
    ppval1 x X C d = if outside X k K x then Fl.nan
      else pval (x - X.get (pieceIndex X k K x)) (C.row (pieceIndex X k K x)) d := by
  unfold ppval1
  simp only [hvr]
  rfl

theorem Block.vr_table (B : Block X Y k K a y) {C : PPC (Fl α)} (h : C.lastCol.get = Y.get) :
    validRange2 X C.lastCol = (k, K) := by
  rw [← B.vr]
  exact validRange2_congr rfl (fun _ _ => rfl) (fun i _ => by rw [h])

/-- `ppval_1` on the PCHIP table, on the piece `i`, including both ends. -/
theorem Block.pchip_val (B : Block X Y k K a y) {C : PPC (Fl α)} {d : ℕ → α} (hC : pchipCoeffs1 X Y = some C)
    (hrow : ∀ i, k ≤ i → i + 1 < K →
        C.row i = (hermC (a (i + 1) - a i) (chord a y i) (d i) (d (i + 1)) (y i)).map Fl.fin)
    {i : ℕ} {x : α} (h1 : k ≤ i) (h2 : i + 1 < K) (hx : a i ≤ x) (hx' : x ≤ a (i + 1)) :
    ppval1 (Fl.fin x) X C 0 = Fl.fin (hermV (a (i + 1) - a i) (chord a y i) (d i) (d (i + 1)) (y i) (x - a i)) ∧
    ppval1 (Fl.fin x) X C 1 = Fl.fin (hermD (a (i + 1) - a i) (chord a y i) (d i) (d (i + 1)) (y i) (x - a i)) := by
  have hvr := B.vr_table (pchipAux_spec hC).2
  have ho : outside X k K (Fl.fin x) = false :=
    (B.outside_iff x).mpr ⟨le_trans (B.mono k i (le_refl _) h1 (by omega)) hx,
      le_trans hx' (B.mono (i + 1) (K - 1) (by omega) (by omega) (by omega))⟩
  have hval : ∀ j, k ≤ j → j + 1 < K → ∀ e, pieceIndex X k K (Fl.fin x) = j →
      ppval1 (Fl.fin x) X C e = pval (Fl.fin (x - a j))
        ((hermC (a (j + 1) - a j) (chord a y j) (d j) (d (j + 1)) (y j)).map Fl.fin) e := by
    intro j hj hj' e he
    rw [ppval1_eq hvr, ho, he, hrow j hj hj', B.hX j hj (by omega), fin_sub]
    rfl
  rcases B.piece_eq h1 (by omega) hx hx' with he | ⟨hxa, hki, he⟩
  · rw [hval i h1 h2 0 he, hval i h1 h2 1 he, pval_herm_zero, pval_herm_one]
    exact ⟨rfl, rfl⟩
  · rw [hval (i - 1) (by omega) (by omega) 0 he, hval (i - 1) (by omega) (by omega) 1 he, pval_herm_zero, pval_herm_one]
    have hp := (B.hpos (i := i - 1) (by omega) (by omega)).ne'
    rw [show i - 1 + 1 = i by omega] at hp ⊢
    rw [hxa, sub_self, hermV_zero, hermD_zero, hermV_end hp, hermD_end hp]
    refine ⟨?_, rfl⟩
    congr 1
    unfold chord
    rw [show i - 1 + 1 = i by omega]
    field_simp
    ring

end Interp
