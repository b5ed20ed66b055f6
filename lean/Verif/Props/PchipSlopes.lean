import Verif.Props.Interp
import Mathlib.Tactic.IntervalCases

/-!
# PCHIP: which slopes, straight lines, change of units (C100, C101)
-/

namespace Interp
open FloatLike
open Fl hiding nan
variable {α : Type*} [Field α] [LinearOrder α] [IsStrictOrderedRing α]

/-- Fritsch and Butland's slope at a site between intervals of lengths `h0`, `h1` with chord slopes `δ0`, `δ1`: a weighted
harmonic mean, or zero at a local extremum. -/
def fbSlope (h0 h1 δ0 δ1 : α) : α :=
  if 0 < δ0 * δ1 then 3 * (h0 + h1) / ((h0 + 2 * h1) / δ0 + (2 * h0 + h1) / δ1) else 0

/-- Slope at the outer end of an interval of length `h0` and chord slope `δ0`, next to one with `h1`, `δ1`: that of the
parabola through the three sites (in Newton's form), limited to `0 .. 3 * δ0`. -/
def threePoint (h0 h1 δ0 δ1 : α) : α :=
  let d := δ0 - h0 * ((δ1 - δ0) / (h0 + h1))
  if 0 < d * δ0 then (if 0 < δ0 * δ1 ∨ |d| ≤ 3 * |δ0| then d else 3 * δ0) else 0

theorem midSlope_val {h0 h1 δ0 δ1 : α} (p0 : 0 < h0) (p1 : 0 < h1) :
    midSlope (Fl.fin h0) (Fl.fin h1) (Fl.fin δ0) (Fl.fin δ1) = some (Fl.fin (fbSlope h0 h1 δ0 δ1)) := by
  unfold midSlope fbSlope
  rw [sign_fin, sign_fin, fin_mul, lit_eq, lt_fin]
  have hiff : (((0 : ℚ) : α)) < (if 0 < δ0 then 1 else if δ0 < 0 then -1 else 0) *
        (if 0 < δ1 then 1 else if δ1 < 0 then -1 else 0) ↔ 0 < δ0 * δ1 := by
    rcases lt_trichotomy δ0 0 with h | h | h <;> rcases lt_trichotomy δ1 0 with h' | h' | h' <;>
      simp [h, h', not_lt.mpr h.le, not_lt.mpr h'.le, mul_pos, mul_pos_of_neg_of_neg, mul_nonpos_iff, h.le, h'.le]
  by_cases c : 0 < δ0 * δ1
  · rw [decide_eq_true (hiff.mpr c), if_pos c, if_pos rfl]
    have n0 : δ0 ≠ 0 := by rintro rfl; simp at c
    have n1 : δ1 ≠ 0 := by rintro rfl; simp at c
    have n2 : (h0 + 2 * h1) / δ0 + (2 * h0 + h1) / δ1 ≠ 0 := by
      have hw1 : 0 < h0 + 2 * h1 := by positivity
      have hw2 : 0 < 2 * h0 + h1 := by positivity
      rcases mul_pos_iff.mp c with ⟨c, c'⟩ | ⟨c, c'⟩
      · positivity
      · have := div_neg_of_pos_of_neg hw1 c
        have := div_neg_of_pos_of_neg hw2 c'
        intro h; linarith
    simp only [lit_eq, fin_mul, fin_add, Rat.cast_ofNat, sdiv_fin n0, sdiv_fin n1, Option.bind_eq_bind,
        Option.bind_some, sdiv_fin n2]
    congr 3
    ring
  · rw [decide_eq_false (fun h => c (hiff.mp h)), if_neg c]
    simp

theorem endSlope_val {h0 h1 δ0 δ1 : α} (p0 : 0 < h0) (p1 : 0 < h1) :
    endSlope (Fl.fin h0) (Fl.fin h1) (Fl.fin δ0) (Fl.fin δ1) = some (Fl.fin (threePoint h0 h1 δ0 δ1)) := by
  have hne : h0 + h1 ≠ 0 := by positivity
  unfold endSlope threePoint
  simp only [lit_eq, fin_mul, fin_add, fin_sub, sdiv_fin hne, Option.bind_eq_bind, Option.bind_some, feq_sign, abs_fin,
    lt_fin]
  have e : ((((2 : ℚ) : α) * h0 + h1) * δ0 - h0 * δ1) / (h0 + h1) = δ0 - h0 * ((δ1 - δ0) / (h0 + h1)) := by
    push_cast; field_simp; ring
  rw [e]
  set q := δ0 - h0 * ((δ1 - δ0) / (h0 + h1))
  have s1 : ∀ u v : α, 0 < u * v ↔ (0 < u ∧ 0 < v) ∨ (u < 0 ∧ v < 0) := fun u v => mul_pos_iff
  by_cases c : 0 < q * δ0
  · have c1 : (0 < q ∧ 0 < δ0) ∨ (q < 0 ∧ δ0 < 0) ∨ (q = 0 ∧ δ0 = 0) := by
      rcases (s1 _ _).mp c with h | h
      · exact Or.inl h
      · exact Or.inr (Or.inl h)
    have n0 : δ0 ≠ 0 := by rintro h; rw [h] at c; simp at c
    rw [if_pos c]
    by_cases c2 : 0 < δ0 * δ1
    · have c3 : (0 < δ0 ∧ 0 < δ1) ∨ (δ0 < 0 ∧ δ1 < 0) ∨ (δ0 = 0 ∧ δ1 = 0) := by
        rcases (s1 _ _).mp c2 with h | h
        · exact Or.inl h
        · exact Or.inr (Or.inl h)
      simp [c1, c2, c3]
    · have c3 : ¬ ((0 < δ0 ∧ 0 < δ1) ∨ (δ0 < 0 ∧ δ1 < 0) ∨ (δ0 = 0 ∧ δ1 = 0)) := by
        rintro (h | h | h)
        · exact c2 ((s1 _ _).mpr (Or.inl h))
        · exact c2 ((s1 _ _).mpr (Or.inr h))
        · exact n0 h.1
      have ab : |((3 : ℚ) : α) * δ0| = 3 * |δ0| := by rw [abs_mul]; norm_num
      rw [ab]
      by_cases c4 : |q| ≤ 3 * |δ0|
      · simp only [c1, c3, c4, or_true, if_true, decide_true, Bool.not_true, Bool.false_eq_true, if_false,
          decide_false, Bool.not_false, Bool.true_and, decide_eq_true_eq, if_neg (not_lt.mpr c4)]
        rfl
      · simp only [c1, c3, c4, c2, or_false, if_true, decide_true, Bool.not_true, Bool.false_eq_true, if_false,
          decide_false, Bool.not_false, Bool.true_and, decide_eq_true_eq, if_pos (not_le.mp c4)]
        push_cast; rfl
  · rw [if_neg c]
    by_cases c1 : (0 < q ∧ 0 < δ0) ∨ (q < 0 ∧ δ0 < 0) ∨ (q = 0 ∧ δ0 = 0)
    · rcases c1 with h | h | h
      · exact absurd ((s1 _ _).mpr (Or.inl h)) c
      · exact absurd ((s1 _ _).mpr (Or.inr h)) c
      · simp [h.1, h.2]
    · simp [c1]

variable {X Y : Arr (Fl α)} {k K : ℕ} {a y : ℕ → α}

/-- The slope of the interpolant at site `i` of the data `k .. K - 1`, from the data. -/
def slopeSpec (a y : ℕ → α) (k K i : ℕ) : α :=
  let h := fun j => a (j + 1) - a j
  let δ := fun j => (y (j + 1) - y j) / (a (j + 1) - a j)
  if K = k + 2 then δ k
  else if i = k then threePoint (h k) (h (k + 1)) (δ k) (δ (k + 1))
  else if i = K - 1 then threePoint (h (K - 2)) (h (K - 3)) (δ (K - 2)) (δ (K - 3))
  else fbSlope (h (i - 1)) (h i) (δ (i - 1)) (δ i)

theorem Block.pchip_spec (B : Block X Y k K a y) :
    ∃ C : PPC (Fl α), pchipCoeffs1 X Y = some C ∧ ∀ i, k ≤ i → i + 1 < K →
        C.row i = (hermC (a (i + 1) - a i) (chord a y i) (slopeSpec a y k K i) (slopeSpec a y k K (i + 1)) (y i)).map
          Fl.fin := by
  obtain ⟨C, d, hC, _, hrow, hd, hd2⟩ := B.pchip'
  have htwo := B.two
  have key : ∀ i, k ≤ i → i < K → d i = slopeSpec a y k K i := by
    intro i h1 h2
    unfold slopeSpec
    by_cases c0 : K = k + 2
    · rw [if_pos c0, hd2 c0]; rfl
    rw [if_neg c0]
    have h3 : 2 < K - k := by omega
    have := hd h3 i h1 h2
    unfold slopeAt at this
    by_cases c1 : i = k
    · rw [if_pos c1]
      simp only at this
      rw [if_pos c1, B.chordδ (le_refl k) (by omega), B.chordδ (by omega : k ≤ k + 1) (by omega),
        B.diffX (le_refl k) (by omega), B.diffX (by omega : k ≤ k + 1) (by omega),
        endSlope_val (B.hpos (le_refl k) (by omega)) (B.hpos (by omega : k ≤ k + 1) (by omega))] at this
      simpa [chord] using this.symm
    rw [if_neg c1]
    by_cases c2 : i = K - 1
    · rw [if_pos c2]
      simp only at this
      rw [if_neg c1, if_pos c2, B.chordδ (by omega : k ≤ K - 2) (by omega), B.chordδ (by omega : k ≤ K - 3) (by omega),
        B.diffX (by omega : k ≤ K - 2) (by omega), B.diffX (by omega : k ≤ K - 3) (by omega),
        endSlope_val (B.hpos (by omega : k ≤ K - 2) (by omega)) (B.hpos (by omega : k ≤ K - 3) (by omega))] at this
      simpa [chord] using this.symm
    rw [if_neg c2]
    simp only at this
    rw [if_neg c1, if_neg c2, B.chordδ (by omega : k ≤ i - 1) (by omega), B.chordδ h1 (by omega),
      B.diffX (by omega : k ≤ i - 1) (by omega), B.diffX h1 (by omega),
      midSlope_val (B.hpos (by omega : k ≤ i - 1) (by omega)) (B.hpos h1 (by omega))] at this
    simpa [chord] using this.symm
  refine ⟨C, hC, fun i h1 h2 => ?_⟩
  rw [hrow i h1 h2, key i h1 (by omega), key (i + 1) (by omega) h2]

/-- **C100** The slope of the PCHIP interpolant at every site of the data is Fritsch and Butland's weighted harmonic mean
(inside), the limited slope of the parabola through the three outermost sites (at the ends), or the slope of the chord if
there are only two sites. -/
theorem pchip_slopes (B : Block X Y k K a y) :
    ∃ C, pchipCoeffs1 X Y = some C ∧ ∀ j, k ≤ j → j < K → ppval1 (X.get j) X C 1 = Fl.fin (slopeSpec a y k K j) := by
  obtain ⟨C, hC, hrow⟩ := B.pchip_spec
  have htwo := B.two
  refine ⟨C, hC, fun j h1 h2 => ?_⟩
  rw [B.hX j h1 h2]
  by_cases h : j + 1 < K
  · rw [(B.pchip_val hC hrow h1 h (le_refl _) (B.inc j h1 h).le).2, sub_self, hermD_zero]
  · have hi := B.inc (j - 1) (by omega) (by omega)
    rw [show j - 1 + 1 = j by omega] at hi
    have := (B.pchip_val hC hrow (i := j - 1) (x := a j) (by omega) (by omega) hi.le
      (by rw [show j - 1 + 1 = j by omega])).2
    rw [show j - 1 + 1 = j by omega, hermD_end (by linarith)] at this
    exact this

/-- **C100** Next to monotonic data the slope at an end is that of the parabola through the three outermost sites, if that
has the sign of the data. -/
theorem threePoint_parabola {x0 x1 x2 y0 y1 y2 A C D : α} (h0 : x0 < x1) (h1 : x1 < x2)
    (e0 : A * x0 ^ 2 + C * x0 + D = y0) (e1 : A * x1 ^ 2 + C * x1 + D = y1) (e2 : A * x2 ^ 2 + C * x2 + D = y2)
    (hs : 0 < (2 * A * x0 + C) * ((y1 - y0) / (x1 - x0)))
    (hm : 0 < (y1 - y0) / (x1 - x0) * ((y2 - y1) / (x2 - x1))) :
    threePoint (x1 - x0) (x2 - x1) ((y1 - y0) / (x1 - x0)) ((y2 - y1) / (x2 - x1)) = 2 * A * x0 + C := by
  have n0 : x1 - x0 ≠ 0 := by linarith
  have n1 : x2 - x1 ≠ 0 := by linarith
  have n2 : x1 - x0 + (x2 - x1) ≠ 0 := by intro h; linarith
  have d0 : (y1 - y0) / (x1 - x0) = A * (x0 + x1) + C := by
    rw [div_eq_iff n0, ← e0, ← e1]; ring
  have d1 : (y2 - y1) / (x2 - x1) = A * (x1 + x2) + C := by
    rw [div_eq_iff n1, ← e1, ← e2]; ring
  have hd : (y1 - y0) / (x1 - x0) - (x1 - x0) * (((y2 - y1) / (x2 - x1) - (y1 - y0) / (x1 - x0)) /
      (x1 - x0 + (x2 - x1))) = 2 * A * x0 + C := by
    rw [d0, d1, show A * (x1 + x2) + C - (A * (x0 + x1) + C) = A * (x1 - x0 + (x2 - x1)) by ring,
      mul_div_assoc, div_self n2]
    ring
  unfold threePoint
  simp only [hd]
  rw [if_pos hs, if_pos (Or.inl hm)]

/-! ## Straight lines and change of units -/

theorem fbSlope_scale {h0 h1 δ0 δ1 : α} (p c : α) (hp : 0 < p) :
    fbSlope (p * h0) (p * h1) (c * δ0) (c * δ1) = c * fbSlope h0 h1 δ0 δ1 := by
  unfold fbSlope
  rcases eq_or_ne c 0 with rfl | hc
  · simp
  have e : c * δ0 * (c * δ1) = c ^ 2 * (δ0 * δ1) := by ring
  have hc2 : 0 < c ^ 2 := by positivity
  rw [e]
  by_cases h : 0 < δ0 * δ1
  · rw [if_pos h, if_pos (by positivity)]
    have n0 : δ0 ≠ 0 := by rintro rfl; simp at h
    have n1 : δ1 ≠ 0 := by rintro rfl; simp at h
    have e1 : (p * h0 + 2 * (p * h1)) / (c * δ0) + (2 * (p * h0) + p * h1) / (c * δ1) =
        p / c * ((h0 + 2 * h1) / δ0 + (2 * h0 + h1) / δ1) := by field_simp
    have e2 : 3 * (p * h0 + p * h1) = p * (3 * (h0 + h1)) := by ring
    rw [e1, e2, mul_div_mul_comm, div_div_cancel₀ hp.ne']
  · rw [if_neg h, if_neg, mul_zero]
    exact fun h' => h ((mul_pos_iff_of_pos_left hc2).mp h')

theorem threePoint_scale {h0 h1 δ0 δ1 : α} (p c : α) (hp : 0 < p) :
    threePoint (p * h0) (p * h1) (c * δ0) (c * δ1) = c * threePoint h0 h1 δ0 δ1 := by
  rcases eq_or_ne c 0 with rfl | hc
  · simp [threePoint]
  unfold threePoint
  have e : c * δ0 - p * h0 * ((c * δ1 - c * δ0) / (p * h0 + p * h1)) = c * (δ0 - h0 * ((δ1 - δ0) / (h0 + h1))) := by
    rw [show c * δ1 - c * δ0 = c * (δ1 - δ0) by ring, show p * h0 + p * h1 = p * (h0 + h1) by ring, mul_div_mul_comm]
    field_simp
  simp only [e]
  set q := δ0 - h0 * ((δ1 - δ0) / (h0 + h1))
  have hc2 : 0 < c ^ 2 := by positivity
  have i1 : 0 < c * q * (c * δ0) ↔ 0 < q * δ0 := by
    rw [show c * q * (c * δ0) = c ^ 2 * (q * δ0) by ring]; exact mul_pos_iff_of_pos_left hc2
  have i2 : 0 < c * δ0 * (c * δ1) ↔ 0 < δ0 * δ1 := by
    rw [show c * δ0 * (c * δ1) = c ^ 2 * (δ0 * δ1) by ring]; exact mul_pos_iff_of_pos_left hc2
  have i3 : |c * q| ≤ 3 * |c * δ0| ↔ |q| ≤ 3 * |δ0| := by
    rw [abs_mul, abs_mul, show 3 * (|c| * |δ0|) = |c| * (3 * |δ0|) by ring]
    exact mul_le_mul_iff_right₀ (abs_pos.mpr hc)
  simp only [i1, i2, i3]
  split_ifs <;> ring

theorem Block.locate (B : Block X Y k K a y) {x : α} (hx : a k ≤ x) (hx' : x ≤ a (K - 1)) :
    ∃ i, k ≤ i ∧ i + 1 < K ∧ a i ≤ x ∧ x ≤ a (i + 1) := by
  have htwo := B.two
  have : ∀ m, x ≤ a (k + 1 + m) → ∃ i, k ≤ i ∧ i ≤ k + m ∧ a i ≤ x ∧ x ≤ a (i + 1) := by
    intro m
    induction m with
    | zero => exact fun h => ⟨k, le_refl _, le_refl _, hx, h⟩
    | succ m ih =>
      intro h
      rcases le_total x (a (k + 1 + m)) with c | c
      · obtain ⟨i, e1, e2, e3⟩ := ih c
        exact ⟨i, e1, by omega, e3⟩
      · exact ⟨k + 1 + m, by omega, by omega, c, h⟩
  obtain ⟨i, e1, e2, e3⟩ := this (K - 2 - k) (by rwa [show k + 1 + (K - 2 - k) = K - 1 by omega])
  exact ⟨i, e1, by omega, e3⟩

/-- The data are on a straight line. -/
theorem slopeSpec_line (B : Block X Y k K a y) {m b : α} (hl : ∀ i, k ≤ i → i < K → y i = m * a i + b) {j : ℕ}
    (h1 : k ≤ j) (h2 : j < K) : slopeSpec a y k K j = m := by
  have htwo := B.two
  have hch : ∀ i, k ≤ i → i + 1 < K → (y (i + 1) - y i) / (a (i + 1) - a i) = m := by
    intro i e1 e2
    rw [hl i e1 (by omega), hl (i + 1) (by omega) e2, div_eq_iff (B.hpos e1 e2).ne']
    ring
  have hfb : ∀ h0 h1 : α, 0 < h0 → 0 < h1 → fbSlope h0 h1 m m = m := by
    intro h0 h1 p0 p1
    unfold fbSlope
    split_ifs with h
    · have : m ≠ 0 := by rintro rfl; simp at h
      rw [← add_div, show h0 + 2 * h1 + (2 * h0 + h1) = 3 * (h0 + h1) by ring]
      exact div_div_cancel₀ (by positivity)
    · by_contra hm
      exact h (mul_self_pos.mpr (Ne.symm hm))
  have htp : ∀ h0 h1 : α, threePoint h0 h1 m m = m := by
    intro h0 h1
    unfold threePoint
    simp only [sub_self, zero_div, mul_zero, sub_zero]
    split_ifs with h h'
    · rfl
    · exact absurd (Or.inl h) h'
    · by_contra hm
      exact h (mul_self_pos.mpr (Ne.symm hm))
  unfold slopeSpec
  simp only
  split_ifs with c0 c1 c2
  · exact hch k (le_refl _) (by omega)
  · rw [hch k (le_refl _) (by omega), hch (k + 1) (by omega) (by omega), htp]
  · rw [hch (K - 2) (by omega) (by omega), hch (K - 3) (by omega) (by omega), htp]
  · rw [hch (i := j) h1 (by omega), hch (j - 1) (by omega) (by omega),
      hfb _ _ (B.hpos (by omega) (by omega)) (B.hpos h1 (by omega))]

/-- **C101** Both interpolants of data on a straight line are that line. -/
theorem line_reproduced (B : Block X Y k K a y) {m b : α} (hl : ∀ i, k ≤ i → i < K → y i = m * a i + b) {x : α}
    (hx : a k ≤ x) (hx' : x ≤ a (K - 1)) :
    (∃ C, pchipCoeffs1 X Y = some C ∧ ppval1 (Fl.fin x) X C 0 = Fl.fin (m * x + b) ∧
      ppval1 (Fl.fin x) X C 1 = Fl.fin m) ∧
    ppval1 (Fl.fin x) X (linearCoeffs1 X Y) 0 = Fl.fin (m * x + b) := by
  have htwo := B.two
  obtain ⟨i, h1, h2, e1, e2⟩ := B.locate hx hx'
  have hh := B.hpos h1 h2
  have hc : chord a y i = m := by
    unfold chord
    rw [hl i h1 (by omega), hl (i + 1) (by omega) h2, div_eq_iff hh.ne']
    ring
  constructor
  · obtain ⟨C, hC, hrow⟩ := B.pchip_spec
    refine ⟨C, hC, ?_⟩
    obtain ⟨v0, v1⟩ := B.pchip_val hC hrow h1 h2 e1 e2
    rw [v0, v1, hc, slopeSpec_line B hl h1 (by omega), slopeSpec_line B hl (by omega : k ≤ i + 1) h2,
      hl i h1 (by omega)]
    constructor
    · congr 1
      simp only [hermV, hermC, List.foldl, sub_self, zero_div, mul_zero]
      ring
    · congr 1
      simp [hermD]
  · rw [(linear_chord B h1 h2 e1 e2).1]
    congr 1
    rw [show (y (i + 1) - y i) / (a (i + 1) - a i) = m from hc, hl i h1 (by omega)]
    ring

variable {X' Y' : Arr (Fl α)} {a' y' : ℕ → α}

theorem slopeSpec_units {p q c e : α} (hp : 0 < p) (ha : ∀ i, k ≤ i → i < K → a' i = p * a i + q)
    (hy : ∀ i, k ≤ i → i < K → y' i = c * y i + e) (htwo : k + 2 ≤ K) {j : ℕ} (h1 : k ≤ j) (h2 : j < K) :
    slopeSpec a' y' k K j = c / p * slopeSpec a y k K j := by
  have hh : ∀ i, k ≤ i → i + 1 < K → a' (i + 1) - a' i = p * (a (i + 1) - a i) := by
    intro i e1 e2; rw [ha i e1 (by omega), ha (i + 1) (by omega) e2]; ring
  have hd : ∀ i, k ≤ i → i + 1 < K →
      (y' (i + 1) - y' i) / (a' (i + 1) - a' i) = c / p * ((y (i + 1) - y i) / (a (i + 1) - a i)) := by
    intro i e1 e2
    rw [hh i e1 e2, hy i e1 (by omega), hy (i + 1) (by omega) e2,
      show c * y (i + 1) + e - (c * y i + e) = c * (y (i + 1) - y i) by ring, mul_div_mul_comm]
  unfold slopeSpec
  simp only
  split_ifs with c0 c1 c2
  · exact hd k (le_refl _) (by omega)
  · rw [hd k (le_refl _) (by omega), hd (k + 1) (by omega) (by omega), hh k (le_refl _) (by omega),
      hh (k + 1) (by omega) (by omega), threePoint_scale _ _ hp]
  · rw [hd (K - 2) (by omega) (by omega), hd (K - 3) (by omega) (by omega), hh (K - 2) (by omega) (by omega),
      hh (K - 3) (by omega) (by omega), threePoint_scale _ _ hp]
  · have hi : j - 1 + 1 = j := by omega
    have a1 := hh (j - 1) (by omega) (by omega)
    have a2 := hd (j - 1) (by omega) (by omega)
    rw [hd j h1 (by omega), hh j h1 (by omega), a2, a1, fbSlope_scale _ _ hp]

/-- **C101** Changing the units of both variables (any affine map of the values, any increasing one of the sites) changes
both interpolants by the same maps. -/
theorem units_change (B : Block X Y k K a y) (B' : Block X' Y' k K a' y') {p q c e : α} (hp : 0 < p)
    (ha : ∀ i, k ≤ i → i < K → a' i = p * a i + q) (hy : ∀ i, k ≤ i → i < K → y' i = c * y i + e) {x : α}
    (hx : a k ≤ x) (hx' : x ≤ a (K - 1)) :
    (∃ C C' v, pchipCoeffs1 X Y = some C ∧ pchipCoeffs1 X' Y' = some C' ∧ ppval1 (Fl.fin x) X C 0 = Fl.fin v ∧
      ppval1 (Fl.fin (p * x + q)) X' C' 0 = Fl.fin (c * v + e)) ∧
    ∃ v, ppval1 (Fl.fin x) X (linearCoeffs1 X Y) 0 = Fl.fin v ∧
      ppval1 (Fl.fin (p * x + q)) X' (linearCoeffs1 X' Y') 0 = Fl.fin (c * v + e) := by
  have htwo := B.two
  obtain ⟨i, h1, h2, e1, e2⟩ := B.locate hx hx'
  have hh := B.hpos h1 h2
  have f1 : a' i ≤ p * x + q := by
    rw [ha i h1 (by omega)]; have := mul_le_mul_of_nonneg_left e1 hp.le; linarith
  have f2 : p * x + q ≤ a' (i + 1) := by
    rw [ha (i + 1) (by omega) h2]; have := mul_le_mul_of_nonneg_left e2 hp.le; linarith
  have hh' : a' (i + 1) - a' i = p * (a (i + 1) - a i) := by
    rw [ha i h1 (by omega), ha (i + 1) (by omega) h2]; ring
  have hc' : chord a' y' i = c / p * chord a y i := by
    unfold chord
    rw [hh', hy i h1 (by omega), hy (i + 1) (by omega) h2,
      show c * y (i + 1) + e - (c * y i + e) = c * (y (i + 1) - y i) by ring, mul_div_mul_comm]
  have hu : p * x + q - a' i = p * (x - a i) := by rw [ha i h1 (by omega)]; ring
  have hn := hh.ne'
  constructor
  · obtain ⟨C, hC, hrow⟩ := B.pchip_spec
    obtain ⟨C', hC', hrow'⟩ := B'.pchip_spec
    refine ⟨C, C', _, hC, hC', (B.pchip_val hC hrow h1 h2 e1 e2).1, ?_⟩
    rw [(B'.pchip_val hC' hrow' h1 h2 f1 f2).1, hh', hc', hu, slopeSpec_units hp ha hy htwo h1 (by omega),
      slopeSpec_units hp ha hy htwo (by omega : k ≤ i + 1) h2, hy i h1 (by omega)]
    congr 1
    generalize a (i + 1) - a i = h at *
    generalize slopeSpec a y k K i = d0
    generalize slopeSpec a y k K (i + 1) = d1
    generalize chord a y i = δ
    generalize x - a i = u
    have := hp.ne'
    simp only [hermV, hermC, List.foldl]
    field_simp
    ring
  · refine ⟨_, (linear_chord B h1 h2 e1 e2).1, ?_⟩
    rw [(linear_chord B' h1 h2 f1 f2).1]
    congr 1
    rw [show (y' (i + 1) - y' i) / (a' (i + 1) - a' i) = c / p * ((y (i + 1) - y i) / (a (i + 1) - a i)) from hc', hu,
      hy i h1 (by omega)]
    have := hp.ne'
    field_simp
    ring

/-- The hypotheses hold, for a non-trivial case: slopes at the two ends and inside of `exX`, `exY` (sites 0, 1, 3, values
5, 6, 6), and a change of units. -/
example : ∃ C, pchipCoeffs1 exX exY = some C ∧ ppval1 (Fl.fin 0) exX C 1 = Fl.fin (4 / 3) ∧
    ppval1 (Fl.fin 1) exX C 1 = Fl.fin 0 := by
  obtain ⟨C, hC, h⟩ := pchip_slopes exBlock
  refine ⟨C, hC, ?_, ?_⟩
  · have := h 1 (by omega) (by omega)
    rw [show exX.get 1 = Fl.fin 0 from rfl] at this
    rw [this]
    norm_num [slopeSpec, threePoint]
  · have := h 2 (by omega) (by omega)
    rw [show exX.get 2 = Fl.fin 1 from rfl] at this
    rw [this]
    norm_num [slopeSpec, fbSlope]

/-- Kelvin instead of degrees Celsius, pascal instead of decibar. -/
example : ∃ X' Y' : Arr (Fl ℚ), ∃ a' y' : ℕ → ℚ, Block X' Y' 1 4 a' y' ∧
    (∀ i, 1 ≤ i → i < 4 → a' i = 10000 * (if i = 1 then 0 else if i = 2 then 1 else 3) + 0) ∧
    (∀ i, 1 ≤ i → i < 4 → y' i = 1 * (if i = 1 then 5 else 6) + 27315 / 100) := by
  refine ⟨Arr.ofList [Fl.nan, Fl.fin 0, Fl.fin 10000, Fl.fin 30000, Fl.nan, Fl.fin 9],
    Arr.ofList [Fl.fin 7, Fl.fin (5 + 27315 / 100), Fl.fin (6 + 27315 / 100), Fl.fin (6 + 27315 / 100), Fl.fin 2,
      Fl.fin 2], fun i => if i = 1 then 0 else if i = 2 then 10000 else 30000,
    fun i => if i = 1 then 5 + 27315 / 100 else 6 + 27315 / 100, ?_, ?_, ?_⟩
  · constructor
    · rfl
    · decide +kernel
    · omega
    · intro i h1 h2; interval_cases i <;> rfl
    · intro i h1 h2; interval_cases i <;> rfl
    · intro i h1 h2
      have : i = 1 ∨ i = 2 := by omega
      rcases this with rfl | rfl <;> norm_num
  · intro i h1 h2; interval_cases i <;> norm_num
  · intro i h1 h2; interval_cases i <;> norm_num

/-- Data on the line `2 x + 5`. -/
example : ∃ a y : ℕ → ℚ, Block exX (Arr.ofList [Fl.fin 7, Fl.fin 5, Fl.fin 7, Fl.fin 11, Fl.fin 2, Fl.fin 2]) 1 4 a y ∧
    ∀ i, 1 ≤ i → i < 4 → y i = 2 * a i + 5 := by
  refine ⟨fun i => if i = 1 then 0 else if i = 2 then 1 else 3, fun i => if i = 1 then 5 else if i = 2 then 7 else 11,
    ⟨rfl, by decide +kernel, by omega, ?_, ?_, ?_⟩, ?_⟩
  · intro i h1 h2; interval_cases i <;> rfl
  · intro i h1 h2; interval_cases i <;> rfl
  · intro i h1 h2
    have : i = 1 ∨ i = 2 := by omega
    rcases this with rfl | rfl <;> norm_num
  · intro i h1 h2; interval_cases i <;> norm_num

end Interp
