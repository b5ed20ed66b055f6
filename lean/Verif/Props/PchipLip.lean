import Verif.Props.PchipSlopes
import Verif.Lemmas.PchipRound
import Verif.Lemmas.Column
set_option linter.unusedSectionVars false

/-!
# PCHIP depends continuously on the data (C164)
-/

namespace Interp
open FloatLike Fzero Traj
open Fl hiding nan

/-! ## Slopes -/

section
variable {h0 h1 δ0 δ1 δ0' δ1' η : ℝ}

/-- Fritsch and Butland's mean of two positive slopes, as a quotient. -/
theorem fbSlope_pos (p0 : 0 < h0) (p1 : 0 < h1) (hδ0 : 0 < δ0) (hδ1 : 0 < δ1) :
    fbSlope h0 h1 δ0 δ1 = 3 * (h0 + h1) * (δ0 * δ1) / ((h0 + 2 * h1) * δ1 + (2 * h0 + h1) * δ0) := by
  unfold fbSlope
  rw [if_pos (mul_pos hδ0 hδ1)]
  field_simp

theorem fbSlope_neg : fbSlope h0 h1 (-δ0) (-δ1) = -fbSlope h0 h1 δ0 δ1 := by
  have := fbSlope_scale (h0 := h0) (h1 := h1) (δ0 := δ0) (δ1 := δ1) 1 (-1) one_pos
  simpa using this

/-- Both pairs positive: one side of the bound. -/
theorem fbSlope_lip_pos (p0 : 0 < h0) (p1 : 0 < h1) (hδ0 : 0 < δ0) (hδ1 : 0 < δ1) (hδ0' : 0 < δ0') (hδ1' : 0 < δ1') (hη : 0 ≤ η)
    (e0 : δ0' ≤ δ0 + η) (e1 : δ1' ≤ δ1 + η) : fbSlope h0 h1 δ0' δ1' ≤ fbSlope h0 h1 δ0 δ1 + 3 * η := by
  rw [fbSlope_pos p0 p1 hδ0 hδ1, fbSlope_pos p0 p1 hδ0' hδ1']
  set w1 := h0 + 2 * h1 with hw1
  set w2 := 2 * h0 + h1 with hw2
  have hW : 3 * (h0 + h1) = w1 + w2 := by rw [hw1, hw2]; ring
  have q1 : 0 < w1 := by rw [hw1]; linarith
  have q2 : 0 < w2 := by rw [hw2]; linarith
  have t1 : w1 + w2 ≤ 3 * w1 := by rw [hw1, hw2]; linarith
  have t2 : w1 + w2 ≤ 3 * w2 := by rw [hw1, hw2]; linarith
  rw [hW]
  have mono : (w1 + w2) * (δ0' * δ1') / (w1 * δ1' + w2 * δ0') ≤ (w1 + w2) * ((δ0 + η) * (δ1 + η)) / (w1 * (δ1 + η) + w2 * (δ0 + η)) := by
    have d1 : 0 < w1 * δ1' + w2 * δ0' := by positivity
    have d2 : 0 < w1 * (δ1 + η) + w2 * (δ0 + η) := by positivity
    rw [div_le_div_iff₀ d1 d2]
    have a0 : 0 ≤ δ0 + η - δ0' := by linarith
    have a1 : 0 ≤ δ1 + η - δ1' := by linarith
    have z1 : 0 ≤ (δ0 + η - δ0') * (δ1' * (δ1 + η)) := mul_nonneg a0 (by positivity)
    have z2 : 0 ≤ (δ1 + η - δ1') * (δ0' * (δ0 + η)) := mul_nonneg a1 (by positivity)
    have : (w1 + w2) * ((δ0 + η) * (δ1 + η)) * (w1 * δ1' + w2 * δ0') - (w1 + w2) * (δ0' * δ1') * (w1 * (δ1 + η) + w2 * (δ0 + η)) =
        (w1 + w2) * (w1 * ((δ0 + η - δ0') * (δ1' * (δ1 + η))) + w2 * ((δ1 + η - δ1') * (δ0' * (δ0 + η)))) := by ring
    have : 0 ≤ (w1 + w2) * (w1 * ((δ0 + η - δ0') * (δ1' * (δ1 + η))) + w2 * ((δ1 + η - δ1') * (δ0' * (δ0 + η)))) := by positivity
    linarith
  refine mono.trans ?_
  have d1 : 0 < w1 * δ1 + w2 * δ0 := by positivity
  have d2 : 0 < w1 * (δ1 + η) + w2 * (δ0 + η) := by positivity
  rw [div_add' _ _ _ d1.ne', div_le_div_iff₀ d2 d1]
  set D := w1 * δ1 + w2 * δ0 with hD
  have e2 : w1 * (δ1 + η) + w2 * (δ0 + η) = D + (w1 + w2) * η := by rw [hD]; ring
  rw [e2]
  have g1 : (w1 + w2) * (δ0 + δ1) ≤ 3 * D := by
    have := mul_le_mul_of_nonneg_right t1 hδ1.le
    have := mul_le_mul_of_nonneg_right t2 hδ0.le
    rw [hD]; linarith
  have : ((w1 + w2) * (δ0 * δ1) + 3 * η * D) * (D + (w1 + w2) * η) - (w1 + w2) * ((δ0 + η) * (δ1 + η)) * D =
      η * (D * (3 * D - (w1 + w2) * (δ0 + δ1)) + (w1 + w2) * (w1 + w2) * (δ0 * δ1)) + 2 * (w1 + w2) * η * η * D := by ring
  have n1 : 0 ≤ D * (3 * D - (w1 + w2) * (δ0 + δ1)) := mul_nonneg d1.le (by linarith)
  have : 0 ≤ η * (D * (3 * D - (w1 + w2) * (δ0 + δ1)) + (w1 + w2) * (w1 + w2) * (δ0 * δ1)) + 2 * (w1 + w2) * η * η * D := by positivity
  linarith

/-- The first slope is the mean of two positive ones. -/
theorem fbSlope_lip_left (p0 : 0 < h0) (p1 : 0 < h1) (hδ0 : 0 < δ0) (hδ1 : 0 < δ1) (e0 : |δ0' - δ0| ≤ η) (e1 : |δ1' - δ1| ≤ η) :
    |fbSlope h0 h1 δ0' δ1' - fbSlope h0 h1 δ0 δ1| ≤ 3 * η := by
  have hη : 0 ≤ η := (abs_nonneg _).trans e0
  rw [abs_le] at e0 e1
  by_cases hpos : 0 < δ0' ∧ 0 < δ1'
  · have a1 := fbSlope_lip_pos p0 p1 hδ0 hδ1 hpos.1 hpos.2 hη (by linarith [e0.2]) (by linarith [e1.2])
    have a2 := fbSlope_lip_pos p0 p1 hpos.1 hpos.2 hδ0 hδ1 hη (by linarith [e0.1]) (by linarith [e1.1])
    rw [abs_le]
    constructor <;> linarith
  · obtain ⟨o1, o2⟩ := fbSlope_ok (δ0 := δ0) (δ1 := δ1) p0 p1
    obtain ⟨o1', o2'⟩ := fbSlope_ok (δ0 := δ0') (δ1 := δ1') p0 p1
    have b1 := o1.1 hδ0.le
    have b2 := o2.1 hδ1.le
    rcases not_and_or.1 hpos with h | h
    · have b3 := o1'.2 (not_lt.1 h)
      rw [abs_le]
      constructor <;> linarith [e0.1, e0.2]
    · have b3 := o2'.2 (not_lt.1 h)
      rw [abs_le]
      constructor <;> linarith [e1.1, e1.2]

/-- Fritsch and Butland's slope changes at most by three times the changes of the chords. -/
theorem fbSlope_lip (p0 : 0 < h0) (p1 : 0 < h1) (e0 : |δ0' - δ0| ≤ η) (e1 : |δ1' - δ1| ≤ η) :
    |fbSlope h0 h1 δ0' δ1' - fbSlope h0 h1 δ0 δ1| ≤ 3 * η := by
  have hη : 0 ≤ η := (abs_nonneg _).trans e0
  -- a mean which is not zero is that of two slopes of one sign
  have key : ∀ {δ0 δ1 δ0' δ1' : ℝ}, 0 < δ0 * δ1 → |δ0' - δ0| ≤ η → |δ1' - δ1| ≤ η → |fbSlope h0 h1 δ0' δ1' - fbSlope h0 h1 δ0 δ1| ≤ 3 * η := by
    intro δ0 δ1 δ0' δ1' h e0 e1
    rcases mul_pos_iff.1 h with ⟨a, b⟩ | ⟨a, b⟩
    · exact fbSlope_lip_left p0 p1 a b e0 e1
    · have := fbSlope_lip_left (δ0 := -δ0) (δ1 := -δ1) (δ0' := -δ0') (δ1' := -δ1') (η := η) p0 p1 (by linarith) (by linarith)
        (by rw [← abs_neg, show -(-δ0' - -δ0) = δ0' - δ0 by ring]; exact e0) (by rw [← abs_neg, show -(-δ1' - -δ1) = δ1' - δ1 by ring]; exact e1)
      rw [fbSlope_neg, fbSlope_neg, ← abs_neg] at this
      rwa [show -(-fbSlope h0 h1 δ0' δ1' - -fbSlope h0 h1 δ0 δ1) = fbSlope h0 h1 δ0' δ1' - fbSlope h0 h1 δ0 δ1 by ring] at this
  by_cases h : 0 < δ0 * δ1
  · exact key h e0 e1
  · by_cases h' : 0 < δ0' * δ1'
    · rw [abs_sub_comm]
      exact key h' (by rw [abs_sub_comm]; exact e0) (by rw [abs_sub_comm]; exact e1)
    · have z : fbSlope h0 h1 δ0 δ1 = 0 := by unfold fbSlope; rw [if_neg h]
      have z' : fbSlope h0 h1 δ0' δ1' = 0 := by unfold fbSlope; rw [if_neg h']
      rw [z, z', sub_zero, abs_zero]
      linarith

/-- The slope at the ends, for a first chord that does not fall: limited between 0 and three times it. -/
theorem threePoint_clip (p0 : 0 < h0) (p1 : 0 < h1) (h : 0 ≤ δ0) :
    threePoint h0 h1 δ0 δ1 = max 0 (min (δ0 - h0 * ((δ1 - δ0) / (h0 + h1))) (3 * δ0)) := by
  unfold threePoint
  dsimp only
  set d := δ0 - h0 * ((δ1 - δ0) / (h0 + h1)) with hd
  have hθ : h0 * ((δ1 - δ0) / (h0 + h1)) = h0 / (h0 + h1) * (δ1 - δ0) := by ring
  have hθ0 : 0 ≤ h0 / (h0 + h1) := by positivity
  have hθ1 : h0 / (h0 + h1) ≤ 1 := by rw [div_le_one (by linarith)]; linarith
  rcases h.eq_or_lt with h | h
  · rw [← h, mul_zero, mul_zero, if_neg (lt_irrefl _), max_eq_left (min_le_right _ _)]
  · by_cases hp : 0 < d * δ0
    · have hdp : 0 < d := pos_of_mul_pos_left hp h.le
      rw [if_pos hp]
      split_ifs with hc
      · have : d ≤ 3 * δ0 := by
          rcases hc with hc | hc
          · have hδ1 : 0 < δ1 := pos_of_mul_pos_right hc h.le
            rw [hd, hθ]
            have := mul_le_mul_of_nonneg_right hθ1 h.le
            have := mul_nonneg hθ0 hδ1.le
            nlinarith
          · rwa [abs_of_pos hdp, abs_of_pos h] at hc
        rw [min_eq_left this, max_eq_right hdp.le]
      · have : 3 * δ0 ≤ d := by
          have := (not_or.1 hc).2
          rw [abs_of_pos hdp, abs_of_pos h] at this
          linarith
        rw [min_eq_right this, max_eq_right (by linarith)]
    · rw [if_neg hp]
      have : d ≤ 0 := by
        by_contra hc
        exact hp (mul_pos (not_le.1 hc) h)
      rw [max_eq_left ((min_le_left _ _).trans this)]

theorem threePoint_neg : threePoint h0 h1 (-δ0) (-δ1) = -threePoint h0 h1 δ0 δ1 := by
  have := threePoint_scale (h0 := h0) (h1 := h1) (δ0 := δ0) (δ1 := δ1) 1 (-1) one_pos
  simpa using this

theorem threePoint_lip_pos (p0 : 0 < h0) (p1 : 0 < h1) (h : 0 ≤ δ0) (e0 : |δ0' - δ0| ≤ η) (e1 : |δ1' - δ1| ≤ η) :
    |threePoint h0 h1 δ0' δ1' - threePoint h0 h1 δ0 δ1| ≤ 3 * η := by
  rcases le_total 0 δ0' with h' | h'
  · rw [threePoint_clip p0 p1 h, threePoint_clip p0 p1 h']
    have hθ0 : 0 ≤ h0 / (h0 + h1) := by positivity
    have hθ1 : h0 / (h0 + h1) ≤ 1 := by rw [div_le_one (by linarith)]; linarith
    have hη : 0 ≤ η := (abs_nonneg _).trans e0
    have hd : |(δ0' - h0 * ((δ1' - δ0') / (h0 + h1))) - (δ0 - h0 * ((δ1 - δ0) / (h0 + h1)))| ≤ 3 * η := by
      have : (δ0' - h0 * ((δ1' - δ0') / (h0 + h1))) - (δ0 - h0 * ((δ1 - δ0) / (h0 + h1))) =
          (δ0' - δ0) + h0 / (h0 + h1) * ((δ0' - δ0) - (δ1' - δ1)) := by ring
      rw [this]
      rw [abs_le] at e0 e1 ⊢
      have m1 := mul_le_mul_of_nonneg_left (by linarith [e0.2, e1.1] : (δ0' - δ0) - (δ1' - δ1) ≤ 2 * η) hθ0
      have m2 := mul_le_mul_of_nonneg_left (by linarith [e0.1, e1.2] : -(2 * η) ≤ (δ0' - δ0) - (δ1' - δ1)) hθ0
      have m3 := mul_le_mul_of_nonneg_right hθ1 (by linarith : 0 ≤ 2 * η)
      constructor <;> linarith [e0.1, e0.2]
    have hm : |3 * δ0' - 3 * δ0| ≤ 3 * η := by rw [← mul_sub, abs_mul, abs_of_pos (by norm_num : (0 : ℝ) < 3)]; linarith
    calc _ ≤ max |(0 : ℝ) - 0| |min (δ0' - h0 * ((δ1' - δ0') / (h0 + h1))) (3 * δ0') - min (δ0 - h0 * ((δ1 - δ0) / (h0 + h1))) (3 * δ0)| :=
          abs_max_sub_max_le_max _ _ _ _
      _ ≤ max |(0 : ℝ) - 0| (max _ _) := max_le_max_left _ (abs_min_sub_min_le_max _ _ _ _)
      _ ≤ 3 * η := max_le (by rw [sub_zero, abs_zero]; linarith) (max_le hd hm)
  · have a := (threePoint_ok (δ0 := δ0) (δ1 := δ1) p0 p1).1 h
    have b := (threePoint_ok (δ0 := δ0') (δ1 := δ1') p0 p1).2 h'
    rw [abs_le] at e0 ⊢
    constructor <;> linarith [e0.1, e0.2]

/-- The slope at the ends changes at most by three times the changes of the chords. -/
theorem threePoint_lip (p0 : 0 < h0) (p1 : 0 < h1) (e0 : |δ0' - δ0| ≤ η) (e1 : |δ1' - δ1| ≤ η) :
    |threePoint h0 h1 δ0' δ1' - threePoint h0 h1 δ0 δ1| ≤ 3 * η := by
  rcases le_total 0 δ0 with h | h
  · exact threePoint_lip_pos p0 p1 h e0 e1
  · have := threePoint_lip_pos (δ0 := -δ0) (δ1 := -δ1) (δ0' := -δ0') (δ1' := -δ1') (η := η) p0 p1 (by linarith)
      (by rw [← abs_neg, show -(-δ0' - -δ0) = δ0' - δ0 by ring]; exact e0) (by rw [← abs_neg, show -(-δ1' - -δ1) = δ1' - δ1 by ring]; exact e1)
    rw [threePoint_neg, threePoint_neg, ← abs_neg] at this
    rwa [show -(-threePoint h0 h1 δ0' δ1' - -threePoint h0 h1 δ0 δ1) = threePoint h0 h1 δ0' δ1' - threePoint h0 h1 δ0 δ1 by ring] at this

/-- The cubic between two sites in Hermite's form: weights of the values and of the slopes. -/
theorem hermV_basis {h d0 d1 y0 y1 u : ℝ} (hh : h ≠ 0) : hermV h ((y1 - y0) / h) d0 d1 y0 u =
    y0 + (y1 - y0) * ((u / h) ^ 2 * (3 - 2 * (u / h))) + h * (d0 * ((u / h) * (1 - u / h) ^ 2) - d1 * ((u / h) ^ 2 * (1 - u / h))) := by
  simp only [hermV, hermC, List.foldl]
  field_simp
  ring

theorem hermV_lip {h d0 d1 y0 y1 d0' d1' y0' y1' u δ D : ℝ} (hh : 0 < h) (hu : 0 ≤ u) (hu' : u ≤ h) (a0 : |y0' - y0| ≤ δ) (a1 : |y1' - y1| ≤ δ)
    (b0 : |d0' - d0| ≤ D) (b1 : |d1' - d1| ≤ D) :
    |hermV h ((y1' - y0') / h) d0' d1' y0' u - hermV h ((y1 - y0) / h) d0 d1 y0 u| ≤ δ + h * D / 4 := by
  rw [hermV_basis hh.ne', hermV_basis hh.ne']
  set w := u / h with hw
  have w0 : 0 ≤ w := div_nonneg hu hh.le
  have w1 : w ≤ 1 := (div_le_one hh).2 hu'
  have D0 : 0 ≤ D := (abs_nonneg _).trans b0
  have B0 : 0 ≤ w ^ 2 * (3 - 2 * w) := by have : 0 ≤ 3 - 2 * w := by linarith
                                          positivity
  have B1 : w ^ 2 * (3 - 2 * w) ≤ 1 := by nlinarith [mul_nonneg (sq_nonneg (1 - w)) (by linarith : 0 ≤ 1 + 2 * w)]
  have G0 : 0 ≤ w * (1 - w) ^ 2 := by positivity
  have G1 : 0 ≤ w ^ 2 * (1 - w) := mul_nonneg (sq_nonneg _) (by linarith)
  have G2 : w * (1 - w) ^ 2 + w ^ 2 * (1 - w) ≤ 1 / 4 := by nlinarith [sq_nonneg (w - 1 / 2)]
  set B := w ^ 2 * (3 - 2 * w)
  set g0 := w * (1 - w) ^ 2
  set g1 := w ^ 2 * (1 - w)
  have e : (y0' + (y1' - y0') * B + h * (d0' * g0 - d1' * g1)) - (y0 + (y1 - y0) * B + h * (d0 * g0 - d1 * g1)) =
      (1 - B) * (y0' - y0) + B * (y1' - y1) + h * (g0 * (d0' - d0) - g1 * (d1' - d1)) := by ring
  rw [e]
  rw [abs_le] at a0 a1 b0 b1
  have u1 := mul_le_mul_of_nonneg_left a0.2 (by linarith : 0 ≤ 1 - B)
  have l1 := mul_le_mul_of_nonneg_left a0.1 (by linarith : 0 ≤ 1 - B)
  have u2 := mul_le_mul_of_nonneg_left a1.2 B0
  have l2 := mul_le_mul_of_nonneg_left a1.1 B0
  have u3 := mul_le_mul_of_nonneg_left b0.2 G0
  have l3 := mul_le_mul_of_nonneg_left b0.1 G0
  have u4 := mul_le_mul_of_nonneg_left b1.2 G1
  have l4 := mul_le_mul_of_nonneg_left b1.1 G1
  have g := mul_le_mul_of_nonneg_right G2 D0
  have up := mul_le_mul_of_nonneg_left (by linarith : g0 * (d0' - d0) - g1 * (d1' - d1) ≤ D / 4) hh.le
  have lo := mul_le_mul_of_nonneg_left (by linarith : -(D / 4) ≤ g0 * (d0' - d0) - g1 * (d1' - d1)) hh.le
  rw [abs_le]
  constructor <;> linarith

end

variable {k K : ℕ} {a y y' : ℕ → ℝ}

/-- The slopes of PCHIP change at most by three times the changes of the chords. -/
theorem slopeSpec_lip (htwo : k + 2 ≤ K) (hinc : ∀ i, k ≤ i → i + 1 < K → 0 < a (i + 1) - a i) {η : ℝ} (hη : 0 ≤ η)
    (h : ∀ i, k ≤ i → i + 1 < K → |(y' (i + 1) - y' i) / (a (i + 1) - a i) - (y (i + 1) - y i) / (a (i + 1) - a i)| ≤ η) {j : ℕ} (h1 : k ≤ j) (h2 : j < K) :
    |slopeSpec a y' k K j - slopeSpec a y k K j| ≤ 3 * η := by
  unfold slopeSpec
  dsimp only
  split_ifs with c1 c2 c3
  · exact (h k le_rfl (by omega)).trans (by linarith)
  · exact threePoint_lip (hinc k le_rfl (by omega)) (hinc (k + 1) (by omega) (by omega)) (h k le_rfl (by omega)) (h (k + 1) (by omega) (by omega))
  · have e1 := h (K - 2) (by omega) (by omega)
    have e2 := h (K - 3) (by omega) (by omega)
    exact threePoint_lip (hinc (K - 2) (by omega) (by omega)) (hinc (K - 3) (by omega) (by omega)) e1 e2
  · have e1 := h (j - 1) (by omega) (by omega)
    exact fbSlope_lip (hinc (j - 1) (by omega) (by omega)) (hinc j h1 (by omega)) e1 (h j h1 (by omega))

/-- The public PCHIP function between two sites. -/
theorem pchip_at {X Y : Arr (Fl ℝ)} (C : Col X Y k K a y) {i : ℕ} (h1 : k ≤ i) (h2 : i + 1 < K) {x : ℝ} (hx : a i ≤ x) (hx' : x ≤ a (i + 1)) :
    interpAt .pchip (fin x) X Y = some (fin (hermV (a (i + 1) - a i) ((y (i + 1) - y i) / (a (i + 1) - a i))
      (slopeSpec (fun i => a (k + i)) (fun i => y (k + i)) 0 (K - k) (i - k)) (slopeSpec (fun i => a (k + i)) (fun i => y (k + i)) 0 (K - k) (i - k + 1)) (y i) (x - a i))) := by
  have B := C.block
  have hk := C.two
  obtain ⟨T, hT, hrow⟩ := B.pchip_spec
  have e := pchip_padding finite_not_nan nan_add_or C.padded C.none (fin x) 0
  show pchipInterp1 (fin x) X Y 0 = _
  rw [e, pchip_onthefly_eq_table (X := X.slice k K) (Y := Y.slice k K) ?_ ?_ rfl hT (fin x) 0]
  · have := (B.pchip_val hT hrow (i := i - k) (x := x) (Nat.zero_le _) (by omega)
      (by show a (k + (i - k)) ≤ x; rw [show k + (i - k) = i by omega]; exact hx)
      (by show x ≤ a (k + (i - k + 1)); rw [show k + (i - k + 1) = i + 1 by omega]; exact hx')).1
    rw [this]
    unfold chord
    dsimp only
    rw [show k + (i - k) = i by omega, show k + (i - k + 1) = i + 1 by omega]
  · intro a b
    cases a <;> cases b <;> first | rfl | (simp [add_comm])
  · refine ⟨?_, ?_, ?_⟩
    · intro i hi; rw [B.hX i (by omega) hi]; simp
    · intro i hi; rw [B.hY i (by omega) hi]; simp
    · intro i hi; rw [B.hX i (by omega) hi, B.hY i (by omega) hi]; simp

/-- **C164** PCHIP of data which differ by at most `δ` differs by at most `(1 + 3 H / (2 h)) δ`, where the spacings of the sites are from `h` to `H`. -/
theorem pchip_near {X Y X' Y' : Arr (Fl ℝ)} (C : Col X Y k K a y) (C' : Col X' Y' k K a y') {δ h H : ℝ} (hh : 0 < h)
    (hs : ∀ i, k ≤ i → i + 1 < K → h ≤ a (i + 1) - a i ∧ a (i + 1) - a i ≤ H) (hd : ∀ i, k ≤ i → i < K → |y' i - y i| ≤ δ)
    {x v v' : ℝ} (hx : a k ≤ x) (hx' : x ≤ a (K - 1)) (hv : interpAt .pchip (fin x) X Y = some (fin v)) (hv' : interpAt .pchip (fin x) X' Y' = some (fin v')) :
    |v' - v| ≤ (1 + 3 / 2 * (H / h)) * δ := by
  have BB : Block X Y k K a y := ⟨C.size.symm, C.vr.1, C.two, C.hX, C.hY, C.inc⟩
  have htwo := C.two
  obtain ⟨i, i1, i2, i3, i4⟩ := BB.locate hx hx'
  rw [pchip_at C i1 i2 i3 i4] at hv
  rw [pchip_at C' i1 i2 i3 i4] at hv'
  simp only [Option.some.injEq, Fl.fin.injEq] at hv hv'
  have δ0 : 0 ≤ δ := (abs_nonneg _).trans (hd k le_rfl (by omega))
  have chords : ∀ j, 0 ≤ j → j + 1 < K - k → |(y' (k + (j + 1)) - y' (k + j)) / (a (k + (j + 1)) - a (k + j)) - (y (k + (j + 1)) - y (k + j)) / (a (k + (j + 1)) - a (k + j))| ≤ 2 * δ / h := by
    intro j _ hj
    have g := hs (k + j) (by omega) (by omega)
    have q0 := abs_le.1 (hd (k + j) (by omega) (by omega))
    have q1 := abs_le.1 (hd (k + j + 1) (by omega) (by omega))
    have hp : 0 < a (k + j + 1) - a (k + j) := by linarith [g.1]
    rw [show k + (j + 1) = k + j + 1 by omega, ← sub_div, abs_div, abs_of_pos hp]
    refine div_le_div₀ (by linarith) ?_ hh g.1
    rw [abs_le]
    constructor <;> linarith [q0.1, q0.2, q1.1, q1.2]
  have inc : ∀ j, 0 ≤ j → j + 1 < K - k → 0 < a (k + (j + 1)) - a (k + j) := by
    intro j _ hj
    have := (hs (k + j) (by omega) (by omega)).1
    rw [show k + (j + 1) = k + j + 1 by omega]
    linarith
  have η0 : 0 ≤ 2 * δ / h := by positivity
  have s0 := slopeSpec_lip (k := 0) (K := K - k) (a := fun i => a (k + i)) (y := fun i => y (k + i)) (y' := fun i => y' (k + i)) (by omega) inc η0 chords
    (j := i - k) (by omega) (by omega)
  have s1 := slopeSpec_lip (k := 0) (K := K - k) (a := fun i => a (k + i)) (y := fun i => y (k + i)) (y' := fun i => y' (k + i)) (by omega) inc η0 chords
    (j := i - k + 1) (by omega) (by omega)
  have g := hs i i1 i2
  have := hermV_lip (u := x - a i) (by linarith [g.1] : 0 < a (i + 1) - a i) (by linarith) (by linarith) (hd i i1 (by omega)) (hd (i + 1) (by omega) i2) s0 s1
  rw [hv, hv'] at this
  refine this.trans ?_
  have hH : (a (i + 1) - a i) * (3 * (2 * δ / h)) ≤ H * (3 * (2 * δ / h)) := mul_le_mul_of_nonneg_right g.2 (by positivity)
  calc _ ≤ δ + H * (3 * (2 * δ / h)) / 4 := by linarith
    _ = _ := by ring

end Interp
