import Verif.Lemmas.FzeroRound
import Verif.Lemmas.Pchip
import Verif.Props.PchipSlopes

/-! # Error bounds for PCHIP in rounded arithmetic -/

set_option linter.unusedSectionVars false
set_option linter.unusedSimpArgs false

/-- `y` approximates `x` with an error of `k` units `B / 2^53`, and `x` is at most `c * B`. -/
def ErrB {α : Type*} [Field α] [LinearOrder α] (c k : ℕ) (B x y : α) : Prop :=
  |x| ≤ c * B ∧ |y - x| ≤ k * (B / 2 ^ 53)

namespace RelErr
variable {α : Type*} [Field α] [LinearOrder α] [IsStrictOrderedRing α] {k l : ℕ} {x y z w : α} {rnd : α → α}

theorem zero_eq (h : RelErr k 0 y) : y = 0 := by
  unfold RelErr at h
  simp at h
  exact h

theorem neg_lt (h : RelErr k x y) (hk : k ≤ 1000) (hx : x < 0) : y < 0 := by
  have := h.neg.pos hk (by linarith)
  linarith

theorem sign_iff (h : RelErr k x y) (hk : k ≤ 1000) : (0 < y ↔ 0 < x) ∧ (y < 0 ↔ x < 0) ∧ (y = 0 ↔ x = 0) := by
  rcases lt_trichotomy x 0 with hx | hx | hx
  · have := h.neg_lt hk hx
    refine ⟨⟨fun _ => ?_, fun _ => ?_⟩, ⟨fun _ => hx, fun _ => this⟩, ⟨fun _ => ?_, fun _ => ?_⟩⟩ <;> linarith
  · subst hx
    have := h.zero_eq
    subst this
    simp
  · have := h.pos hk hx
    refine ⟨⟨fun _ => hx, fun _ => this⟩, ⟨fun _ => ?_, fun _ => ?_⟩, ⟨fun _ => ?_, fun _ => ?_⟩⟩ <;> linarith

/-- Sum of two numbers of the same sign. -/
theorem add (h : RelErr k x y) (h' : RelErr l z w) (hkl : l ≤ k) (hs : |x + z| = |x| + |z|) :
    RelErr k (x + z) (y + w) := by
  have h'' := h'.weaken hkl
  unfold RelErr at *
  rw [hs, add_div, mul_add, show y + w - (x + z) = (y - x) + (w - z) by ring]
  exact (abs_add_le _ _).trans (add_le_add h h'')

theorem add_pos (h : RelErr k x y) (h' : RelErr l z w) (hkl : l ≤ k) (hx : 0 < x) (hz : 0 < z) :
    RelErr k (x + z) (y + w) := by
  apply h.add h' hkl
  rw [abs_of_pos hx, abs_of_pos hz, abs_of_pos (by linarith)]

theorem rlit (R : StdRound rnd) (q : α) : RelErr 2 q (rnd q) := (refl q).round R (by norm_num)

end RelErr

namespace ErrB
variable {α : Type*} [Field α] [LinearOrder α] [IsStrictOrderedRing α] {c c' k k' : ℕ} {B B' x y z w : α}
variable {rnd : α → α}

theorem weaken (h : ErrB c k B x y) (hB : 0 ≤ B) (hc : c ≤ c') (hk : k ≤ k') : ErrB c' k' B x y := by
  have h1 : (c : α) ≤ c' := by exact_mod_cast hc
  have h2 : (k : α) ≤ k' := by exact_mod_cast hk
  exact ⟨h.1.trans (mul_le_mul_of_nonneg_right h1 hB),
    h.2.trans (mul_le_mul_of_nonneg_right h2 (by positivity))⟩

theorem ofRel (h : RelErr k x y) (hx : |x| ≤ c * B) : ErrB c (k * c) B x y := by
  refine ⟨hx, h.trans ?_⟩
  push_cast
  rw [mul_assoc]
  apply mul_le_mul_of_nonneg_left _ (Nat.cast_nonneg _)
  rw [← mul_div_assoc]
  exact div_le_div_of_nonneg_right hx (by positivity)

theorem add (h : ErrB c k B x y) (h' : ErrB c' k' B z w) : ErrB (c + c') (k + k') B (x + z) (y + w) := by
  constructor
  · push_cast; rw [add_mul]
    exact (abs_add_le _ _).trans (add_le_add h.1 h'.1)
  · push_cast; rw [add_mul, show y + w - (x + z) = (y - x) + (w - z) by ring]
    exact (abs_add_le _ _).trans (add_le_add h.2 h'.2)

theorem neg (h : ErrB c k B x y) : ErrB c k B (-x) (-y) := by
  refine ⟨by rw [abs_neg]; exact h.1, ?_⟩
  rw [show -y - -x = -(y - x) by ring, abs_neg]; exact h.2

theorem sub (h : ErrB c k B x y) (h' : ErrB c' k' B z w) : ErrB (c + c') (k + k') B (x - z) (y - w) := by
  rw [sub_eq_add_neg, sub_eq_add_neg]; exact h.add h'.neg

theorem round (R : StdRound rnd) (h : ErrB c k B x y) (hB : 0 ≤ B) (hk : k ≤ 10000) :
    ErrB c (k + c + 1) B x (rnd y) := by
  refine ⟨h.1, ?_⟩
  have e := R.err y
  have e1 : |y| ≤ |x| + |y - x| := by
    have := abs_add_le x (y - x); rwa [show x + (y - x) = y by ring] at this
  have e2 : |rnd y - x| ≤ |rnd y - y| + |y - x| := by
    have := abs_add_le (rnd y - y) (y - x); rwa [show rnd y - y + (y - x) = rnd y - x by ring] at this
  have hk' : (k : α) ≤ 10000 := by exact_mod_cast hk
  have e3 : |y| / 2 ^ 53 ≤ (c * B + k * (B / 2 ^ 53)) / 2 ^ 53 := by
    gcongr
    linarith [h.1, h.2]
  have e4 : (k : α) * (B / 2 ^ 53) / 2 ^ 53 ≤ B / 2 ^ 53 := by
    apply div_le_div_of_nonneg_right _ (by positivity)
    have : (k : α) * (B / 2 ^ 53) ≤ 10000 * (B / 2 ^ 53) := mul_le_mul_of_nonneg_right hk' (by positivity)
    refine this.trans ?_
    norm_num
    linarith
  rw [add_div] at e3
  push_cast
  have h2 := h.2
  have : (k + c + 1 : α) * (B / 2 ^ 53) = k * (B / 2 ^ 53) + c * B / 2 ^ 53 + B / 2 ^ 53 := by ring
  rw [this]
  linarith

theorem mul (h : ErrB c k B x y) (h' : ErrB c' k' B' z w) (hB : 0 ≤ B) (hB' : 0 ≤ B') (hk : k ≤ 10000)
    (hk' : k' ≤ 10000) : ErrB (c * c') (c * k' + k * c' + 1) (B * B') (x * z) (y * w) := by
  have hkα : (k : α) ≤ 10000 := by exact_mod_cast hk
  have hkα' : (k' : α) ≤ 10000 := by exact_mod_cast hk'
  constructor
  · push_cast
    rw [abs_mul, mul_mul_mul_comm]
    exact mul_le_mul h.1 h'.1 (abs_nonneg _) ((abs_nonneg _).trans h.1)
  · have e : y * w - x * z = x * (w - z) + (y - x) * z + (y - x) * (w - z) := by ring
    have e1 : |y * w - x * z| ≤ |x| * |w - z| + |y - x| * |z| + |y - x| * |w - z| := by
      rw [e, ← abs_mul, ← abs_mul, ← abs_mul]
      exact (abs_add_le _ _).trans (add_le_add (abs_add_le _ _) (le_refl _))
    have m1 : |x| * |w - z| ≤ (c * B) * (k' * (B' / 2 ^ 53)) :=
      mul_le_mul h.1 h'.2 (abs_nonneg _) ((abs_nonneg _).trans h.1)
    have m2 : |y - x| * |z| ≤ (k * (B / 2 ^ 53)) * (c' * B') :=
      mul_le_mul h.2 h'.1 (abs_nonneg _) ((abs_nonneg _).trans h.2)
    have m3 : |y - x| * |w - z| ≤ (10000 * (B / 2 ^ 53)) * (10000 * (B' / 2 ^ 53)) := by
      have p1 : (k : α) * (B / 2 ^ 53) ≤ 10000 * (B / 2 ^ 53) := mul_le_mul_of_nonneg_right hkα (by positivity)
      have p2 : (k' : α) * (B' / 2 ^ 53) ≤ 10000 * (B' / 2 ^ 53) := mul_le_mul_of_nonneg_right hkα' (by positivity)
      exact mul_le_mul (h.2.trans p1) (h'.2.trans p2) (abs_nonneg _) (by positivity)
    have m4 : (10000 * (B / 2 ^ 53)) * (10000 * (B' / 2 ^ 53)) ≤ B * B' / 2 ^ 53 := by
      have : (10000 * (B / 2 ^ 53)) * (10000 * (B' / 2 ^ 53)) = (100000000 / 2 ^ 53) * (B * B' / 2 ^ 53) := by ring
      rw [this]
      have h0 : 0 ≤ B * B' / 2 ^ 53 := by positivity
      have : (100000000 / 2 ^ 53 : α) ≤ 1 := by norm_num
      calc _ ≤ 1 * (B * B' / 2 ^ 53) := mul_le_mul_of_nonneg_right this h0
        _ = _ := one_mul _
    push_cast
    have : (c * k' + k * c' + 1 : α) * (B * B' / 2 ^ 53)
        = (c * B) * (k' * (B' / 2 ^ 53)) + (k * (B / 2 ^ 53)) * (c' * B') + B * B' / 2 ^ 53 := by ring
    rw [this]
    linarith

theorem div {l : ℕ} (h : ErrB c k B x y) (hh : RelErr l z w) (hz : 0 < z) (hB : 0 ≤ B) (hk : k ≤ 10000)
    (hl : l ≤ 900) : ErrB c (c * (l + 1) + k + 1) (B / z) (x / z) (y / w) := by
  have e : RelErr (0 + l + 1) (1 / z) (1 / w) := (RelErr.refl (1 : α)).div hh (by norm_num) (by omega) hz.ne'
  have e' : ErrB 1 ((0 + l + 1) * 1) (1 / z) (1 / z) (1 / w) := ofRel e (by rw [abs_of_pos (by positivity)]; simp)
  have := h.mul e' hB (by positivity) hk (by omega)
  rw [mul_one, mul_one_div, mul_one_div, mul_one_div] at this
  convert this using 1
  ring

end ErrB

namespace Interp
open FloatLike
variable {α : Type*} [Field α] [LinearOrder α] [IsStrictOrderedRing α]
variable {rnd : α → α}

theorem sdiv_fin_rnd (R : StdRound rnd) {x y : α} (h : y ≠ 0) :
    sdiv (Rfl.fin x : Rfl rnd) (Rfl.fin y) = some (Rfl.fin (rnd (x / y))) := by
  unfold sdiv
  simp [h, Rfl.fin_div, R.zero]

/-- `sign` in rounded arithmetic. -/
theorem sign_fin_rnd (R : StdRound rnd) (x : α) :
    sign (Rfl.fin x : Rfl rnd) = Rfl.fin (if 0 < x then rnd 1 else if x < 0 then - rnd 1 else 0) := by
  unfold sign
  simp only [Rfl.lit_eq, Rat.cast_zero, Rat.cast_one, Rat.cast_neg, R.zero, R.neg, Rfl.lt_fin, Rfl.feq_fin]
  rcases lt_trichotomy x 0 with h | h | h
  · simp [h, not_lt.mpr h.le]
  · simp [h]
  · simp [h]

theorem one_rnd (R : StdRound rnd) : 0 < rnd 1 := R.pos_iff.mpr one_pos

theorem feq_sign_rnd (R : StdRound rnd) (x y : α) : feq (sign (Rfl.fin x : Rfl rnd)) (sign (Rfl.fin y)) =
    decide ((0 < x ∧ 0 < y) ∨ (x < 0 ∧ y < 0) ∨ (x = 0 ∧ y = 0)) := by
  have h1 := one_rnd R
  rw [sign_fin_rnd R, sign_fin_rnd R, Rfl.feq_fin]
  congr 1
  have g1 : (- rnd 1 = rnd 1) ↔ False := ⟨fun h => by linarith, False.elim⟩
  have g2 : (rnd 1 = - rnd 1) ↔ False := ⟨fun h => by linarith, False.elim⟩
  have g3 : (0 = rnd 1) ↔ False := ⟨fun h => by linarith, False.elim⟩
  have tri : ∀ z : α, (0 < z ∧ ¬ z < 0 ∧ ¬ z = 0) ∨ (z < 0 ∧ ¬ 0 < z ∧ ¬ z = 0) ∨ (z = 0 ∧ ¬ 0 < z ∧ ¬ z < 0) := by
    intro z
    rcases lt_trichotomy z 0 with h | h | h
    · exact Or.inr (Or.inl ⟨h, not_lt.mpr h.le, h.ne⟩)
    · exact Or.inr (Or.inr ⟨h, by simp [h], by simp [h]⟩)
    · exact Or.inl ⟨h, not_lt.mpr h.le, h.ne'⟩
  rcases tri x with ⟨a, b, c⟩ | ⟨a, b, c⟩ | ⟨a, b, c⟩ <;> rcases tri y with ⟨a', b', c'⟩ | ⟨a', b', c'⟩ | ⟨a', b', c'⟩ <;>
    simp only [if_pos a, if_pos a', if_neg b, if_neg b', if_neg c, if_neg c', a, a', b, b', c, c', g1, g2, g3, h1.ne',
      neg_eq_zero, zero_eq_neg, true_and, and_true, and_false, false_and, or_false, false_or, and_self, lt_self_iff_false,
      if_false, if_true, or_true, true_or]

theorem sign_mul_rnd (R : StdRound rnd) (x y : α) :
    lt (lit 0 : Rfl rnd) (sign (Rfl.fin x) * sign (Rfl.fin y)) = decide (0 < x * y) := by
  have h1 := one_rnd R
  rw [sign_fin_rnd R, sign_fin_rnd R, Rfl.fin_mul, Rfl.lit_eq, Rfl.lt_fin, Rat.cast_zero, R.zero]
  congr 1
  rw [R.pos_iff]
  rcases lt_trichotomy x 0 with h | h | h <;> rcases lt_trichotomy y 0 with h' | h' | h' <;>
    simp [h, h', not_lt.mpr h.le, not_lt.mpr h'.le, mul_pos, mul_pos_of_neg_of_neg, mul_nonpos_iff, h.le, h'.le, h1, h1.le]

/-- Interior slope: relative error at most `35 * 2^-53`. -/
theorem midSlope_rnd (R : StdRound rnd) {h0 h1 δ0 δ1 h0' h1' δ0' δ1' : α} (p0 : 0 < h0) (p1 : 0 < h1)
    (e0 : RelErr 2 h0 h0') (e1 : RelErr 2 h1 h1') (f0 : RelErr 7 δ0 δ0') (f1 : RelErr 7 δ1 δ1') :
    ∃ d, midSlope (Rfl.fin h0' : Rfl rnd) (Rfl.fin h1') (Rfl.fin δ0') (Rfl.fin δ1') = some (Rfl.fin d) ∧
      RelErr 35 (fbSlope h0 h1 δ0 δ1) d := by
  obtain ⟨s0, s0', _⟩ := f0.sign_iff (by norm_num)
  obtain ⟨s1, s1', _⟩ := f1.sign_iff (by norm_num)
  have hiff : 0 < δ0' * δ1' ↔ 0 < δ0 * δ1 := by rw [mul_pos_iff, mul_pos_iff, s0, s1, s0', s1']
  unfold midSlope fbSlope
  rw [sign_mul_rnd R]
  by_cases c : 0 < δ0 * δ1
  · rw [decide_eq_true (hiff.mpr c), if_pos rfl, if_pos c]
    have n0 : δ0 ≠ 0 := by rintro rfl; simp at c
    have n1 : δ1 ≠ 0 := by rintro rfl; simp at c
    have n0' : δ0' ≠ 0 := by rintro rfl; simp at hiff; exact absurd c (not_lt.mpr hiff)
    have n1' : δ1' ≠ 0 := by rintro rfl; simp at hiff; exact absurd c (not_lt.mpr hiff)
    have two := RelErr.rlit R (2 : α)
    have w1 := (e0.weaken (by norm_num : 2 ≤ 7)).add_pos
      ((two.mul e1 (by norm_num) (by norm_num)).round R (by norm_num)) (by norm_num) p0 (by linarith)
    have w1 := w1.round R (by norm_num)
    have w2 := ((two.mul e0 (by norm_num) (by norm_num)).round R (by norm_num)).add_pos e1 (by norm_num) (by linarith) p1
    have w2 := w2.round R (by norm_num)
    have q1 := (w1.div f0 (by norm_num) (by norm_num) n0).round R (by norm_num)
    have q2 := (w2.div f1 (by norm_num) (by norm_num) n1).round R (by norm_num)
    have hw1 : 0 < h0 + 2 * h1 := by linarith
    have hw2 : 0 < 2 * h0 + h1 := by linarith
    have hs : |(h0 + 2 * h1) / δ0 + (2 * h0 + h1) / δ1| = |(h0 + 2 * h1) / δ0| + |(2 * h0 + h1) / δ1| ∧
        (h0 + 2 * h1) / δ0 + (2 * h0 + h1) / δ1 ≠ 0 := by
      rcases mul_pos_iff.mp c with ⟨c, c'⟩ | ⟨c, c'⟩
      · have a1 := div_pos hw1 c
        have a2 := div_pos hw2 c'
        rw [abs_of_pos a1, abs_of_pos a2, abs_of_pos (by linarith)]
        exact ⟨rfl, by linarith⟩
      · have a1 := div_neg_of_pos_of_neg hw1 c
        have a2 := div_neg_of_pos_of_neg hw2 c'
        rw [abs_of_neg a1, abs_of_neg a2, abs_of_neg (by linarith)]
        exact ⟨by ring, by linarith⟩
    have q := (q1.add q2 (by norm_num) hs.1).round R (by norm_num)
    have w := (w1.add_pos w2 (by norm_num) hw1 hw2).round R (by norm_num)
    have n2 := (q.sign_iff (by norm_num)).2.2.not.mpr hs.2
    have d := (w.div q (by norm_num) (by norm_num) hs.2).round R (by norm_num)
    rw [show 3 * (h0 + h1) = h0 + 2 * h1 + (2 * h0 + h1) by ring]
    refine ⟨_, ?_, d⟩
    simp only [Rfl.lit_eq, Rfl.fin_mul, Rfl.fin_add, Rat.cast_ofNat, sdiv_fin_rnd R n0', sdiv_fin_rnd R n1',
      Option.bind_eq_bind, Option.bind_some]
    exact sdiv_fin_rnd R n2
  · rw [decide_eq_false (fun h => c (hiff.mp h)), if_neg c, if_neg (by simp)]
    refine ⟨0, by simp [R.zero], by simp [RelErr]⟩

/-- The limiter applied to an end slope, in one formula. -/
def limiter (same : Prop) [Decidable same] (δ M q : α) : α :=
  if 0 < δ then (if same then max 0 q else min (max 0 q) M)
  else if δ < 0 then (if same then min 0 q else max (min 0 q) M) else 0

theorem limiter_lip {same : Prop} [Decidable same] {δ δ' M M' q q' b : α} (hp : 0 < δ' ↔ 0 < δ) (hn : δ' < 0 ↔ δ < 0)
    (hM : |M' - M| ≤ b) (hq : |q' - q| ≤ b) : |limiter same δ' M' q' - limiter same δ M q| ≤ b := by
  have hb : 0 ≤ b := (abs_nonneg _).trans hM
  have l1 : |max 0 q' - max 0 q| ≤ b := by
    refine (abs_max_sub_max_le_max 0 q' 0 q).trans ?_
    rw [sub_self, abs_zero]; exact max_le hb hq
  have l2 : |min 0 q' - min 0 q| ≤ b := by
    refine (abs_min_sub_min_le_max 0 q' 0 q).trans ?_
    rw [sub_self, abs_zero]; exact max_le hb hq
  unfold limiter
  simp only [hp, hn]
  split_ifs
  · exact l1
  · exact (abs_min_sub_min_le_max _ _ _ _).trans (max_le l1 hM)
  · exact l2
  · exact (abs_max_sub_max_le_max _ _ _ _).trans (max_le l2 hM)
  · rw [sub_self, abs_zero]; exact hb

/-- Two numbers have the same sign (both may be zero). -/
def SameSign (x y : α) : Prop := (0 < x ∧ 0 < y) ∨ (x < 0 ∧ y < 0) ∨ (x = 0 ∧ y = 0)

instance (x y : α) : Decidable (SameSign x y) := by unfold SameSign; infer_instance

theorem limiter_eq {same : Prop} [Decidable same] {δ M d : α} (hp : 0 < δ → 0 < M) (hn : δ < 0 → M < 0)
    (hz : δ = 0 → M = 0) :
    (if ¬ SameSign d δ then 0 else if ¬ same ∧ |M| < |d| then M else d) = limiter same δ M d := by
  unfold limiter SameSign
  rcases lt_trichotomy δ 0 with h | h | h
  · have hM := hn h
    rcases lt_or_ge d 0 with hd | hd
    · rw [if_neg (by simp [h, hd]), if_neg (not_lt.mpr h.le), if_pos h, abs_of_neg hM, abs_of_neg hd, min_eq_right hd.le]
      by_cases hs : same
      · simp [hs]
      · simp only [hs, not_false_eq_true, true_and, if_false]
        rcases lt_or_ge (-M) (-d) with hc | hc
        · rw [if_pos hc, max_eq_right (by linarith)]
        · rw [if_neg (not_lt.mpr hc), max_eq_left (by linarith)]
    · rw [if_pos (by simp [h.ne, not_lt.mpr hd, not_lt.mpr h.le]), if_neg (not_lt.mpr h.le), if_pos h, min_eq_left hd,
        max_eq_left hM.le]
      simp
  · have hM := hz h
    subst h hM
    simp only [lt_self_iff_false, and_false, false_or, if_false, and_true]
    by_cases hd : d = 0
    · simp [hd]
    · simp [hd]
  · have hM := hp h
    rcases lt_or_ge 0 d with hd | hd
    · rw [if_neg (by simp [h, hd]), if_pos h, abs_of_pos hM, abs_of_pos hd, max_eq_right hd.le]
      by_cases hs : same
      · simp [hs]
      · simp only [hs, not_false_eq_true, true_and, if_false]
        rcases lt_or_ge M d with hc | hc
        · rw [if_pos hc, min_eq_right hc.le]
        · rw [if_neg (not_lt.mpr hc), min_eq_left hc]
    · rw [if_pos (by simp [h.ne', not_lt.mpr hd, not_lt.mpr h.le]), if_pos h, max_eq_left hd, min_eq_left hM.le]
      simp

theorem threePoint_limiter {h0 h1 δ0 δ1 : α} (p0 : 0 < h0) (p1 : 0 < h1) :
    threePoint h0 h1 δ0 δ1
      = limiter (SameSign δ0 δ1) δ0 (3 * δ0) (((2 * h0 + h1) * δ0 - h0 * δ1) / (h0 + h1)) := by
  have hne : h0 + h1 ≠ 0 := by positivity
  have e := endSlope_val (δ0 := δ0) (δ1 := δ1) p0 p1
  unfold endSlope at e
  simp only [Fl.lit_eq, Fl.fin_mul, Fl.fin_add, Fl.fin_sub, sdiv_fin hne, Option.bind_eq_bind, Option.bind_some,
    feq_sign, Fl.abs_fin, Fl.lt_fin] at e
  push_cast at e
  rw [← limiter_eq (fun h => by linarith) (fun h => by linarith) (fun h => by rw [h, mul_zero])]
  set q := ((2 * h0 + h1) * δ0 - h0 * δ1) / (h0 + h1)
  have e' := Fl.fin.inj (Option.some.inj (e.symm.trans (b := _) (c := some (Fl.fin
    (if ¬ SameSign q δ0 then 0 else if ¬ SameSign δ0 δ1 ∧ |3 * δ0| < |q| then 3 * δ0 else q))) (by
      unfold SameSign
      simp only [Option.pure_def, Bool.not_eq_true', decide_eq_false_iff_not, Bool.and_eq_true, decide_eq_true_eq]
      split_ifs <;> rfl)))
  exact e'

theorem SlopeOK.abs_le {δ d : α} (h : SlopeOK δ d) : |d| ≤ 3 * |δ| := by
  rcases le_total 0 δ with c | c
  · obtain ⟨h1, h2⟩ := h.1 c
    rw [abs_of_nonneg c, abs_of_nonneg h1]; exact h2
  · obtain ⟨h1, h2⟩ := h.2 c
    rw [abs_of_nonpos c, abs_of_nonpos h2]; linarith

theorem threePoint_ok {h0 h1 δ0 δ1 : α} (p0 : 0 < h0) (p1 : 0 < h1) : SlopeOK δ0 (threePoint h0 h1 δ0 δ1) := by
  obtain ⟨d, h, h'⟩ := endSlope_ok (δ0 := δ0) (δ1 := δ1) p0 p1
  rw [endSlope_val p0 p1] at h
  rw [Fl.fin.inj (Option.some.inj h)]; exact h'

theorem fbSlope_ok {h0 h1 δ0 δ1 : α} (p0 : 0 < h0) (p1 : 0 < h1) :
    SlopeOK δ0 (fbSlope h0 h1 δ0 δ1) ∧ SlopeOK δ1 (fbSlope h0 h1 δ0 δ1) := by
  obtain ⟨d, h, h'⟩ := midSlope_ok (δ0 := δ0) (δ1 := δ1) p0 p1
  rw [midSlope_val p0 p1] at h
  rw [Fl.fin.inj (Option.some.inj h)]; exact h'

/-- End slope: error at most `107 * D * 2^-53`, `D` bounding the chord slopes. -/
theorem endSlope_rnd (R : StdRound rnd) {h0 h1 δ0 δ1 h0' h1' δ0' δ1' D : α} (p0 : 0 < h0) (p1 : 0 < h1)
    (e0 : RelErr 2 h0 h0') (e1 : RelErr 2 h1 h1') (f0 : RelErr 7 δ0 δ0') (f1 : RelErr 7 δ1 δ1')
    (hD0 : |δ0| ≤ D) (hD1 : |δ1| ≤ D) :
    ∃ d, endSlope (Rfl.fin h0' : Rfl rnd) (Rfl.fin h1') (Rfl.fin δ0') (Rfl.fin δ1') = some (Rfl.fin d) ∧
      ErrB 3 107 D (threePoint h0 h1 δ0 δ1) d := by
  have hD : 0 ≤ D := (abs_nonneg _).trans hD0
  obtain ⟨s0, s0', s0''⟩ := f0.sign_iff (by norm_num)
  obtain ⟨s1, s1', s1''⟩ := f1.sign_iff (by norm_num)
  have hss : SameSign δ0' δ1' ↔ SameSign δ0 δ1 := by unfold SameSign; rw [s0, s1, s0', s1', s0'', s1'']
  have hp : 0 < h0 + h1 := by linarith
  have two := RelErr.rlit R (2 : α)
  have three := RelErr.rlit R (3 : α)
  have w := (((two.mul e0 (by norm_num) (by norm_num)).round R (by norm_num)).add_pos e1 (by norm_num) (by linarith)
    p1).round R (by norm_num)
  have t1 := (w.mul f0 (by norm_num) (by norm_num)).round R (by norm_num)
  have t2 := (e0.mul f1 (by norm_num) (by norm_num)).round R (by norm_num)
  have hs := (e0.add_pos e1 (le_refl _) p0 p1).round R (by norm_num)
  have b1 : |(2 * h0 + h1) * δ0| ≤ (2 : ℕ) * ((h0 + h1) * D) := by
    rw [abs_mul, abs_of_pos (by linarith)]
    have : (2 * h0 + h1) * |δ0| ≤ (2 * (h0 + h1)) * D := mul_le_mul (by linarith) hD0 (abs_nonneg _) (by linarith)
    push_cast; linarith
  have b2 : |h0 * δ1| ≤ (1 : ℕ) * ((h0 + h1) * D) := by
    rw [abs_mul, abs_of_pos p0]
    have : h0 * |δ1| ≤ (h0 + h1) * D := mul_le_mul (by linarith) hD1 (abs_nonneg _) (by linarith)
    push_cast; linarith
  have hB : 0 ≤ (h0 + h1) * D := mul_nonneg hp.le hD
  have u := ((ErrB.ofRel t1 b1).sub (ErrB.ofRel t2 b2)).round R hB (by norm_num)
  have q := (u.div hs hp hB (by norm_num) (by norm_num)).round R (by positivity) (by norm_num)
  rw [mul_div_cancel_left₀ _ hp.ne'] at q
  have hne : rnd (h0' + h1') ≠ 0 := (hs.pos (by norm_num) hp).ne'
  have m := (three.mul f0 (by norm_num) (by norm_num)).round R (by norm_num)
  have m' := ErrB.ofRel (c := 3) (B := D) m (by
    rw [abs_mul]; push_cast
    have : |(3 : α)| = 3 := by norm_num
    rw [this]; linarith)
  norm_num at q m'
  unfold endSlope
  simp only [Rfl.lit_eq, Rfl.fin_mul, Rfl.fin_add, Rfl.fin_sub, Rat.cast_ofNat, sdiv_fin_rnd R hne, Option.bind_eq_bind,
    Option.bind_some, feq_sign_rnd R, Rfl.abs_fin, Rfl.lt_fin, Rat.cast_zero, R.zero]
  generalize rnd (rnd (rnd (rnd (rnd (rnd 2 * h0') + h1') * δ0') - rnd (h0' * δ1')) / rnd (h0' + h1')) = Q at *
  generalize hM' : rnd (rnd 3 * δ0') = M' at *
  obtain ⟨g0, g0', g0''⟩ := m.sign_iff (by norm_num)
  refine ⟨limiter (SameSign δ0' δ1') δ0' M' Q, ?_, ?_, ?_⟩
  · rw [← limiter_eq]
    · unfold SameSign
      simp only [Option.pure_def, Bool.not_eq_true', decide_eq_false_iff_not, Bool.and_eq_true, decide_eq_true_eq]
      split_ifs <;> rfl
    · intro h; rw [s0] at h; rw [g0]; linarith
    · intro h; rw [s0'] at h; rw [g0']; linarith
    · intro h; rw [s0''] at h; rw [g0'', h, mul_zero]
  · have := (threePoint_ok (δ0 := δ0) (δ1 := δ1) p0 p1).abs_le
    push_cast; linarith
  · rw [threePoint_limiter p0 p1]
    have : limiter (SameSign δ0' δ1') δ0' M' Q = limiter (SameSign δ0 δ1) δ0' M' Q := by
      unfold limiter; simp only [hss]
    rw [this]
    apply limiter_lip s0 s0'
    · exact (m'.weaken hD (le_refl _) (by norm_num : _ ≤ 107)).2
    · exact (q.weaken hD (le_refl _) (by norm_num : _ ≤ 107)).2

theorem pval_cubic_rnd (R : StdRound rnd) (u c3 c2 c1 c0 : α) :
    pval (Rfl.fin u : Rfl rnd) [Rfl.fin c3, Rfl.fin c2, Rfl.fin c1, Rfl.fin c0] 0
      = Rfl.fin (rnd (rnd (rnd (rnd (rnd (rnd (rnd c3 * u) + c2) * u) + c1) * u) + c0)) := by
  simp [pval, R.zero]

/-- The Hermite coefficients and the value of the cubic. -/
theorem hermite_rnd (R : StdRound rnd) {h δ d0 d1 y h' δ' d0' d1' D : α} (p : 0 < h) (hD : 0 ≤ D)
    (eh : RelErr 2 h h') (eδ : ErrB 1 7 D δ δ') (e0 : ErrB 3 107 D d0 d0') (e1 : ErrB 3 107 D d1 d1') :
    ∃ c3 c2, hermite (Rfl.fin h' : Rfl rnd) (Rfl.fin δ') (Rfl.fin d0') (Rfl.fin d1') (Rfl.fin y)
        = some [Rfl.fin c3, Rfl.fin c2, Rfl.fin d0', Rfl.fin y] ∧
      ∀ u u', |u| ≤ h → RelErr 2 u u' →
        ∃ v, pval (Rfl.fin u' : Rfl rnd) [Rfl.fin c3, Rfl.fin c2, Rfl.fin d0', Rfl.fin y] 0 = Rfl.fin v ∧
          |v - hermV h δ d0 d1 y u| ≤ (1200 * (h * D) + |hermV h δ d0 d1 y u|) / 2 ^ 53 := by
  have hne : h' ≠ 0 := (eh.pos (by norm_num) p).ne'
  have hDh : 0 ≤ D / h := by positivity
  have hDhh : 0 ≤ D / h / h := by positivity
  have z1 := (((eδ.sub e0).round R hD (by norm_num)).div eh p hD (by norm_num) (by norm_num)).round R hDh (by norm_num)
  have z2 := (((e1.sub eδ).round R hD (by norm_num)).div eh p hD (by norm_num) (by norm_num)).round R hDh (by norm_num)
  have c3 := (((z2.sub z1).round R hDh (by norm_num)).div eh p hDh (by norm_num) (by norm_num)).round R hDhh (by norm_num)
  have two : ErrB 2 4 (1 : α) 2 (rnd 2) := ErrB.ofRel (RelErr.rlit R (2 : α)) (by norm_num)
  have t := (two.mul z1 zero_le_one hDh (by norm_num) (by norm_num)).round R (by positivity) (by norm_num)
  rw [one_mul] at t
  have c2 := (t.sub z2).round R hDh (by norm_num)
  norm_num at c3 c2
  unfold hermite
  simp only [Rfl.lit_eq, Rfl.fin_mul, Rfl.fin_sub, Rat.cast_ofNat, sdiv_fin_rnd R hne, Option.bind_eq_bind,
    Option.bind_some, Option.pure_def]
  refine ⟨_, _, rfl, ?_⟩
  intro u u' hu eu
  refine ⟨_, pval_cubic_rnd R _ _ _ _ _, ?_⟩
  generalize rnd (rnd (rnd (rnd (d1' - δ') / h') - rnd (rnd (δ' - d0') / h')) / h') = C3 at *
  generalize rnd (rnd (rnd 2 * rnd (rnd (δ' - d0') / h')) - rnd (rnd (d1' - δ') / h')) = C2 at *
  have eu' : ErrB 1 2 h u u' := ErrB.ofRel eu (by simpa using hu)
  have ehh : D / h / h * h = D / h := by field_simp
  have eh1 : D / h * h = D := by field_simp
  have v0 := c3.round R hDhh (by norm_num)
  have m0 := (v0.mul eu' hDhh p.le (by norm_num) (by norm_num)).round R (by positivity) (by norm_num)
  rw [ehh] at m0
  have v1 := (m0.add c2).round R hDh (by norm_num)
  have m1 := (v1.mul eu' hDh p.le (by norm_num) (by norm_num)).round R (by positivity) (by norm_num)
  rw [eh1] at m1
  have v2 := (m1.add e0).round R hD (by norm_num)
  have m2 := (v2.mul eu' hD p.le (by norm_num) (by norm_num)).round R (by positivity) (by norm_num)
  norm_num at m2
  have hV : hermV h δ d0 d1 y u = (((((d1 - δ) / h - (δ - d0) / h) / h) * u + (2 * ((δ - d0) / h) - (d1 - δ) / h)) * u + d0) * u + y := by
    simp [hermV, hermC]
  rw [hV]
  generalize (((((d1 - δ) / h - (δ - d0) / h) / h) * u + (2 * ((δ - d0) / h) - (d1 - δ) / h)) * u + d0) * u = Q at *
  generalize rnd (rnd (rnd (rnd (rnd (rnd C3 * u') + C2) * u') + d0') * u') = P at *
  have hB : 0 ≤ D * h := mul_nonneg hD p.le
  have m3 := (m2.weaken hB (le_refl _) (by norm_num : _ ≤ 1190)).2
  have e6 := R.err (P + y)
  have e7 : |P + y| ≤ |Q + y| + |P - Q| := by
    have := abs_add_le (Q + y) (P - Q)
    rwa [show Q + y + (P - Q) = P + y by ring] at this
  have e8 : |rnd (P + y) - (Q + y)| ≤ |rnd (P + y) - (P + y)| + |P - Q| := by
    have := abs_add_le (rnd (P + y) - (P + y)) (P - Q)
    rwa [show rnd (P + y) - (P + y) + (P - Q) = rnd (P + y) - (Q + y) by ring] at this
  rw [mul_comm h D]
  generalize |rnd (P + y) - (Q + y)| = z1 at *
  generalize |rnd (P + y) - (P + y)| = z2 at *
  generalize |P + y| = z3 at *
  generalize |Q + y| = z4 at *
  generalize |P - Q| = z5 at *
  generalize D * h = z6 at *
  norm_num at m3 e6 ⊢
  linarith

end Interp
