import Verif.Lemmas.Rounding
import Verif.Lemmas.FzeroBounds

/-! # `brent` and `guess_to_bounds` in rounded arithmetic -/

set_option linter.unusedSectionVars false

/-- `y` is `x` up to `k` rounding errors. -/
def RelErr {α : Type*} [Field α] [LinearOrder α] (k : ℕ) (x y : α) : Prop := |y - x| ≤ k * (|x| / 2 ^ 53)

namespace RelErr
variable {α : Type*} [Field α] [LinearOrder α] [IsStrictOrderedRing α] {rnd : α → α} {x y z w : α} {k l : ℕ}

theorem refl (x : α) : RelErr 0 x x := by simp [RelErr]

theorem weaken (h : RelErr k x y) (hkl : k ≤ l) : RelErr l x y := by
  unfold RelErr at *
  refine h.trans ?_
  have : (k : α) ≤ l := by exact_mod_cast hkl
  exact mul_le_mul_of_nonneg_right this (by positivity)

theorem abs_le' (h : RelErr k x y) : |y| ≤ |x| + k * (|x| / 2 ^ 53) := by
  have : |y| ≤ |x| + |y - x| := by
    have := abs_add_le x (y - x)
    rwa [add_sub_cancel] at this
  exact this.trans (by unfold RelErr at h; linarith)

theorem round (R : StdRound rnd) (h : RelErr k x y) (hk : k ≤ 1000) : RelErr (k + 2) x (rnd y) := by
  have h1 := R.err y
  have h2 := h.abs_le'
  have h3 : |rnd y - x| ≤ |rnd y - y| + |y - x| := by
    have := abs_add_le (rnd y - y) (y - x)
    rwa [sub_add_sub_cancel] at this
  unfold RelErr at *
  have hk' : (k : α) ≤ 1000 := by exact_mod_cast hk
  have h4 : (k : α) * (|x| / 2 ^ 53) ≤ 1000 * (|x| / 2 ^ 53) :=
    mul_le_mul_of_nonneg_right hk' (by positivity)
  have h5 : |y| / 2 ^ 53 ≤ 2 * (|x| / 2 ^ 53) := by
    rw [div_le_iff₀ (by positivity)]
    have : 2 * (|x| / 2 ^ 53) * 2 ^ 53 = 2 * |x| := by field_simp
    rw [this]
    have : 1000 * (|x| / 2 ^ 53) ≤ |x| := by
      rw [← mul_div_assoc, div_le_iff₀ (by positivity)]
      have := abs_nonneg x
      nlinarith
    linarith
  push_cast
  linarith

theorem mul (h : RelErr k x y) (h' : RelErr l z w) (hk : k ≤ 1000) (hl : l ≤ 1000) :
    RelErr (k + l + 1) (x * z) (y * w) := by
  have h1 := h'.abs_le'
  unfold RelErr at *
  have hk' : (k : α) ≤ 1000 := by exact_mod_cast hk
  have hl' : (l : α) ≤ 1000 := by exact_mod_cast hl
  have e : y * w - x * z = (y - x) * w + x * (w - z) := by ring
  have h3 : |y * w - x * z| ≤ |y - x| * |w| + |x| * |w - z| := by
    rw [e]
    refine (abs_add_le _ _).trans ?_
    rw [abs_mul, abs_mul]
  have hx := abs_nonneg x
  have hz := abs_nonneg z
  have hw := abs_nonneg w
  have h4 : |y - x| * |w| ≤ k * (|x| / 2 ^ 53) * (|z| + l * (|z| / 2 ^ 53)) :=
    mul_le_mul h h1 hw (by positivity)
  have h5 : |x| * |w - z| ≤ |x| * (l * (|z| / 2 ^ 53)) := mul_le_mul_of_nonneg_left h' hx
  rw [abs_mul]
  push_cast
  set v := |x| * |z| with hv
  have hv0 : 0 ≤ v := by positivity
  have e1 : (k : α) * (|x| / 2 ^ 53) * (|z| + l * (|z| / 2 ^ 53)) = k * (v / 2 ^ 53) + (k * l) * (v / 2 ^ 53 / 2 ^ 53) := by
    rw [hv]; ring
  have e2 : |x| * ((l : α) * (|z| / 2 ^ 53)) = l * (v / 2 ^ 53) := by rw [hv]; ring
  have h6 : ((k : α) * l) * (v / 2 ^ 53 / 2 ^ 53) ≤ v / 2 ^ 53 := by
    have hkl : (k : α) * l ≤ 1000 * 1000 := by
      have hk0 : (0 : α) ≤ k := Nat.cast_nonneg k
      have hl0 : (0 : α) ≤ l := Nat.cast_nonneg l
      nlinarith
    have h7 : ((k : α) * l) * (v / 2 ^ 53 / 2 ^ 53) ≤ (1000 * 1000) * (v / 2 ^ 53 / 2 ^ 53) :=
      mul_le_mul_of_nonneg_right hkl (by positivity)
    have h8 : (0 : α) ≤ v / 2 ^ 53 := by positivity
    have h9 : (1000 * 1000 : α) * (v / 2 ^ 53 / 2 ^ 53) ≤ v / 2 ^ 53 := by
      rw [← mul_div_assoc, div_le_iff₀ (by positivity)]
      nlinarith
    linarith
  rw [e1] at h4
  rw [e2] at h5
  have : ((k : α) + l + 1) * (v / 2 ^ 53) = k * (v / 2 ^ 53) + l * (v / 2 ^ 53) + v / 2 ^ 53 := by ring
  rw [this]
  linarith

theorem div (h : RelErr k x y) (h' : RelErr l z w) (hk : k ≤ 1000) (hl : l ≤ 1000) (hz : z ≠ 0) :
    RelErr (k + l + 1) (x / z) (y / w) := by
  unfold RelErr at *
  have hk' : (k : α) ≤ 1000 := by exact_mod_cast hk
  have hl' : (l : α) ≤ 1000 := by exact_mod_cast hl
  have hz0 : 0 < |z| := abs_pos.mpr hz
  have hl0 : (0 : α) ≤ l := Nat.cast_nonneg l
  have hk0 : (0 : α) ≤ k := Nat.cast_nonneg k
  have hw1 : |z| - l * (|z| / 2 ^ 53) ≤ |w| := by
    have h1 : |z| ≤ |w| + |w - z| := by
      have := abs_add_le w (-(w - z))
      rw [abs_neg] at this
      rwa [show w + -(w - z) = z by ring] at this
    linarith
  have h2 : (l : α) * (|z| / 2 ^ 53) ≤ 1000 * (|z| / 2 ^ 53) :=
    mul_le_mul_of_nonneg_right hl' (by positivity)
  have h3 : (1 - 1000 / 2 ^ 53) * |z| ≤ |w| := by
    have : (1 - 1000 / 2 ^ 53) * |z| = |z| - 1000 * (|z| / 2 ^ 53) := by ring
    linarith
  have hw0 : 0 < |w| := lt_of_lt_of_le (mul_pos (by norm_num) hz0) h3
  have hw : w ≠ 0 := abs_pos.mp hw0
  have e : y / w - x / z = ((y - x) * z - x * (w - z)) / (w * z) := by field_simp; ring
  rw [e, abs_div, abs_div, abs_mul w z, div_le_iff₀ (by positivity)]
  have h4 : |(y - x) * z - x * (w - z)| ≤ |y - x| * |z| + |x| * |w - z| := by
    have := abs_add_le ((y - x) * z) (-(x * (w - z)))
    rw [abs_neg, abs_mul, abs_mul, ← sub_eq_add_neg] at this
    exact this
  have hx := abs_nonneg x
  have h5 : |y - x| * |z| ≤ k * (|x| / 2 ^ 53) * |z| := mul_le_mul_of_nonneg_right h hz0.le
  have h6 : |x| * |w - z| ≤ |x| * (l * (|z| / 2 ^ 53)) := mul_le_mul_of_nonneg_left h' hx
  have e2 : ((k + l + 1 : ℕ) : α) * (|x| / |z| / 2 ^ 53) * (|w| * |z|) =
      (k + l + 1) * (|x| / 2 ^ 53) * |w| := by push_cast; field_simp
  rw [e2]
  set v := |x| / 2 ^ 53 with hv
  have hv0 : 0 ≤ v := by positivity
  have e3 : k * v * |z| + |x| * (l * (|z| / 2 ^ 53)) = (k + l) * v * |z| := by rw [hv]; ring
  have h7 : (k + l + 1 : α) * v * ((1 - 1000 / 2 ^ 53) * |z|) ≤ (k + l + 1) * v * |w| :=
    mul_le_mul_of_nonneg_left h3 (by positivity)
  have h8 : ((k : α) + l) * v * |z| ≤ (k + l + 1) * v * ((1 - 1000 / 2 ^ 53) * |z|) := by
    have hvz : 0 ≤ v * |z| := by positivity
    have e4 : (k + l + 1 : α) * v * ((1 - 1000 / 2 ^ 53) * |z|) - (k + l) * v * |z|
        = (1 - (k + l + 1) * (1000 / 2 ^ 53)) * (v * |z|) := by ring
    have : 0 ≤ (1 - (k + l + 1) * (1000 / 2 ^ 53) : α) := by norm_num; linarith
    have := mul_nonneg this hvz
    linarith
  linarith

theorem add_nonneg (h : RelErr k x y) (hx : 0 ≤ x) (hz : 0 ≤ z) : RelErr k (x + z) (y + z) := by
  unfold RelErr at *
  rw [abs_of_nonneg hx] at h
  rw [abs_of_nonneg (by linarith : 0 ≤ x + z), add_sub_add_right_eq_sub]
  refine h.trans (mul_le_mul_of_nonneg_left ?_ (Nat.cast_nonneg k))
  exact div_le_div_of_nonneg_right (by linarith) (by positivity)

theorem bounds (h : RelErr k x y) (hx : 0 ≤ x) : x - k * (x / 2 ^ 53) ≤ y ∧ y ≤ x + k * (x / 2 ^ 53) := by
  unfold RelErr at h
  rw [abs_of_nonneg hx, abs_le] at h
  constructor <;> linarith [h.1, h.2]

theorem neg (h : RelErr k x y) : RelErr k (-x) (-y) := by
  unfold RelErr at *
  rw [abs_neg, show -y - -x = -(y - x) by ring, abs_neg]; exact h

theorem pos (h : RelErr k x y) (hk : k ≤ 1000) (hx : 0 < x) : 0 < y := by
  have h1 := (h.bounds hx.le).1
  have hk' : (k : α) ≤ 1000 := by exact_mod_cast hk
  have h2 : (k : α) * (x / 2 ^ 53) ≤ 1000 * (x / 2 ^ 53) := mul_le_mul_of_nonneg_right hk' (by positivity)
  have h3 : 1000 * (x / 2 ^ 53) < x := by
    rw [← mul_div_assoc, div_lt_iff₀ (by positivity)]
    nlinarith
  linarith

/-- An approximated number has the sign of the number. -/
theorem pos_of_pos (h : RelErr k x y) (hk : k ≤ 1000) (hy : 0 < y) : 0 < x := by
  rcases lt_trichotomy x 0 with hx | hx | hx
  · have := h.neg.pos hk (by linarith)
    linarith
  · unfold RelErr at h
    rw [hx] at h
    simp at h
    linarith
  · exact hx

end RelErr

namespace Fzero
open FloatLike

variable {α : Type*} [Field α] [LinearOrder α] [IsStrictOrderedRing α] {rnd : α → α}

/-- A loop state all of whose entries are finite numbers. -/
abbrev rSt (rnd : α → α) (a b c d e fa fb fc : α) : BrentSt (Rfl rnd) :=
  ⟨Rfl.fin a, Rfl.fin b, Rfl.fin c, Rfl.fin d, Rfl.fin e, Rfl.fin fa, Rfl.fin fb, Rfl.fin fc⟩

/-- A candidate `d` produced by `brentChoose`. -/
def GoodDr (m d : α) : Prop :=
  (0 < m ∧ 0 ≤ d ∧ d ≤ 151 / 100 * m) ∨ (m < 0 ∧ d ≤ 0 ∧ 151 / 100 * m ≤ d)

theorem goodDr_self {m : α} (h : m ≠ 0) : GoodDr m m := by
  rcases lt_or_gt_of_ne h with h | h
  · right; exact ⟨h, h.le, by linarith⟩
  · left; exact ⟨h, h.le, by linarith⟩

theorem goodDr_interp (R : StdRound rnd) {tol m p q : α} (hp : 0 ≤ p)
    (h : rnd (rnd ((2 : ℚ) : α) * p) < rnd (rnd (rnd (rnd ((3 : ℚ) : α) * m) * q) - |rnd (tol * q)|))
    (hq : q ≠ 0) : GoodDr m (rnd (p / q)) := by
  have r2 : RelErr 2 ((2 : ℚ) : α) (rnd ((2 : ℚ) : α)) := (RelErr.refl _).round R (by norm_num)
  have r3 : RelErr 2 ((3 : ℚ) : α) (rnd ((3 : ℚ) : α)) := (RelErr.refl _).round R (by norm_num)
  have rL : RelErr 5 ((2 : ℚ) * p) (rnd (rnd ((2 : ℚ) : α) * p)) :=
    (r2.mul (RelErr.refl p) (by norm_num) (by norm_num)).round R (by norm_num)
  have rZ : RelErr 8 ((3 : ℚ) * m * q) (rnd (rnd (rnd ((3 : ℚ) : α) * m) * q)) :=
    (((r3.mul (RelErr.refl m) (by norm_num) (by norm_num)).round R (by norm_num)).mul (RelErr.refl q)
      (by norm_num) (by norm_num)).round R (by norm_num)
  push_cast at rL rZ h
  have hL := (rL.bounds (by positivity)).1
  set L := rnd (rnd 2 * p) with hLdef
  set Z := rnd (rnd (rnd 3 * m) * q) with hZdef
  have hL0 : 0 ≤ L := by
    have : (5 : ℕ) * (2 * p / 2 ^ 53) ≤ 2 * p := by
      push_cast
      rw [← mul_div_assoc, div_le_iff₀ (by positivity)]
      nlinarith
    linarith
  have hY : 0 < Z - |rnd (tol * q)| := R.pos_iff.mp (lt_of_le_of_lt hL0 h)
  have hY2 := (R.le_of_nonneg hY.le).2
  have habs := abs_nonneg (rnd (tol * q))
  have hZ : 0 < Z := by linarith
  have hmq : 0 < 3 * m * q := rZ.pos_of_pos (by norm_num) hZ
  have hZ2 := (rZ.bounds hmq.le).2
  have key : p ≤ 1501 / 1000 * (m * q) := by
    have e1 : Z - |rnd (tol * q)| + (Z - |rnd (tol * q)|) / 2 ^ 53 ≤ Z + Z / 2 ^ 53 := by
      have : (Z - |rnd (tol * q)|) / 2 ^ 53 ≤ Z / 2 ^ 53 :=
        div_le_div_of_nonneg_right (by linarith) (by positivity)
      linarith
    have e2 : 0 < m * q := by nlinarith
    set y := m * q with hy
    have e3 : 3 * m * q = 3 * y := by rw [hy]; ring
    rw [e3] at hZ2
    push_cast at hL hZ2
    norm_num at hL hZ2 e1 hY2
    linarith
  have rd : RelErr 2 (p / q) (rnd (p / q)) := (RelErr.refl _).round R (by norm_num)
  rcases lt_or_gt_of_ne hq with hq | hq
  · have hm : m < 0 := by
      by_contra hm
      have : m * q ≤ 0 := mul_nonpos_of_nonneg_of_nonpos (not_lt.mp hm) hq.le
      nlinarith
    have e1 : p / q ≤ 0 := div_nonpos_of_nonneg_of_nonpos hp hq.le
    have e2 : 1501 / 1000 * m ≤ p / q := by
      rw [le_div_iff_of_neg hq]; linarith
    right
    refine ⟨hm, R.nonpos e1, ?_⟩
    have := (rd.neg.bounds (by linarith)).2
    push_cast at this
    norm_num at this
    linarith
  · have hm : 0 < m := by
      by_contra hm
      have : m * q ≤ 0 := mul_nonpos_of_nonpos_of_nonneg (not_lt.mp hm) hq.le
      nlinarith
    have e1 : 0 ≤ p / q := div_nonneg hp hq.le
    have e2 : p / q ≤ 1501 / 1000 * m := by
      rw [div_le_iff₀ hq]; linarith
    left
    refine ⟨hm, R.nonneg e1, ?_⟩
    have := (rd.bounds e1).2
    push_cast at this
    norm_num at this
    linarith

theorem isZero_rfl (R : StdRound rnd) (x : α) : isZero (Rfl.fin x : Rfl rnd) = decide (x = 0) := by
  simp [isZero, R.zero]

/-- `brentChoose` on finite numbers never divides by zero and yields an acceptable candidate. -/
theorem brentChoose_rnd (R : StdRound rnd) {a b c d e fa fb fc tol m : α} (hm : m ≠ 0)
    (hfb : fb ≠ 0) (hfc : |fb| ≤ |fc|) :
    ∃ e' d' : α, brentChoose (rSt rnd a b c d e fa fb fc) (Rfl.fin tol) (Rfl.fin m) =
      some (Rfl.fin e', Rfl.fin d') ∧ GoodDr m d' := by
  have hfc0 : fc ≠ 0 := by
    intro h; rw [h, abs_zero] at hfc
    exact hfb (abs_nonpos_iff.mp hfc)
  unfold brentChoose rSt
  simp only [Rfl.abs_fin, Rfl.lt_fin, Rfl.le_fin, isZero_rfl R, Rfl.lit_eq]
  by_cases h1 : |e| < tol ∨ |fa| ≤ |fb|
  · refine ⟨m, m, ?_, goodDr_self hm⟩
    rw [if_pos]
    simpa using h1
  · rw [if_neg (by simpa using h1)]
    push Not at h1
    have hfa0 : fa ≠ 0 := by
      intro h; rw [h, abs_zero] at h1
      exact absurd h1.2 (not_lt.mpr (abs_nonneg fb))
    rw [if_neg (by simpa using hfa0)]
    have key : ∀ p q : α, ∃ e' d' : α,
        (match (some (Rfl.fin p, Rfl.fin q) : Option (Rfl rnd × Rfl rnd)) with
        | none => none
        | some (p, q) =>
          let q' := if FloatLike.lt (Rfl.fin (rnd ((0 : ℚ) : α))) p then -q else q
          let p' := if FloatLike.lt (Rfl.fin (rnd ((0 : ℚ) : α))) p then p else -p
          if FloatLike.lt (Rfl.fin (rnd ((2 : ℚ) : α)) * p')
              (Rfl.fin (rnd ((3 : ℚ) : α)) * Rfl.fin m * q' - FloatLike.abs (Rfl.fin tol * q'))
            && FloatLike.lt p' (FloatLike.abs (Rfl.fin (rnd ((1/2 : ℚ) : α)) * Rfl.fin e * q')) then
            if isZero q' then none else some ((Rfl.fin d : Rfl rnd), p' / q')
          else some ((Rfl.fin m : Rfl rnd), (Rfl.fin m : Rfl rnd))) = some (Rfl.fin e', Rfl.fin d') ∧ GoodDr m d' := by
      intro p q
      obtain ⟨p', q', hp', hq', hp0⟩ : ∃ p' q' : α,
          (if FloatLike.lt (Rfl.fin (rnd ((0 : ℚ) : α)) : Rfl rnd) (Rfl.fin p) then Rfl.fin p else -Rfl.fin p : Rfl rnd)
            = Rfl.fin p' ∧
          (if FloatLike.lt (Rfl.fin (rnd ((0 : ℚ) : α)) : Rfl rnd) (Rfl.fin p) then -Rfl.fin q else Rfl.fin q : Rfl rnd)
            = Rfl.fin q' ∧ 0 ≤ p' := by
        by_cases hp : 0 < p
        · exact ⟨p, -q, by simp [hp, R.zero], by simp [hp, R.zero], hp.le⟩
        · exact ⟨-p, q, by simp [hp, R.zero], by simp [hp, R.zero], by linarith [not_lt.mp hp]⟩
      simp only [hp', hq']
      simp only [Rfl.fin_mul, Rfl.abs_fin, Rfl.fin_sub, Rfl.lt_fin, isZero_rfl R]
      split_ifs with h2 h3
      · exfalso
        simp only [Bool.and_eq_true, decide_eq_true_eq] at h2 h3
        have h4 := h2.1
        rw [h3] at h4
        simp only [mul_zero, R.zero, abs_zero, sub_zero] at h4
        have := R.nonneg (mul_nonneg (R.nonneg (by norm_num : (0 : α) ≤ ((2 : ℚ) : α))) hp0)
        linarith
      · simp only [Bool.and_eq_true, decide_eq_true_eq] at h2 h3
        exact ⟨d, rnd (p' / q'), by rw [Rfl.fin_div _ _ h3], goodDr_interp R hp0 h2.1 h3⟩
      · exact ⟨m, m, rfl, goodDr_self hm⟩
    by_cases hac : a = c
    · simp only [Rfl.feq_fin, hac, decide_true, if_true, Rfl.fin_div _ _ hfa0, Rfl.fin_mul, Rfl.fin_sub]
      exact key _ _
    · have hdc : decide (a = c) = false := by simpa using hac
      have hdf : decide (fc = 0) = false := by simpa using hfc0
      simp only [Rfl.feq_fin, hdc, hdf, Bool.false_eq_true, if_false, Rfl.fin_div _ _ hfa0,
        Rfl.fin_div _ _ hfc0, Rfl.fin_mul, Rfl.fin_sub]
      exact key _ _

/-- The tolerance as computed. -/
def tolR (rnd : α → α) (t b : α) : α :=
  rnd (rnd (rnd (rnd ((2 : ℚ) : α) * rnd (eps64 : α)) * |b|) + t)

/-- Half the bracket as computed. -/
def midR (rnd : α → α) (b c : α) : α := rnd (rnd ((1/2 : ℚ) : α) * rnd (c - b))

theorem tolR_rel (R : StdRound rnd) {t b : α} (ht : 0 ≤ t) : RelErr 12 (tolAt t b) (tolR rnd t b) := by
  have r2 : RelErr 2 ((2 : ℚ) : α) (rnd ((2 : ℚ) : α)) := (RelErr.refl _).round R (by norm_num)
  have re : RelErr 2 (eps64 : α) (rnd (eps64 : α)) := (RelErr.refl _).round R (by norm_num)
  have h1 := (r2.mul re (by norm_num) (by norm_num)).round R (by norm_num)
  have h2 := (h1.mul (RelErr.refl |b|) (by norm_num) (by norm_num)).round R (by norm_num)
  have h3 := h2.add_nonneg (z := t) (mul_nonneg (mul_nonneg (by norm_num) eps64_nonneg) (abs_nonneg b)) ht
  have h4 := h3.round R (by norm_num)
  unfold tolAt tolR
  push_cast at *
  exact h4

theorem midR_rel (R : StdRound rnd) (b c : α) : RelErr 7 (1/2 * (c - b)) (midR rnd b c) := by
  have rh : RelErr 2 ((1/2 : ℚ) : α) (rnd ((1/2 : ℚ) : α)) := (RelErr.refl _).round R (by norm_num)
  have rc : RelErr 2 (c - b) (rnd (c - b)) := (RelErr.refl _).round R (by norm_num)
  have h := (rh.mul rc (by norm_num) (by norm_num)).round R (by norm_num)
  unfold midR
  push_cast at *
  exact h

theorem tolAt_eq (t b : α) : tolAt t b = 4 * (|b| / 2 ^ 53) + t := by
  unfold tolAt eps64; push_cast; ring

/-- Moving `b` by an acceptable amount: the new point lies strictly inside the bracket, at least `0.4 t` from
both ends. -/
theorem move_pos (R : StdRound rnd) {t b c dl m tol : α} (ht : 0 ≤ t)
    (hT : RelErr 12 (tolAt t b) tol) (hM : RelErr 7 (1/2 * (c - b)) m) (htm : tol < m)
    (h1 : tol ≤ dl) (h2 : dl ≤ 151/100 * m) :
    b + 2/5 * t ≤ rnd (b + dl) ∧ rnd (b + dl) + 2/5 * t ≤ c ∧ 0 < c - b := by
  have hb := abs_nonneg b
  have hT0 : 0 ≤ tolAt t b := by rw [tolAt_eq]; positivity
  have hTb := hT.bounds hT0
  rw [tolAt_eq] at hTb hT0
  push_cast at hTb
  set v := |b| / 2 ^ 53 with hv
  have hv0 : 0 ≤ v := by positivity
  have htol : 39/10 * v + 99/100 * t ≤ tol := by
    have := hTb.1
    norm_num at this
    linarith
  have hm0 : 0 < m := by linarith [mul_nonneg (by norm_num : (0:α) ≤ 39/10) hv0, mul_nonneg (by norm_num : (0:α) ≤ 99/100) ht]
  have hcb : 0 < 1/2 * (c - b) := hM.pos_of_pos (by norm_num) hm0
  have hMb := hM.bounds hcb.le
  push_cast at hMb
  have hm2 : 199/100 * m ≤ c - b := by
    have := hMb.2
    norm_num at this
    linarith
  have hdl : 0 ≤ dl := by linarith
  have he := R.err (b + dl)
  have he2 : |b + dl| / 2 ^ 53 ≤ v + dl / 2 ^ 53 := by
    rw [hv, ← add_div]
    apply div_le_div_of_nonneg_right _ (by positivity)
    have := abs_add_le b dl
    rwa [abs_of_nonneg hdl] at this
  have he3 := abs_le.mp (he.trans he2)
  obtain ⟨e1, e2⟩ := he3
  norm_num at e1 e2
  refine ⟨by linarith, by linarith, by linarith⟩

/-- The rounded displacement, in either direction. -/
theorem move_rnd (R : StdRound rnd) {t b c d' lo hi : α} (ht : 0 ≤ t)
    (hb : lo ≤ b ∧ b ≤ hi) (hc : lo ≤ c ∧ c ≤ hi)
    (hmt : tolR rnd t b < |midR rnd b c|) (hd : GoodDr (midR rnd b c) d') :
    ∃ b' : α, (if FloatLike.lt (Rfl.fin (tolR rnd t b) : Rfl rnd) (FloatLike.abs (Rfl.fin d')) then
          Rfl.fin b + Rfl.fin d'
        else if FloatLike.lt (FloatLike.lit 0 : Rfl rnd) (Rfl.fin (midR rnd b c)) then
          Rfl.fin b + Rfl.fin (tolR rnd t b) else Rfl.fin b - Rfl.fin (tolR rnd t b)) = (Rfl.fin b' : Rfl rnd) ∧
      lo ≤ b' ∧ b' ≤ hi ∧ |b - b'| ≤ |c - b| - 2/5 * t ∧ |c - b'| ≤ |c - b| - 2/5 * t := by
  set m := midR rnd b c with hm
  set tol := tolR rnd t b with htol
  have hT := tolR_rel (b := b) R ht
  have hM := midR_rel R b c
  have htol0 : 0 ≤ tol := by
    have hT0 : 0 ≤ tolAt t b := by rw [tolAt_eq]; have := abs_nonneg b; positivity
    rcases lt_or_eq_of_le hT0 with h | h
    · exact (hT.pos (by norm_num) h).le
    · unfold RelErr at hT; rw [← h] at hT; simp at hT; rw [← htol] at hT; rw [hT]
  rcases lt_trichotomy m 0 with hm0 | hm0 | hm0
  · -- downwards: mirror image
    rw [abs_of_neg hm0] at hmt
    obtain ⟨dl, hdl, h1, h2⟩ : ∃ dl, (if FloatLike.lt (Rfl.fin tol : Rfl rnd) (FloatLike.abs (Rfl.fin d')) then
          Rfl.fin b + Rfl.fin d'
        else if FloatLike.lt (FloatLike.lit 0 : Rfl rnd) (Rfl.fin m) then
          Rfl.fin b + Rfl.fin tol else Rfl.fin b - Rfl.fin tol) = (Rfl.fin (rnd (b - dl)) : Rfl rnd) ∧
        tol ≤ dl ∧ dl ≤ 151/100 * -m := by
      by_cases h1 : tol < |d'|
      · rcases hd with h | ⟨_, h3, h4⟩
        · exact absurd h.1 (by linarith [h.1])
        · rw [abs_of_nonpos h3] at h1
          refine ⟨-d', ?_, h1.le, by linarith⟩
          have : tol < |d'| := by rw [abs_of_nonpos h3]; exact h1
          simp [this]
      · refine ⟨tol, ?_, le_refl _, by linarith⟩
        simp [h1, R.zero, not_lt.mpr hm0.le]
    have hT' : RelErr 12 (tolAt t (-b)) tol := by
      have : tolAt t (-b) = tolAt t b := by unfold tolAt; rw [abs_neg]
      rw [this]; exact hT
    have hM' : RelErr 7 (1/2 * (-c - -b)) (-m) := by
      have := hM.neg
      rwa [show -(1/2 * (c - b)) = 1/2 * (-c - -b) by ring] at this
    obtain ⟨p1, p2, p3⟩ := move_pos R ht hT' hM' hmt h1 h2
    rw [show -b + dl = -(b - dl) by ring, R.neg] at p1 p2
    refine ⟨_, hdl, by linarith, by linarith [hb.2, mul_nonneg (by norm_num : (0:α) ≤ 2/5) ht], ?_, ?_⟩
    · rw [abs_of_nonneg (by linarith [mul_nonneg (by norm_num : (0:α) ≤ 2/5) ht]), abs_of_neg (by linarith)]
      linarith
    · rw [abs_of_nonpos (by linarith [mul_nonneg (by norm_num : (0:α) ≤ 2/5) ht]), abs_of_neg (by linarith)]
      linarith
  · rw [hm0, abs_zero] at hmt
    exact absurd hmt (not_lt.mpr htol0)
  · rw [abs_of_pos hm0] at hmt
    obtain ⟨dl, hdl, h1, h2⟩ : ∃ dl, (if FloatLike.lt (Rfl.fin tol : Rfl rnd) (FloatLike.abs (Rfl.fin d')) then
          Rfl.fin b + Rfl.fin d'
        else if FloatLike.lt (FloatLike.lit 0 : Rfl rnd) (Rfl.fin m) then
          Rfl.fin b + Rfl.fin tol else Rfl.fin b - Rfl.fin tol) = (Rfl.fin (rnd (b + dl)) : Rfl rnd) ∧
        tol ≤ dl ∧ dl ≤ 151/100 * m := by
      by_cases h1 : tol < |d'|
      · rcases hd with ⟨_, h3, h4⟩ | h
        · rw [abs_of_nonneg h3] at h1
          refine ⟨d', ?_, h1.le, h4⟩
          have : tol < |d'| := by rw [abs_of_nonneg h3]; exact h1
          simp [this]
        · exact absurd h.1 (by linarith [h.1])
      · refine ⟨tol, ?_, le_refl _, by linarith⟩
        simp [h1, R.zero, hm0]
    obtain ⟨p1, p2, p3⟩ := move_pos R ht hT hM hmt h1 h2
    refine ⟨_, hdl, by linarith [hb.1, mul_nonneg (by norm_num : (0:α) ≤ 2/5) ht],
      by linarith [hc.2, mul_nonneg (by norm_num : (0:α) ≤ 2/5) ht], ?_, ?_⟩
    · rw [abs_of_nonpos (by linarith [mul_nonneg (by norm_num : (0:α) ≤ 2/5) ht]), abs_of_pos (by linarith)]
      linarith
    · rw [abs_of_nonneg (by linarith [mul_nonneg (by norm_num : (0:α) ≤ 2/5) ht]), abs_of_pos (by linarith)]
      linarith

theorem brentMove_rnd (R : StdRound rnd) {f : Rfl rnd → Rfl rnd} {g : α → α} {lo hi t : α}
    (hf : ∀ x, lo ≤ x → x ≤ hi → f (Rfl.fin x) = Rfl.fin (g x)) (ht : 0 ≤ t)
    {a b c d e fa fb fc : α} (I : BInv g lo hi a b c fa fb fc) (hfb : fb ≠ 0) (hfc : |fb| ≤ |fc|)
    (hmt : tolR rnd t b < |midR rnd b c|) (e' d' : α) (hd : GoodDr (midR rnd b c) d') :
    ∃ a' b' c' d'' e'' fa' fb' fc',
      brentMove f (rSt rnd a b c d e fa fb fc) (Rfl.fin (tolR rnd t b)) (Rfl.fin (midR rnd b c)) (Rfl.fin e') (Rfl.fin d')
        = rSt rnd a' b' c' d'' e'' fa' fb' fc' ∧ BInv g lo hi a' b' c' fa' fb' fc' ∧
        |c' - b'| ≤ |c - b| - 2/5 * t := by
  obtain ⟨b', hb', r1, r2, r3, r4⟩ := move_rnd R ht I.hb I.hc hmt hd
  have hopp := strict_opp I.opp hfb hfc
  have hfn : f (Rfl.fin b') = Rfl.fin (g b') := hf _ r1 r2
  unfold brentMove rSt
  simp only
  rw [hb', hfn]
  simp only [Rfl.lit_eq, Rfl.lt_fin, Rfl.le_fin, Rat.cast_zero, R.zero, Rfl.fin_sub]
  split_ifs with h
  · refine ⟨_, _, _, _, _, _, _, _, rfl, ⟨I.hb, ⟨r1, r2⟩, I.hb, I.hfb, rfl, I.hfb, ?_⟩, r3⟩
    simp only [Bool.or_eq_true, Bool.and_eq_true, decide_eq_true_eq] at h
    rcases mul_neg_cases hopp with ⟨hx, hy⟩ | ⟨hx, hy⟩
    · rcases h with h | h
      · exact absurd h.2 (not_lt.mpr hy.le)
      · exact mul_nonpos_of_nonpos_of_nonneg h.1 hx.le
    · rcases h with h | h
      · exact mul_nonpos_of_nonneg_of_nonpos h.1.le hx.le
      · exact absurd h.2 (not_le.mpr hy)
  · refine ⟨_, _, _, _, _, _, _, _, rfl, ⟨I.hb, ⟨r1, r2⟩, I.hc, I.hfb, rfl, I.hfc, ?_⟩, r4⟩
    simp only [Bool.or_eq_true, Bool.and_eq_true, decide_eq_true_eq, not_or, not_and, not_lt, not_le] at h
    by_cases hp : 0 < g b'
    · exact mul_nonpos_of_nonneg_of_nonpos hp.le (h.1 hp)
    · exact mul_nonpos_of_nonpos_of_nonneg (not_lt.mp hp) (h.2 (not_lt.mp hp)).le

theorem brentSwap_rnd {g : α → α} {lo hi : α} {a b c d e fa fb fc : α}
    (I : BInv g lo hi a b c fa fb fc) :
    ∃ a' b' c' fa' fb' fc', brentSwap (rSt rnd a b c d e fa fb fc) = rSt rnd a' b' c' d e fa' fb' fc' ∧
      BInv g lo hi a' b' c' fa' fb' fc' ∧ |fb'| ≤ |fc'| ∧ |c' - b'| = |c - b| := by
  unfold brentSwap rSt
  simp only [Rfl.abs_fin, Rfl.lt_fin]
  by_cases h : |fc| < |fb|
  · refine ⟨_, _, _, _, _, _, if_pos (by simpa using h), ⟨I.hb, I.hc, I.hb, I.hfb, I.hfc, I.hfb, by
      rw [mul_comm]; exact I.opp⟩, ?_, abs_sub_comm _ _⟩
    exact h.le
  · exact ⟨_, _, _, _, _, _, if_neg (by simpa using h), I, by simpa using h, rfl⟩

/-- What holds of the value returned in rounded arithmetic. -/
def PostR (g : α → α) (lo hi t r : α) : Prop :=
  lo ≤ r ∧ r ≤ hi ∧
    (g r = 0 ∨ ∃ c, lo ≤ c ∧ c ≤ hi ∧ |c - r| ≤ (2 + 1 / 2 ^ 46) * tolAt t r ∧ g r * g c < 0)

/-- One pass: either it stops with a good result or it continues with a shorter bracket. -/
theorem brentStep_rnd (R : StdRound rnd) {f : Rfl rnd → Rfl rnd} {g : α → α} {lo hi t : α}
    (hf : ∀ x, lo ≤ x → x ≤ hi → f (Rfl.fin x) = Rfl.fin (g x)) (ht : 0 ≤ t)
    {a b c d e fa fb fc : α} (I : BInv g lo hi a b c fa fb fc) :
    (∃ r, brentStep f (Rfl.fin t) (rSt rnd a b c d e fa fb fc) = .done (Rfl.fin r) ∧ PostR g lo hi t r) ∨
    (t < |c - b| ∧ ∃ a' b' c' d' e' fa' fb' fc',
      brentStep f (Rfl.fin t) (rSt rnd a b c d e fa fb fc) = .next (rSt rnd a' b' c' d' e' fa' fb' fc') ∧
      BInv g lo hi a' b' c' fa' fb' fc' ∧ |c' - b'| ≤ |c - b| - 2/5 * t) := by
  obtain ⟨a1, b1, c1, fa1, fb1, fc1, hs, I1, hle, hlen⟩ := brentSwap_rnd (rnd := rnd) (d := d) (e := e) I
  have htol : (FloatLike.lit 2 * FloatLike.lit eps64 * FloatLike.abs (Rfl.fin b1) + Rfl.fin t : Rfl rnd)
      = Rfl.fin (tolR rnd t b1) := by simp [tolR]
  have hm : (FloatLike.lit (1/2) * (Rfl.fin c1 - Rfl.fin b1) : Rfl rnd) = Rfl.fin (midR rnd b1 c1) := by
    simp [midR]
  have hT := tolR_rel (b := b1) R ht
  have hM := midR_rel R b1 c1
  have hT0 : 0 ≤ tolAt t b1 := by rw [tolAt_eq]; have := abs_nonneg b1; positivity
  unfold brentStep
  simp only [hs]
  simp only [rSt]
  rw [htol, hm]
  simp only [Rfl.abs_fin, Rfl.le_fin, Rfl.lit_eq, Rfl.feq_fin, Rat.cast_zero, R.zero]
  -- |m| and |c-b|/2 agree up to seven rounding errors
  have hMa : RelErr 7 (1/2 * |c1 - b1|) |midR rnd b1 c1| := by
    rcases le_total 0 (1/2 * (c1 - b1)) with h | h
    · have h' : 0 ≤ c1 - b1 := by linarith
      have : 0 ≤ midR rnd b1 c1 := by
        unfold midR
        exact R.nonneg (mul_nonneg (R.nonneg (by norm_num)) (R.nonneg h'))
      rw [abs_of_nonneg this, abs_of_nonneg h']; exact hM
    · have h' : c1 - b1 ≤ 0 := by linarith
      have : midR rnd b1 c1 ≤ 0 := by
        unfold midR
        exact R.nonpos (mul_nonpos_of_nonneg_of_nonpos (R.nonneg (by norm_num)) (R.nonpos h'))
      rw [abs_of_nonpos this, abs_of_nonpos h']
      have := hM.neg
      rwa [show -(1/2 * (c1 - b1)) = 1/2 * -(c1 - b1) by ring] at this
  have hMb := hMa.bounds (by have := abs_nonneg (c1 - b1); positivity)
  have hTb := hT.bounds hT0
  push_cast at hMb hTb
  norm_num at hMb hTb
  by_cases hstop : |midR rnd b1 c1| ≤ tolR rnd t b1 ∨ fb1 = 0
  · left
    refine ⟨b1, by rw [if_pos (by simpa using hstop)], I1.hb.1, I1.hb.2, ?_⟩
    by_cases h0 : fb1 = 0
    · left; rw [← I1.hfb]; exact h0
    · right
      refine ⟨c1, I1.hc.1, I1.hc.2, ?_, ?_⟩
      · rcases hstop with h | h
        · have h1 := hMb.1
          have h2 := hTb.2
          have h3 := abs_nonneg (c1 - b1)
          norm_num
          linarith
        · exact absurd h h0
      · rw [← I1.hfb, ← I1.hfc]; exact strict_opp I1.opp h0 hle
  · right
    rw [if_neg (by simpa using hstop)]
    push Not at hstop
    obtain ⟨h1, h2⟩ := hstop
    have ht0 : 0 ≤ tolR rnd t b1 := by
      have := hTb.1; linarith
    have hm0 : midR rnd b1 c1 ≠ 0 := by
      intro h; rw [h, abs_zero] at h1; linarith
    obtain ⟨e', d', hch, hd⟩ := brentChoose_rnd R (a := a1) (b := b1) (c := c1) (d := d) (e := e)
      (fa := fa1) (fb := fb1) (fc := fc1) (tol := tolR rnd t b1) hm0 h2 hle
    have hch' := hch
    unfold rSt at hch'
    rw [hch']
    obtain ⟨a', b', c', d'', e'', fa', fb', fc', h3, h4, h5⟩ :=
      brentMove_rnd R (d := d) (e := e) hf ht I1 h2 hle h1 e' d' hd
    refine ⟨?_, a', b', c', d'', e'', fa', fb', fc', ?_, h4, by rw [← hlen]; exact h5⟩
    · rw [← hlen]
      have h6 : t ≤ tolAt t b1 := tolAt_ge
      have h7 := abs_nonneg (c1 - b1)
      have := hMb.2
      have := hTb.1
      linarith
    · have h3' := h3
      unfold rSt at h3'
      simp only [h3']

/-- Total correctness of the loop. -/
theorem brentLoop_rnd (R : StdRound rnd) {f : Rfl rnd → Rfl rnd} {g : α → α} {lo hi t : α}
    (hf : ∀ x, lo ≤ x → x ≤ hi → f (Rfl.fin x) = Rfl.fin (g x)) (ht : 0 < t) (n : ℕ) :
    ∀ {a b c d e fa fb fc : α}, BInv g lo hi a b c fa fb fc → |c - b| ≤ n * (2/5 * t) →
      ∃ r, brentLoop f (Rfl.fin t) (n + 1) (rSt rnd a b c d e fa fb fc) = .ret (Rfl.fin r) ∧ PostR g lo hi t r := by
  induction n with
  | zero =>
    intro a b c d e fa fb fc I hl
    rcases brentStep_rnd R (d := d) (e := e) hf ht.le I with ⟨r, h1, h2⟩ | ⟨h1, _⟩
    · exact ⟨r, by simp [brentLoop, h1], h2⟩
    · exfalso; simp at hl; rw [hl] at h1; simp at h1; linarith
  | succ n ih =>
    intro a b c d e fa fb fc I hl
    rcases brentStep_rnd R (d := d) (e := e) hf ht.le I with ⟨r, h1, h2⟩ | ⟨_, a', b', c', d', e', fa', fb', fc', h1, h2, h3⟩
    · exact ⟨r, by simp [brentLoop, h1], h2⟩
    · obtain ⟨r, h4, h5⟩ := ih (d := d') (e := e') h2 (by push_cast at hl; linarith)
      refine ⟨r, ?_, h5⟩
      rw [brentLoop, h1]
      exact h4

/-- Partial correctness of the loop, for every amount of fuel and every `t ≥ 0`. -/
theorem brentLoop_rnd_partial (R : StdRound rnd) {f : Rfl rnd → Rfl rnd} {g : α → α} {lo hi t : α}
    (hf : ∀ x, lo ≤ x → x ≤ hi → f (Rfl.fin x) = Rfl.fin (g x)) (ht : 0 ≤ t) (n : ℕ) :
    ∀ {a b c d e fa fb fc : α}, BInv g lo hi a b c fa fb fc →
      brentLoop f (Rfl.fin t) n (rSt rnd a b c d e fa fb fc) = .outOfFuel ∨
      ∃ r, brentLoop f (Rfl.fin t) n (rSt rnd a b c d e fa fb fc) = .ret (Rfl.fin r) ∧ PostR g lo hi t r := by
  induction n with
  | zero => intro a b c d e fa fb fc _; left; rfl
  | succ n ih =>
    intro a b c d e fa fb fc I
    rcases brentStep_rnd R (d := d) (e := e) hf ht I with ⟨r, h1, h2⟩ | ⟨_, a', b', c', d', e', fa', fb', fc', h1, h2, h3⟩
    · right; exact ⟨r, by simp [brentLoop, h1], h2⟩
    · rw [brentLoop, h1]
      exact ih h2


/-- loop state with finite numbers -/
abbrev rgSt (rnd : α → α) (a b dm dp : α) (fp fq : Option Bool) : GtbSt (Rfl rnd) :=
  ⟨Rfl.fin a, Rfl.fin b, Rfl.fin dm, Rfl.fin dp, fp, fq⟩

structure GInvR (g : α → α) (x A B : α) (k : ℕ) (a b dm dp : α) (fp fq : Option Bool) : Prop where
  hAa : A ≤ a
  hax : a ≤ x
  hxb : x ≤ b
  hbB : b ≤ B
  hfp : a = A → fp = some (decide (0 < g a))
  hfq : (A < a ∨ b = B) → fq = some (decide (0 < g b))
  hka : a = A ∨ (RelErr (10 + 5 * k) ((x - A) / 50 * (growth : α) ^ k) dm ∧ k < 12)
  hkb : b = B ∨ (RelErr (10 + 5 * k) ((B - x) / 50 * (growth : α) ^ k) dp ∧ k < 12)

/-- State between the two halves of a pass. -/
structure GMidR (g : α → α) (x A B : α) (k : ℕ) (a b dm dp : α) (fp fq : Option Bool) : Prop where
  hAa : A ≤ a
  hax : a ≤ x
  hxb : x ≤ b
  hbB : b ≤ B
  hfp : fp = some (decide (0 < g a))
  hfq : (A < a ∨ b = B) → fq = some (decide (0 < g b))
  hka : a = A ∨ (RelErr (10 + 5 * (k + 1)) ((x - A) / 50 * (growth : α) ^ (k + 1)) dm ∧ k + 1 < 12)
  hkb : b = B ∨ (RelErr (10 + 5 * k) ((B - x) / 50 * (growth : α) ^ k) dp ∧ k < 12)

/-- What holds of a returned pair. -/
def GPostR (rnd : α → α) (g : α → α) (A B : α) (r : Rfl rnd × Rfl rnd) : Prop :=
  (r = (Rfl.qnan, Rfl.qnan) ∧ (0 < g A ↔ 0 < g B)) ∨
  ∃ a b, r = (Rfl.fin a, Rfl.fin b) ∧ A ≤ a ∧ a ≤ b ∧ b ≤ B ∧ ¬ (0 < g a ↔ 0 < g b)

theorem gtbTest_rnd {g : α → α} {a b dm dp : α} (k : GtbStep (Rfl rnd)) :
    gtbTest (rgSt rnd a b dm dp (some (decide (0 < g a))) (some (decide (0 < g b)))) k =
      if (0 < g a ↔ 0 < g b) then k else .ret (Rfl.fin a) (Rfl.fin b) := by
  by_cases h1 : 0 < g a <;> by_cases h2 : 0 < g b <;> simp [gtbTest, rgSt, h1, h2]

theorem expand_dist (R : StdRound rnd) {w dm : α} {k : ℕ} (hw : 0 ≤ w) (hk : k < 12)
    (h : RelErr (10 + 5 * k) (w / 50 * (growth : α) ^ k) dm) :
    RelErr (10 + 5 * (k + 1)) (w / 50 * (growth : α) ^ (k + 1)) (rnd (dm * rnd (growth : α))) ∧
      0 ≤ rnd (dm * rnd (growth : α)) ∧ (k + 1 = 12 → w ≤ rnd (dm * rnd (growth : α))) := by
  have rg : RelErr 2 (growth : α) (rnd (growth : α)) := (RelErr.refl _).round R (by norm_num)
  have h1 := ((h.mul rg (by omega) (by norm_num)).round R (by omega))
  have h2 : RelErr (10 + 5 * (k + 1)) (w / 50 * (growth : α) ^ (k + 1)) (rnd (dm * rnd (growth : α))) := by
    have e : w / 50 * (growth : α) ^ (k + 1) = w / 50 * (growth : α) ^ k * (growth : α) := by rw [pow_succ]; ring
    rw [e]
    exact h1.weaken (by omega)
  have hg := growth_nonneg (α := α)
  have hpos : 0 ≤ w / 50 * (growth : α) ^ (k + 1) := by positivity
  have hb := (h2.bounds hpos).1
  refine ⟨h2, ?_, fun h12 => ?_⟩
  · rcases lt_or_eq_of_le hpos with h | h
    · exact (h2.pos (by omega) h).le
    · unfold RelErr at h2
      rw [← h] at h2
      simp at h2
      rw [h2]
  · have hk11 : k = 11 := by omega
    subst hk11
    have h50 : (63 : α) ≤ (growth : α) ^ 12 := by
      have : (63 : ℚ) ≤ growth ^ 12 := by norm_num [growth]
      exact_mod_cast this
    have h3 : w / 50 * 63 ≤ w / 50 * (growth : α) ^ 12 :=
      mul_le_mul_of_nonneg_left h50 (by positivity)
    norm_num at hb h3
    linarith

theorem expand_left_rnd (R : StdRound rnd) {x A dm a' : α} {k : ℕ} (hAx : A ≤ x) (hx : rnd x = x) (hA : rnd A = A)
    (h : RelErr (10 + 5 * k) ((x - A) / 50 * (growth : α) ^ k) dm) (hk : k < 12)
    (ha' : a' = max (rnd (x - rnd (dm * rnd (growth : α)))) A) :
    A ≤ a' ∧ a' ≤ x ∧ (a' = A ∨ (RelErr (10 + 5 * (k + 1)) ((x - A) / 50 * (growth : α) ^ (k + 1))
      (rnd (dm * rnd (growth : α))) ∧ k + 1 < 12)) := by
  obtain ⟨h1, h2, h3⟩ := expand_dist R (by linarith) hk h
  subst ha'
  refine ⟨le_max_right _ _, max_le ?_ hAx, ?_⟩
  · conv_rhs => rw [← hx]
    exact R.mono _ _ (by linarith)
  · by_cases h12 : k + 1 < 12
    · exact Or.inr ⟨h1, h12⟩
    · left
      apply max_eq_right
      conv_rhs => rw [← hA]
      exact R.mono _ _ (by linarith [h3 (by omega)])

theorem expand_right_rnd (R : StdRound rnd) {x B dp b' : α} {k : ℕ} (hxB : x ≤ B) (hx : rnd x = x) (hB : rnd B = B)
    (h : RelErr (10 + 5 * k) ((B - x) / 50 * (growth : α) ^ k) dp) (hk : k < 12)
    (hb' : b' = min (rnd (x + rnd (dp * rnd (growth : α)))) B) :
    b' ≤ B ∧ x ≤ b' ∧ (b' = B ∨ (RelErr (10 + 5 * (k + 1)) ((B - x) / 50 * (growth : α) ^ (k + 1))
      (rnd (dp * rnd (growth : α))) ∧ k + 1 < 12)) := by
  obtain ⟨h1, h2, h3⟩ := expand_dist R (by linarith) hk h
  subst hb'
  refine ⟨min_le_right _ _, le_min ?_ hxB, ?_⟩
  · conv_lhs => rw [← hx]
    exact R.mono _ _ (by linarith)
  · by_cases h12 : k + 1 < 12
    · exact Or.inr ⟨h1, h12⟩
    · left
      apply min_eq_right
      conv_lhs => rw [← hB]
      exact R.mono _ _ (by linarith [h3 (by omega)])

theorem gtbLeft_rnd (R : StdRound rnd) {f : Rfl rnd → Rfl rnd} {g : α → α} {x A B : α} {k : ℕ} {a b dm dp : α} {fp fq : Option Bool}
    (hx : rnd x = x) (hA : rnd A = A) (hB : rnd B = B)
    (hf : ∀ y, A ≤ y → y ≤ B → f (Rfl.fin y) = Rfl.fin (g y))
    (I : GInvR g x A B k a b dm dp fp fq) :
    (∃ p q, gtbLeft f (Rfl.fin x) (Rfl.fin A) (Rfl.fin B) (rgSt rnd a b dm dp fp fq) = .ret p q ∧ GPostR rnd g A B (p, q)) ∨
    (¬ (a = A ∧ b = B) ∧ ∃ a' b' dm' dp' fp' fq',
      gtbLeft f (Rfl.fin x) (Rfl.fin A) (Rfl.fin B) (rgSt rnd a b dm dp fp fq) = .next (rgSt rnd a' b' dm' dp' fp' fq') ∧
      GMidR g x A B k a' b' dm' dp' fp' fq') := by
  have hAx : A ≤ x := le_trans I.hAa I.hax
  have hxB : x ≤ B := le_trans I.hxb I.hbB
  unfold gtbLeft
  simp only [Rfl.lt_fin, Rfl.feq_fin, Rfl.lit_eq, Rfl.fin_mul, Rfl.fin_sub, Rfl.fmax_fin]
  by_cases h : A < a
  · rw [if_pos (by simpa using h)]
    obtain ⟨hdm, hk⟩ : RelErr (10 + 5 * k) ((x - A) / 50 * (growth : α) ^ k) dm ∧ k < 12 := by
      rcases I.hka with h' | h'
      · exact absurd h' h.ne'
      · exact h'
    obtain ⟨e1, e2, e3⟩ := expand_left_rnd R hAx hx hA hdm hk rfl
    rw [hf _ e1 (le_trans e2 hxB)]
    have hq := I.hfq (Or.inl h)
    subst hq
    simp only [Rfl.lt_fin, Rat.cast_zero, R.zero]
    rw [gtbTest_rnd (g := g)]
    split_ifs with h2
    · right
      refine ⟨fun h' => h.ne' h'.1, _, _, _, _, _, _, rfl, ⟨e1, e2, I.hxb, I.hbB, rfl, fun _ => rfl, e3, I.hkb⟩⟩
    · left
      exact ⟨_, _, rfl, Or.inr ⟨_, _, rfl, e1, le_trans e2 I.hxb, I.hbB, h2⟩⟩
  · have ha : a = A := le_antisymm (not_lt.mp h) I.hAa
    rw [if_neg (by simpa using h)]
    by_cases hb : b = B
    · left
      simp only [show decide (b = B) = true from by simpa using hb, if_true]
      have hp := I.hfp ha
      have hq := I.hfq (Or.inr hb)
      subst hp hq ha hb
      rw [gtbTest_rnd (g := g)]
      split_ifs with h2
      · exact ⟨_, _, rfl, Or.inl ⟨rfl, h2⟩⟩
      · exact ⟨_, _, rfl, Or.inr ⟨_, _, rfl, le_refl _, le_trans I.hax I.hxb, le_refl _, h2⟩⟩
    · right
      simp only [show decide (b = B) = false from by simpa using hb, Bool.false_eq_true, if_false]
      refine ⟨fun h' => hb h'.2, _, _, _, _, _, _, rfl, ⟨I.hAa, I.hax, I.hxb, I.hbB, I.hfp ha, I.hfq, Or.inl ha, I.hkb⟩⟩

theorem gtbRight_rnd (R : StdRound rnd) {f : Rfl rnd → Rfl rnd} {g : α → α} {x A B : α} {k : ℕ} {a b dm dp : α} {fp fq : Option Bool}
    (hx : rnd x = x) (hA : rnd A = A) (hB : rnd B = B)
    (hf : ∀ y, A ≤ y → y ≤ B → f (Rfl.fin y) = Rfl.fin (g y))
    (I : GMidR g x A B k a b dm dp fp fq) :
    (∃ p q, gtbRight f (Rfl.fin x) (Rfl.fin A) (Rfl.fin B) (rgSt rnd a b dm dp fp fq) = .ret p q ∧ GPostR rnd g A B (p, q)) ∨
    (∃ a' b' dm' dp' fp' fq',
      gtbRight f (Rfl.fin x) (Rfl.fin A) (Rfl.fin B) (rgSt rnd a b dm dp fp fq) = .next (rgSt rnd a' b' dm' dp' fp' fq') ∧
      GInvR g x A B (k + 1) a' b' dm' dp' fp' fq') := by
  have hAx : A ≤ x := le_trans I.hAa I.hax
  have hxB : x ≤ B := le_trans I.hxb I.hbB
  have hp := I.hfp
  subst hp
  unfold gtbRight
  simp only [Rfl.lt_fin, Rfl.feq_fin, Rfl.lit_eq, Rfl.fin_mul, Rfl.fin_add, Rfl.fmin_fin]
  by_cases h : b < B
  · rw [if_pos (by simpa using h)]
    obtain ⟨hdp, hk⟩ : RelErr (10 + 5 * k) ((B - x) / 50 * (growth : α) ^ k) dp ∧ k < 12 := by
      rcases I.hkb with h' | h'
      · exact absurd h' h.ne
      · exact h'
    obtain ⟨e1, e2, e3⟩ := expand_right_rnd R hxB hx hB hdp hk rfl
    rw [hf _ (le_trans hAx e2) e1]
    simp only [Rfl.lt_fin, Rat.cast_zero, R.zero]
    rw [gtbTest_rnd (g := g)]
    split_ifs with h2
    · right
      refine ⟨_, _, _, _, _, _, rfl, ⟨I.hAa, I.hax, e2, e1, fun _ => rfl, fun _ => rfl, I.hka, e3⟩⟩
    · left
      exact ⟨_, _, rfl, Or.inr ⟨_, _, rfl, I.hAa, le_trans I.hax e2, e1, h2⟩⟩
  · have hb : b = B := le_antisymm I.hbB (not_lt.mp h)
    have hq := I.hfq (Or.inr hb)
    subst hq
    rw [if_neg (by simpa using h)]
    by_cases ha : a = A
    · left
      simp only [show decide (a = A) = true from by simpa using ha, if_true]
      subst ha hb
      rw [gtbTest_rnd (g := g)]
      split_ifs with h2
      · exact ⟨_, _, rfl, Or.inl ⟨rfl, h2⟩⟩
      · exact ⟨_, _, rfl, Or.inr ⟨_, _, rfl, le_refl _, le_trans I.hax I.hxb, le_refl _, h2⟩⟩
    · right
      simp only [show decide (a = A) = false from by simpa using ha, Bool.false_eq_true, if_false]
      exact ⟨_, _, _, _, _, _, rfl, ⟨I.hAa, I.hax, I.hxb, I.hbB, fun h => absurd h ha, fun _ => rfl, I.hka, Or.inl hb⟩⟩

theorem gtbLoop_rnd (R : StdRound rnd) {f : Rfl rnd → Rfl rnd} {g : α → α} {x A B : α}
    (hx : rnd x = x) (hA : rnd A = A) (hB : rnd B = B)
    (hf : ∀ y, A ≤ y → y ≤ B → f (Rfl.fin y) = Rfl.fin (g y)) (n : ℕ) :
    ∀ {k : ℕ} {a b dm dp : α} {fp fq : Option Bool}, 12 ≤ n + k → GInvR g x A B k a b dm dp fp fq →
      ∃ r, gtbLoop f (Rfl.fin x) (Rfl.fin A) (Rfl.fin B) (n + 1) (rgSt rnd a b dm dp fp fq) = .ret r ∧ GPostR rnd g A B r := by
  induction n with
  | zero =>
    intro k a b dm dp fp fq hk I
    have ha : a = A := by
      rcases I.hka with h | h
      · exact h
      · omega
    have hb : b = B := by
      rcases I.hkb with h | h
      · exact h
      · omega
    rcases gtbLeft_rnd R hx hA hB hf I with ⟨p, q, h1, h2⟩ | ⟨h, _⟩
    · exact ⟨(p, q), by simp only [gtbLoop, h1], h2⟩
    · exact absurd ⟨ha, hb⟩ h
  | succ n ih =>
    intro k a b dm dp fp fq hk I
    rcases gtbLeft_rnd R hx hA hB hf I with ⟨p, q, h1, h2⟩ | ⟨_, a', b', dm', dp', fp', fq', h1, I1⟩
    · exact ⟨(p, q), by rw [gtbLoop, h1], h2⟩
    · rcases gtbRight_rnd R hx hA hB hf I1 with ⟨p, q, h3, h4⟩ | ⟨a'', b'', dm'', dp'', fp'', fq'', h3, I2⟩
      · exact ⟨(p, q), by rw [gtbLoop, h1]; simp only [h3], h4⟩
      · obtain ⟨r, h5, h6⟩ := ih (by omega) I2
        refine ⟨r, ?_, h6⟩
        rw [gtbLoop, h1]
        simp only [h3]
        exact h5

theorem gtbInit_rnd (R : StdRound rnd) {f : Rfl rnd → Rfl rnd} {g : α → α} {x A B : α} (hAx : A ≤ x) (hxB : x ≤ B)
    (hx : rnd x = x) (hA : rnd A = A) (hB : rnd B = B)
    (hf : ∀ y, A ≤ y → y ≤ B → f (Rfl.fin y) = Rfl.fin (g y)) :
    ∃ a b dm dp fp fq, gtbInit f (Rfl.fin x) (Rfl.fin A) (Rfl.fin B) = rgSt rnd a b dm dp fp fq ∧
      GInvR g x A B 0 a b dm dp fp fq := by
  have h50 : rnd ((50 : ℚ) : α) ≠ 0 := fun h => by
    have := R.eq_zero_iff.mp h; norm_num at this
  have r50 : RelErr 2 (50 : α) (rnd ((50 : ℚ) : α)) := by
    have := (RelErr.refl ((50 : ℚ) : α)).round R (by norm_num)
    push_cast at this ⊢; exact this
  have step : ∀ w : α, RelErr (10 + 5 * 0) (w / 50 * (growth : α) ^ 0) (rnd (rnd w / rnd ((50 : ℚ) : α))) := by
    intro w
    have rw' : RelErr 2 w (rnd w) := (RelErr.refl _).round R (by norm_num)
    have := (rw'.div r50 (by norm_num) (by norm_num) (by norm_num)).round R (by norm_num)
    rw [pow_zero, mul_one]
    exact this.weaken (by norm_num)
  have hz : ∀ w : α, rnd (rnd w / rnd ((50 : ℚ) : α)) = 0 ↔ w = 0 := by
    intro w
    rw [R.eq_zero_iff, div_eq_zero_iff, R.eq_zero_iff]
    exact ⟨fun h => h.resolve_right h50, Or.inl⟩
  have e1 : ((Rfl.fin B - Rfl.fin x) / FloatLike.lit 50 : Rfl rnd) = Rfl.fin (rnd (rnd (B - x) / rnd ((50 : ℚ) : α))) := by
    simp only [Rfl.fin_sub, Rfl.lit_eq]; rw [Rfl.fin_div _ _ h50]
  have e2 : ((Rfl.fin x - Rfl.fin A) / FloatLike.lit 50 : Rfl rnd) = Rfl.fin (rnd (rnd (x - A) / rnd ((50 : ℚ) : α))) := by
    simp only [Rfl.fin_sub, Rfl.lit_eq]; rw [Rfl.fin_div _ _ h50]
  unfold gtbInit
  simp only [e1, e2]
  simp only [Rfl.feq_fin, Rfl.lit_eq, Rat.cast_zero, R.zero, Rfl.lt_fin]
  have hz1 : rnd (rnd (x - A) / rnd ((50 : ℚ) : α)) = 0 ↔ x = A := by
    rw [hz]; constructor <;> intro h <;> linarith
  have hz2 : rnd (rnd (B - x) / rnd ((50 : ℚ) : α)) = 0 ↔ x = B := by
    rw [hz]; constructor <;> intro h <;> linarith
  have ha : (if decide (rnd (rnd (x - A) / rnd ((50 : ℚ) : α)) = 0) = true then Rfl.fin A else Rfl.fin x : Rfl rnd) = Rfl.fin x := by
    split_ifs with h
    · rw [hz1.mp (by simpa using h)]
    · rfl
  have hb : (if decide (rnd (rnd (B - x) / rnd ((50 : ℚ) : α)) = 0) = true then Rfl.fin B else Rfl.fin x : Rfl rnd) = Rfl.fin x := by
    split_ifs with h
    · rw [hz2.mp (by simpa using h)]
    · rfl
  rw [ha, hb]
  simp only [Rfl.lt_fin, Rfl.feq_fin]
  rw [hf x hAx hxB]
  simp only [Rfl.lt_fin]
  have k0 : x = A ∨ (RelErr (10 + 5 * 0) ((x - A) / 50 * (growth : α) ^ 0) (rnd (rnd (x - A) / rnd ((50 : ℚ) : α))) ∧ 0 < 12) :=
    Or.inr ⟨step _, by norm_num⟩
  have k1 : x = B ∨ (RelErr (10 + 5 * 0) ((B - x) / 50 * (growth : α) ^ 0) (rnd (rnd (B - x) / rnd ((50 : ℚ) : α))) ∧ 0 < 12) :=
    Or.inr ⟨step _, by norm_num⟩
  by_cases h1 : A < x
  · rw [if_pos (by simpa using h1)]
    exact ⟨_, _, _, _, _, _, rfl, ⟨hAx, le_refl _, le_refl _, hxB, fun h => absurd h h1.ne', fun _ => rfl, k0, k1⟩⟩
  · rw [if_neg (by simpa using h1)]
    by_cases h2 : x = B
    · rw [if_pos (by simpa using h2)]
      exact ⟨_, _, _, _, _, _, rfl, ⟨hAx, le_refl _, le_refl _, hxB, fun _ => rfl, fun _ => rfl, k0, k1⟩⟩
    · rw [if_neg (by simpa using h2)]
      exact ⟨_, _, _, _, _, _, rfl, ⟨hAx, le_refl _, le_refl _, hxB, fun _ => rfl,
        fun h => h.elim (fun h => absurd h h1) (fun h => absurd h h2), k0, k1⟩⟩


end Fzero
