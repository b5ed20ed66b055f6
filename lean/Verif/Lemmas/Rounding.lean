import Verif.Model.Rounding
import Mathlib.Tactic.Positivity
import Mathlib.Tactic.FieldSimp

/-! # Facts about rounding -/

set_option linter.unusedSectionVars false

namespace Rounding53
section
variable {α : Type*} [Field α] [LinearOrder α] [IsStrictOrderedRing α] [FloorRing α]

theorem rne_bounds (y : α) : ⌊y⌋ ≤ rne y ∧ rne y ≤ ⌊y⌋ + 1 := by
  unfold rne
  split_ifs <;> omega

theorem rne_err (y : α) : |(rne y : α) - y| ≤ 1 / 2 := by
  have h0 := Int.floor_le y
  have h1 := Int.lt_floor_add_one y
  unfold rne
  split_ifs with a b c
  · rw [abs_le]; constructor <;> linarith
  · push_cast; rw [abs_le]; constructor <;> linarith
  · rw [abs_le]; constructor <;> linarith
  · push_cast; rw [abs_le]; constructor <;> linarith

theorem rne_mono {y z : α} (h : y ≤ z) : rne y ≤ rne z := by
  rcases lt_or_eq_of_le (Int.floor_le_floor h) with hf | hf
  · have := (rne_bounds y).2
    have := (rne_bounds z).1
    omega
  · unfold rne
    rw [hf]
    split_ifs <;> first | omega | (exfalso; linarith)

theorem rne_int (n : ℤ) : rne (n : α) = n := by
  unfold rne
  rw [Int.floor_intCast, sub_self, if_pos (by norm_num)]

/-- A positive number scaled by its unit in the last place has 53 bits before the point. -/
theorem scaled_bounds {x : α} (hx : 0 < x) :
    (2 : α) ^ 52 ≤ x / 2 ^ ulpExp x ∧ x / 2 ^ ulpExp x < 2 ^ 53 := by
  have h1 := Int.zpow_log_le_self (R := α) (b := 2) (by norm_num) hx
  have h2 := Int.lt_zpow_succ_log_self (R := α) (b := 2) (by norm_num) x
  push_cast at h1 h2
  have hp : (0 : α) < 2 ^ ulpExp x := zpow_pos (by norm_num) _
  rw [le_div_iff₀ hp, div_lt_iff₀ hp]
  unfold ulpExp
  constructor
  · calc (2 : α) ^ 52 * 2 ^ (Int.log 2 x - 52) = 2 ^ Int.log 2 x := by
          rw [← zpow_natCast, ← zpow_add₀ (by norm_num)]; congr 1; push_cast; ring
      _ ≤ x := h1
  · calc x < 2 ^ (Int.log 2 x + 1) := h2
      _ = (2 : α) ^ 53 * 2 ^ (Int.log 2 x - 52) := by
          rw [← zpow_natCast, ← zpow_add₀ (by norm_num)]; congr 1; push_cast; ring

theorem rne_scaled {x : α} (hx : 0 < x) :
    (2 : α) ^ 52 ≤ rne (x / 2 ^ ulpExp x) ∧ (rne (x / 2 ^ ulpExp x) : α) ≤ 2 ^ 53 := by
  obtain ⟨h1, h2⟩ := scaled_bounds hx
  constructor
  · have : rne (((2 ^ 52 : ℤ) : α)) ≤ rne (x / 2 ^ ulpExp x) := rne_mono (by push_cast; norm_num at h1 ⊢; exact h1)
    rw [rne_int] at this
    exact_mod_cast this
  · have : rne (x / 2 ^ ulpExp x) ≤ rne (((2 ^ 53 : ℤ) : α)) := rne_mono (by push_cast; norm_num at h2 ⊢; exact h2.le)
    rw [rne_int] at this
    exact_mod_cast this

theorem rndPos_pos {x : α} (hx : 0 < x) : 0 < rndPos x := by
  unfold rndPos
  have := (rne_scaled hx).1
  have h2 : (0 : α) < 2 ^ ulpExp x := zpow_pos (by norm_num) _
  have h3 : (0 : α) < 2 ^ 52 := by positivity
  exact mul_pos (by linarith) h2

theorem rndPos_err {x : α} (hx : 0 < x) : |rndPos x - x| ≤ x / 2 ^ 53 := by
  have hp : (0 : α) < 2 ^ ulpExp x := zpow_pos (by norm_num) _
  have h := rne_err (x / 2 ^ ulpExp x)
  have e : rndPos x - x = (rne (x / 2 ^ ulpExp x) - x / 2 ^ ulpExp x) * 2 ^ ulpExp x := by
    unfold rndPos
    field_simp
  rw [e, abs_mul, abs_of_pos hp]
  have h1 := (scaled_bounds hx).1
  rw [le_div_iff₀ hp] at h1
  have h2 := mul_le_mul_of_nonneg_right h hp.le
  have : (1 / 2 : α) * 2 ^ ulpExp x = 2 ^ 52 * 2 ^ ulpExp x / 2 ^ 53 := by ring
  rw [this] at h2
  refine h2.trans ?_
  exact div_le_div_of_nonneg_right h1 (by positivity)

theorem rndPos_mono {x y : α} (hx : 0 < x) (h : x ≤ y) : rndPos x ≤ rndPos y := by
  have hy : 0 < y := lt_of_lt_of_le hx h
  have hl : ulpExp x ≤ ulpExp y := by
    unfold ulpExp
    have := Int.log_mono_right (b := 2) hx h
    omega
  rcases lt_or_eq_of_le hl with hl | hl
  · have h1 := (rne_scaled hx).2
    have h2 := (rne_scaled hy).1
    have hp : (0 : α) < 2 ^ ulpExp x := zpow_pos (by norm_num) _
    have hq : (0 : α) < 2 ^ ulpExp y := zpow_pos (by norm_num) _
    unfold rndPos
    have e : (2 : α) ^ (ulpExp x + 1) ≤ 2 ^ ulpExp y := zpow_le_zpow_right₀ (by norm_num) (by omega)
    rw [zpow_add₀ (by norm_num)] at e
    calc (rne (x / 2 ^ ulpExp x) : α) * 2 ^ ulpExp x ≤ 2 ^ 53 * 2 ^ ulpExp x :=
          mul_le_mul_of_nonneg_right h1 hp.le
      _ = 2 ^ 52 * (2 ^ ulpExp x * 2 ^ (1 : ℤ)) := by norm_num; ring
      _ ≤ 2 ^ 52 * 2 ^ ulpExp y := mul_le_mul_of_nonneg_left e (by positivity)
      _ ≤ _ := mul_le_mul_of_nonneg_right h2 hq.le
  · unfold rndPos
    rw [hl]
    have hq : (0 : α) < 2 ^ ulpExp y := zpow_pos (by norm_num) _
    apply mul_le_mul_of_nonneg_right _ hq.le
    have : rne (x / 2 ^ ulpExp y) ≤ rne (y / 2 ^ ulpExp y) :=
      rne_mono (div_le_div_of_nonneg_right h hq.le)
    exact_mod_cast this

/-- IEEE rounding to nearest satisfies the assumed laws. -/
theorem rndNear_std : StdRound (rndNear (α := α)) where
  err x := by
    unfold rndNear
    rcases lt_trichotomy x 0 with h | h | h
    · rw [if_neg (by linarith), if_pos h, abs_of_neg h]
      have := rndPos_err (x := -x) (by linarith)
      rw [show -rndPos (-x) - x = -(rndPos (-x) - -x) by ring, abs_neg]
      exact this
    · subst h; simp
    · rw [if_pos h, abs_of_pos h]; exact rndPos_err h
  mono x y h := by
    unfold rndNear
    rcases lt_trichotomy x 0 with hx | hx | hx
    · rw [if_neg (by linarith), if_pos hx]
      have h1 := rndPos_pos (x := -x) (by linarith)
      rcases lt_trichotomy y 0 with hy | hy | hy
      · rw [if_neg (by linarith), if_pos hy]
        have := rndPos_mono (x := -y) (y := -x) (by linarith) (by linarith)
        linarith
      · subst hy; simp; exact h1.le
      · rw [if_pos hy]
        have := rndPos_pos hy
        linarith
    · subst hx
      rw [if_neg (by simp), if_neg (by simp)]
      rcases lt_or_eq_of_le h with hy | hy
      · rw [if_pos hy]; exact (rndPos_pos hy).le
      · rw [← hy]; simp
    · rw [if_pos hx, if_pos (by linarith)]; exact rndPos_mono hx h
  neg x := by
    unfold rndNear
    rcases lt_trichotomy x 0 with h | h | h
    · rw [if_pos (by linarith), if_neg (by linarith), if_pos h]; ring
    · subst h; simp
    · rw [if_neg (by linarith), if_pos (by linarith), if_pos h, neg_neg]

/-- What has been rounded does not change when rounded again. -/
theorem rndPos_idem {x : α} (hx : 0 < x) : rndPos (rndPos x) = rndPos x := by
  obtain ⟨h1, h2⟩ := rne_scaled hx
  set n := rne (x / 2 ^ ulpExp x) with hn
  set e := ulpExp x with he
  have hr : rndPos x = n * 2 ^ e := rfl
  have hp : (0 : α) < 2 ^ e := zpow_pos (by norm_num) _
  have h2' : n ≤ 2 ^ 53 := by exact_mod_cast h2
  have hpos : (0 : α) < n * 2 ^ e := by rw [← hr]; exact rndPos_pos hx
  rcases lt_or_eq_of_le h2' with h | h
  · have hlog : Int.log 2 ((n : α) * 2 ^ e) = e + 52 := by
      apply le_antisymm
      · have h3 : (n : α) * 2 ^ e < 2 ^ (e + 53) := by
          rw [zpow_add₀ (by norm_num), mul_comm]
          apply mul_lt_mul_of_pos_left _ hp
          have : (n : α) < ((2 ^ 53 : ℤ) : α) := by exact_mod_cast h
          norm_num at this ⊢
          exact this
        have := (Int.lt_zpow_iff_log_lt (R := α) (b := 2) (by norm_num) hpos (x := e + 53)).mp (by push_cast; exact h3)
        omega
      · have h3 : (2 : α) ^ (e + 52) ≤ n * 2 ^ e := by
          rw [zpow_add₀ (by norm_num), mul_comm]
          exact mul_le_mul_of_nonneg_right (by exact_mod_cast h1) hp.le
        exact (Int.zpow_le_iff_le_log (R := α) (b := 2) (by norm_num) hpos (x := e + 52)).mp (by push_cast; exact h3)
    have hu : ulpExp ((n : α) * 2 ^ e) = e := by unfold ulpExp; omega
    rw [hr]
    unfold rndPos
    rw [hu, mul_div_assoc, div_self hp.ne', mul_one, rne_int]
  · have hv : (n : α) * 2 ^ e = 2 ^ (e + 53) := by
      rw [h, zpow_add₀ (by norm_num), mul_comm]; norm_num
    have hu : ulpExp ((n : α) * 2 ^ e) = e + 1 := by
      unfold ulpExp
      rw [hv]
      have := Int.log_zpow (R := α) (b := 2) (by norm_num) (e + 53)
      push_cast at this
      rw [this]; ring
    rw [hr]
    unfold rndPos
    rw [hu]
    have : (n : α) * 2 ^ e / 2 ^ (e + 1) = ((2 ^ 52 : ℤ) : α) := by
      rw [hv, ← zpow_sub₀ (by norm_num), show e + 53 - (e + 1) = 52 by ring]; norm_num
    rw [this, rne_int, hv, zpow_add₀ (by norm_num), zpow_add₀ (by norm_num)]
    norm_num; ring

theorem rndNear_idem (x : α) : rndNear (rndNear x) = rndNear x := by
  rcases lt_trichotomy x 0 with h | h | h
  · have h1 := rndPos_pos (x := -x) (by linarith)
    have e : rndNear x = -rndPos (-x) := by unfold rndNear; rw [if_neg (by linarith), if_pos h]
    rw [e, rndNear_std.neg]
    unfold rndNear
    rw [if_pos h1, rndPos_idem (by linarith)]
  · subst h; simp [rndNear]
  · have e : rndNear x = rndPos x := by unfold rndNear; rw [if_pos h]
    rw [e]
    unfold rndNear
    rw [if_pos (rndPos_pos h), rndPos_idem h]

theorem ulpExp_two {x : α} (hx : 0 < x) : ulpExp (2 * x) = ulpExp x + 1 := by
  unfold ulpExp
  have : Int.log 2 (2 * x) = Int.log 2 x + 1 := by
    have h1 := Int.zpow_log_le_self (R := α) (b := 2) (by norm_num) hx
    have h2 := Int.lt_zpow_succ_log_self (R := α) (b := 2) (by norm_num) x
    push_cast at h1 h2
    apply le_antisymm
    · have := (Int.lt_zpow_iff_log_lt (R := α) (b := 2) (by norm_num) (r := 2 * x) (by linarith) (x := Int.log 2 x + 2)).mp (by
        push_cast
        rw [show Int.log 2 x + 2 = (Int.log 2 x + 1) + 1 by ring, zpow_add₀ (by norm_num), zpow_one]
        linarith)
      omega
    · exact (Int.zpow_le_iff_le_log (R := α) (b := 2) (by norm_num) (r := 2 * x) (by linarith) (x := Int.log 2 x + 1)).mp (by
        push_cast
        rw [zpow_add₀ (by norm_num), zpow_one]
        linarith)
  omega

theorem rndPos_two {x : α} (hx : 0 < x) : rndPos (2 * x) = 2 * rndPos x := by
  unfold rndPos
  rw [ulpExp_two hx, zpow_add₀ (by norm_num), zpow_one]
  have hp : (0 : α) < 2 ^ ulpExp x := zpow_pos (by norm_num) _
  rw [show 2 * x / (2 ^ ulpExp x * 2) = x / 2 ^ ulpExp x by field_simp]
  ring

/-- Rounding to nearest, ties to even, has the further laws. -/
theorem rndNear_bin : BinRound (rndNear (α := α)) where
  toStdRound := rndNear_std
  idem := rndNear_idem
  one := by
    unfold rndNear rndPos
    rw [if_pos one_pos]
    have hu : ulpExp (1 : α) = -52 := by
      unfold ulpExp
      rw [Int.log_one_right]; rfl
    rw [hu]
    have : (1 : α) / 2 ^ (-52 : ℤ) = ((2 ^ 52 : ℤ) : α) := by
      rw [zpow_neg, one_div, inv_inv]; norm_num
    rw [this, rne_int, zpow_neg]
    norm_num
  two x := by
    unfold rndNear
    rcases lt_trichotomy x 0 with h | h | h
    · rw [if_neg (by linarith), if_pos (by linarith), if_neg (by linarith), if_pos h,
        show -(2 * x) = 2 * -x by ring, rndPos_two (by linarith)]
      ring
    · subst h; simp
    · rw [if_pos (by linarith), if_pos h, rndPos_two h]

end

theorem rnd53_bin : BinRound rnd53 := rndNear_bin

/-- IEEE rounding to nearest of rationals satisfies the assumed laws. -/
theorem rnd53_std : StdRound rnd53 := rndNear_std

theorem rnd53_idem (x : ℚ) : rnd53 (rnd53 x) = rnd53 x := rndNear_idem x

end Rounding53

namespace StdRound
variable {α : Type*} [Field α] [LinearOrder α] [IsStrictOrderedRing α] {rnd : α → α}

theorem zero (R : StdRound rnd) : rnd 0 = 0 := by
  have := R.err 0
  simp at this
  exact this

theorem le_of_nonneg (R : StdRound rnd) {x : α} (h : 0 ≤ x) :
    x - x / 2 ^ 53 ≤ rnd x ∧ rnd x ≤ x + x / 2 ^ 53 := by
  have := R.err x
  rw [abs_of_nonneg h, abs_le] at this
  constructor <;> linarith [this.1, this.2]

theorem nonneg (R : StdRound rnd) {x : α} (h : 0 ≤ x) : 0 ≤ rnd x := by
  rw [← R.zero]; exact R.mono _ _ h

theorem nonpos (R : StdRound rnd) {x : α} (h : x ≤ 0) : rnd x ≤ 0 := by
  rw [← R.zero]; exact R.mono _ _ h

theorem pos_iff (R : StdRound rnd) {x : α} : 0 < rnd x ↔ 0 < x := by
  constructor
  · intro h
    by_contra h'
    exact absurd (R.nonpos (not_lt.mp h')) (not_le.mpr h)
  · intro h
    have := (R.le_of_nonneg h.le).1
    have h2 : x / 2 ^ 53 < x := div_lt_self h (by norm_num)
    linarith

theorem neg_iff (R : StdRound rnd) {x : α} : rnd x < 0 ↔ x < 0 := by
  have := R.pos_iff (x := -x)
  rw [R.neg] at this
  constructor
  · intro h; have := this.mp (by linarith); linarith
  · intro h; have := this.mpr (by linarith); linarith

theorem eq_zero_iff (R : StdRound rnd) {x : α} : rnd x = 0 ↔ x = 0 := by
  constructor
  · intro h
    rcases lt_trichotomy x 0 with h' | h' | h'
    · have := R.neg_iff.mpr h'; linarith
    · exact h'
    · have := R.pos_iff.mpr h'; linarith
  · rintro rfl; exact R.zero

theorem abs_eq (R : StdRound rnd) (x : α) : |rnd x| = rnd |x| := by
  rcases le_total 0 x with h | h
  · rw [abs_of_nonneg h, abs_of_nonneg (R.nonneg h)]
  · rw [abs_of_nonpos h, abs_of_nonpos (R.nonpos h), R.neg]

end StdRound

namespace BinRound
variable {α : Type*} [Field α] [LinearOrder α] [IsStrictOrderedRing α] {rnd : α → α}

theorem half (R : BinRound rnd) (x : α) : rnd (x / 2) = rnd x / 2 := by
  have := R.two (x / 2)
  rw [mul_div_cancel₀ x (two_ne_zero)] at this
  rw [this]; ring

theorem halfLit (R : BinRound rnd) : rnd (((1 / 2 : ℚ)) : α) = 1 / 2 := by
  have := R.half 1
  rw [R.one] at this
  push_cast
  exact this

/-- The mean of two numbers as the code computes it, `(x + y) * 0.5`. -/
theorem avg (R : BinRound rnd) (x y : α) : rnd (rnd (x + y) * rnd (((1 / 2 : ℚ)) : α)) = rnd (x + y) / 2 := by
  rw [R.halfLit, mul_one_div, R.half, R.idem]

/-- The computed mean lies between the two numbers. -/
theorem avg_mem (R : BinRound rnd) {x y l u : α} (hl : rnd l = l) (hu : rnd u = u) (h1 : l ≤ x) (h2 : l ≤ y) (h3 : x ≤ u) (h4 : y ≤ u) :
    l ≤ rnd (x + y) / 2 ∧ rnd (x + y) / 2 ≤ u := by
  have e1 := R.mono (2 * l) (x + y) (by linarith)
  have e2 := R.mono (x + y) (2 * u) (by linarith)
  rw [R.two, hl] at e1
  rw [R.two, hu] at e2
  constructor <;> linarith

end BinRound
