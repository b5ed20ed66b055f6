import Verif.Lemmas.Rounding

/-!
# The rounding used by the floating point theorems is rounding to nearest (C120)

A specification of rounding that does not mention exponents of the argument: the result is a floating point number, and no floating point number is closer.
-/

set_option linter.unusedSectionVars false

namespace Rounding53
variable {α : Type*} [Field α] [LinearOrder α] [IsStrictOrderedRing α] [FloorRing α]

/-- A number with at most 53 significant bits (any exponent). -/
def IsBin (y : α) : Prop := ∃ m e : ℤ, |m| ≤ 2 ^ 53 ∧ y = m * 2 ^ e

/-- A `binary64` number: at most 53 significant bits and a multiple of `2^-1074` (no bound above). -/
def IsB64 (y : ℚ) : Prop := ∃ m e : ℤ, |m| ≤ 2 ^ 53 ∧ -1074 ≤ e ∧ y = m * 2 ^ e

theorem rne_best (y : α) (k : ℤ) : |(rne y : α) - y| ≤ |(k : α) - y| := by
  have hb := rne_bounds y
  have he := rne_err y
  have h1 := Int.floor_le y
  have h2 := Int.lt_floor_add_one y
  by_cases hk : k = rne y
  · rw [hk]
  rcases lt_or_gt_of_ne hk with h | h
  · have : (k : α) ≤ rne y - 1 := by exact_mod_cast Int.le_sub_one_of_lt h
    rw [abs_le] at he
    have : |(k : α) - y| = y - k := by rw [abs_of_nonpos (by linarith)]; ring
    rw [this, abs_le]
    constructor <;> linarith
  · have : (rne y : α) + 1 ≤ k := by exact_mod_cast h
    rw [abs_le] at he
    have : |(k : α) - y| = k - y := abs_of_nonneg (by linarith)
    rw [this, abs_le]
    constructor <;> linarith

/-- Rounding to a multiple of a power of two is best among these multiples. -/
theorem rne_mul_best (x : α) (E k : ℤ) : |(rne (x / 2 ^ E) : α) * 2 ^ E - x| ≤ |(k : α) * 2 ^ E - x| := by
  have hu : (0 : α) < 2 ^ E := zpow_pos (by norm_num) _
  have h := rne_best (x / 2 ^ E) k
  have e : ∀ z : α, z * 2 ^ E - x = (z - x / 2 ^ E) * 2 ^ E := by
    intro z; field_simp
  rw [e, e, abs_mul, abs_mul]
  exact mul_le_mul_of_nonneg_right h (abs_nonneg _)

theorem grid (m : ℤ) {e E : ℤ} (h : E ≤ e) : ∃ k : ℤ, (m : α) * 2 ^ e = k * 2 ^ E := by
  refine ⟨m * 2 ^ (e - E).toNat, ?_⟩
  push_cast
  rw [mul_assoc, ← zpow_natCast, Int.toNat_of_nonneg (by omega), ← zpow_add₀ (by norm_num)]
  congr 2
  omega

/-- A number on a finer grid that still has 53 bits lies below the binade of `x`. -/
theorem best_of_finer {x : α} (hx : 0 < x) {m e : ℤ} (hm : |m| ≤ 2 ^ 53) (he : e < Int.log 2 x - 52) :
    |(rne (x / 2 ^ (Int.log 2 x - 52)) : α) * 2 ^ (Int.log 2 x - 52) - x| ≤ |(m : α) * 2 ^ e - x| := by
  have hl := Int.zpow_log_le_self (b := 2) (by norm_num) hx
  push_cast at hl
  have hmm : (m : α) ≤ 2 ^ 53 := by exact_mod_cast le_trans (le_abs_self m) hm
  have hpe : (0 : α) < 2 ^ e := zpow_pos (by norm_num) _
  have hy : (m : α) * 2 ^ e ≤ 2 ^ Int.log 2 x := by
    calc (m : α) * 2 ^ e ≤ 2 ^ 53 * 2 ^ e := mul_le_mul_of_nonneg_right hmm hpe.le
      _ = 2 ^ (53 + e) := by rw [zpow_add₀ (by norm_num)]; norm_cast
      _ ≤ 2 ^ Int.log 2 x := zpow_le_zpow_right₀ (by norm_num) (by omega)
  have h := rne_mul_best x (Int.log 2 x - 52) (2 ^ 52)
  have e2 : (((2 ^ 52 : ℤ)) : α) * 2 ^ (Int.log 2 x - 52) = 2 ^ Int.log 2 x := by
    push_cast
    rw [show (4503599627370496 : α) = 2 ^ (52 : ℤ) by norm_num, ← zpow_add₀ (by norm_num)]
    congr 1
    omega
  rw [e2] at h
  refine le_trans h ?_
  rw [abs_of_nonpos (by linarith), abs_of_nonpos (by linarith)]
  linarith

theorem rndPos_best {x y : α} (hx : 0 < x) (hy : IsBin y) : |rndPos x - x| ≤ |y - x| := by
  obtain ⟨m, e, hm, rfl⟩ := hy
  unfold rndPos ulpExp
  rcases lt_or_ge e (Int.log 2 x - 52) with h | h
  · exact best_of_finer hx hm h
  · obtain ⟨k, hk⟩ := grid (α := α) m h
    rw [hk]
    exact rne_mul_best x _ k

theorem rndPos64_best {x y : ℚ} (hx : 0 < x) (hy : IsB64 y) : |rndPos64 x - x| ≤ |y - x| := by
  obtain ⟨m, e, hm, h0, rfl⟩ := hy
  unfold rndPos64
  rcases lt_or_ge e (ulpExp64 x) with h | h
  · have : ulpExp64 x = Int.log 2 x - 52 := by unfold ulpExp64 at *; omega
    rw [this] at h ⊢
    exact best_of_finer hx hm h
  · obtain ⟨k, hk⟩ := grid (α := ℚ) m h
    rw [hk]
    exact rne_mul_best x _ k

theorem rne_scaled_le {x : α} (hx : 0 < x) {E : ℤ} (hE : Int.log 2 x - 52 ≤ E) : |rne (x / 2 ^ E)| ≤ 2 ^ 53 := by
  have hu : (0 : α) < 2 ^ E := zpow_pos (by norm_num) _
  have h0 : 0 ≤ rne (x / 2 ^ E) := by
    have := rne_mono (α := α) (y := ((0 : ℤ) : α)) (z := x / 2 ^ E) (by push_cast; positivity)
    rwa [rne_int] at this
  rw [abs_of_nonneg h0]
  have h1 : x / 2 ^ E ≤ (((2 ^ 53 : ℤ)) : α) := by
    rw [div_le_iff₀ hu]
    have := (Int.lt_zpow_succ_log_self (b := 2) (by norm_num) x).le
    push_cast at this ⊢
    refine le_trans this ?_
    rw [show (9007199254740992 : α) = 2 ^ (53 : ℤ) by norm_num, ← zpow_add₀ (by norm_num)]
    exact zpow_le_zpow_right₀ (by norm_num) (by omega)
  have := rne_mono h1
  rwa [rne_int] at this

theorem IsBin.neg {y : α} (h : IsBin y) : IsBin (-y) := by
  obtain ⟨m, e, hm, rfl⟩ := h
  exact ⟨-m, e, by rwa [abs_neg], by push_cast; ring⟩

theorem IsB64.neg {y : ℚ} (h : IsB64 y) : IsB64 (-y) := by
  obtain ⟨m, e, hm, h0, rfl⟩ := h
  exact ⟨-m, e, by rwa [abs_neg], h0, by push_cast; ring⟩

/-- **C120** The rounding of the floating point theorems returns a number of 53 bits, and no number of 53 bits is closer. -/
theorem rndNear_nearest (x : α) : IsBin (rndNear x) ∧ ∀ y, IsBin y → |rndNear x - x| ≤ |y - x| := by
  unfold rndNear
  split_ifs with h1 h2
  · exact ⟨⟨_, _, rne_scaled_le h1 le_rfl, rfl⟩, fun y hy => rndPos_best h1 hy⟩
  · have h3 : 0 < -x := by linarith
    refine ⟨IsBin.neg ⟨_, _, rne_scaled_le h3 le_rfl, rfl⟩, fun y hy => ?_⟩
    have := rndPos_best h3 hy.neg
    rw [← abs_neg, ← abs_neg (y - x)]
    convert this using 2 <;> ring
  · have : x = 0 := le_antisymm (not_lt.mp h1) (not_lt.mp h2)
    subst this
    exact ⟨⟨0, 0, by norm_num, by simp⟩, fun y _ => by simp⟩

/-- **C120** The rounding with underflow, used to show that `brent` can miss equal signs, returns a `binary64` number, and no `binary64` number is closer. -/
theorem rnd64_nearest (x : ℚ) : IsB64 (rnd64 x) ∧ ∀ y, IsB64 y → |rnd64 x - x| ≤ |y - x| := by
  unfold rnd64
  split_ifs with h1 h2
  · exact ⟨⟨_, _, rne_scaled_le h1 (le_max_left _ _), le_max_right _ _, rfl⟩, fun y hy => rndPos64_best h1 hy⟩
  · have h3 : 0 < -x := by linarith
    refine ⟨IsB64.neg ⟨_, _, rne_scaled_le h3 (le_max_left _ _), le_max_right _ _, rfl⟩, fun y hy => ?_⟩
    have := rndPos64_best h3 hy.neg
    rw [← abs_neg, ← abs_neg (y - x)]
    convert this using 2 <;> ring
  · have : x = 0 := le_antisymm (not_lt.mp h1) (not_lt.mp h2)
    subst this
    exact ⟨⟨0, 0, by norm_num, by norm_num, by simp⟩, fun y _ => by simp⟩

/-- `2^-1074` is a `binary64` number, kept by the rounding; half of it is not. -/
example : IsB64 (2 ^ (-1074 : ℤ)) ∧ rnd64 (2 ^ (-1074 : ℤ)) = 2 ^ (-1074 : ℤ) ∧ rnd64 (2 ^ (-1075 : ℤ)) = 0 :=
  ⟨⟨1, -1074, by norm_num, by norm_num, by norm_num⟩, by decide +kernel, by decide +kernel⟩

end Rounding53
