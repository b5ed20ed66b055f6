import Verif.Lemmas.Rounding
import Mathlib.Tactic.Linarith

/-! # Adding a floating point number four times -/

set_option linter.unusedSectionVars false

namespace Rounding53
variable {α : Type*} [Field α] [LinearOrder α] [IsStrictOrderedRing α] [FloorRing α]

theorem rndPos_of {x : α} {m : ℤ} (h1 : (2 : α) ^ (m + 52) ≤ x) (h2 : x < 2 ^ (m + 53)) : rndPos x = rne (x / 2 ^ m) * 2 ^ m := by
  have hx : 0 < x := lt_of_lt_of_le (zpow_pos (by norm_num) _) h1
  have hl : Int.log 2 x = m + 52 := by
    apply le_antisymm
    · have := (Int.lt_zpow_iff_log_lt (R := α) (b := 2) (by norm_num) hx (x := m + 53)).mp (by push_cast; exact h2)
      omega
    · exact (Int.zpow_le_iff_le_log (R := α) (b := 2) (by norm_num) hx (x := m + 52)).mp (by push_cast; exact h1)
  unfold rndPos ulpExp
  rw [hl, show m + 52 - 52 = m by ring]

/-- Integers of any size, in units of `2^e`. -/
theorem rndPos_int {X : ℤ} {e : ℤ} {j : ℕ} (h1 : 2 ^ (52 + j) ≤ X) (h2 : X < 2 ^ (53 + j)) :
    rndPos ((X : α) * 2 ^ e) = rne ((X : α) / 2 ^ j) * 2 ^ j * 2 ^ e := by
  have he : (0 : α) < 2 ^ e := zpow_pos (by norm_num) _
  have g1 : (2 : α) ^ (52 + j) ≤ X := by exact_mod_cast h1
  have g2 : (X : α) < 2 ^ (53 + j) := by exact_mod_cast h2
  have hj : (2 : α) ^ (e + (j : ℤ)) = 2 ^ j * 2 ^ e := by rw [zpow_add₀ (by norm_num), zpow_natCast, mul_comm]
  rw [rndPos_of (m := e + j), hj, mul_div_mul_right _ _ he.ne', mul_assoc]
  · rw [show e + (j : ℤ) + 52 = ((52 + j : ℕ) : ℤ) + e by push_cast; ring, zpow_add₀ (by norm_num), zpow_natCast]
    exact mul_le_mul_of_nonneg_right g1 he.le
  · rw [show e + (j : ℤ) + 53 = ((53 + j : ℕ) : ℤ) + e by push_cast; ring, zpow_add₀ (by norm_num), zpow_natCast]
    exact mul_lt_mul_of_pos_right g2 he

theorem rne_near {y : α} {n : ℤ} (h : |y - n| < 1 / 2) : rne y = n := by
  have h1 := rne_err y
  rw [abs_le] at h1
  rw [abs_lt] at h
  have a : ((rne y : ℤ) : α) < ((n + 1 : ℤ) : α) := by push_cast; linarith
  have b : ((n - 1 : ℤ) : α) < ((rne y : ℤ) : α) := by push_cast; linarith
  have a' : rne y < n + 1 := by exact_mod_cast a
  have b' : n - 1 < rne y := by exact_mod_cast b
  omega

theorem rne_tie {y : α} {n : ℤ} (hn : n % 2 = 0) (h : y = n + 1 / 2 ∨ y = n - 1 / 2) : rne y = n := by
  rcases h with h | h
  · have hf : ⌊y⌋ = n := by
      rw [Int.floor_eq_iff, h]
      constructor <;> linarith
    unfold rne
    rw [hf, h, if_neg (by linarith), if_neg (by linarith), if_pos hn]
  · have hf : ⌊y⌋ = n - 1 := by
      rw [Int.floor_eq_iff, h]
      push_cast
      constructor <;> linarith
    unfold rne
    rw [hf, h]
    push_cast
    rw [if_neg (by linarith), if_neg (by linarith), if_neg (by omega)]
    ring

/-- Adding `d` with `|d| ≤ 2` to four times an integer of 53 bits. -/
theorem rnd_four_int {X d : ℤ} (h1 : 2 ^ 52 ≤ X) (h2 : X < 2 ^ 53) (hd : |d| ≤ 2) (ht : |d| = 2 → X % 2 = 0) (hlo : X = 2 ^ 52 → 0 ≤ d) (e : ℤ) :
    rndPos (((4 * X + d : ℤ) : α) * 2 ^ e) = 4 * X * 2 ^ e := by
  rw [abs_le] at hd
  rw [rndPos_int (j := 2) (by norm_num; rcases eq_or_lt_of_le h1 with h | h <;> [have := hlo h.symm; skip] <;> omega) (by norm_num; omega)]
  have : rne ((((4 * X + d : ℤ)) : α) / 2 ^ 2) = X := by
    have ey : (((4 * X + d : ℤ)) : α) / 2 ^ 2 = X + (d : α) / 4 := by push_cast; field_simp; ring
    rw [ey]
    by_cases h : |d| = 2
    · refine rne_tie (ht h) ?_
      rcases (abs_eq (by norm_num)).1 h with rfl | rfl
      · left; norm_num
      · right; norm_num; ring
    · refine rne_near ?_
      rw [add_sub_cancel_left]
      have hd' : |d| ≤ 1 := by
        have : |d| ≤ 2 := abs_le.2 hd
        omega
      have : (|d| : α) ≤ 1 := by
        have : ((|d| : ℤ) : α) ≤ ((1 : ℤ) : α) := by exact_mod_cast hd'
        simpa using this
      rw [abs_div, abs_of_pos (by norm_num : (0 : α) < 4)]
      linarith
  rw [this]
  ring

/-- Four times the same floating point number adds up exactly: `((x + x) + x) + x = 4 x`. -/
theorem rnd_four {x : α} (hx : rndNear x = x) : rndNear (rndNear (2 * x + x) + x) = 4 * x := by
  have R : BinRound (rndNear (α := α)) := rndNear_bin
  have main : ∀ x : α, 0 < x → rndNear x = x → rndNear (rndNear (2 * x + x) + x) = 4 * x := by
    intro x h0 hx
    obtain ⟨b1, b2⟩ := scaled_bounds h0
    set e := ulpExp x with he
    have hp : (0 : α) < 2 ^ e := zpow_pos (by norm_num) _
    obtain ⟨X, hX⟩ : ∃ X : ℤ, x = X * 2 ^ e := by
      refine ⟨rne (x / 2 ^ e), ?_⟩
      unfold rndNear at hx
      rw [if_pos h0] at hx
      exact hx.symm
    have hXd : x / 2 ^ e = X := by rw [hX]; field_simp
    rw [hXd] at b1 b2
    have c1 : (2 : ℤ) ^ 52 ≤ X := by exact_mod_cast b1
    have c2 : X < (2 : ℤ) ^ 53 := by exact_mod_cast b2
    have fin : ∀ d : ℤ, |d| ≤ 2 → (|d| = 2 → X % 2 = 0) → (X = 2 ^ 52 → 0 ≤ d) → rndNear (2 * x + x) = ((3 * X + d : ℤ) : α) * 2 ^ e →
        rndNear (rndNear (2 * x + x) + x) = 4 * x := by
      intro d k1 k2 k3 k4
      have es : rndNear (2 * x + x) + x = ((4 * X + d : ℤ) : α) * 2 ^ e := by
        rw [k4, hX]; push_cast; ring
      rw [es]
      have pos : (0 : α) < ((4 * X + d : ℤ) : α) * 2 ^ e := by
        refine mul_pos ?_ hp
        have : (0 : ℤ) < 4 * X + d := by
          rw [abs_le] at k1
          omega
        exact_mod_cast this
      unfold rndNear
      rw [if_pos pos, rnd_four_int c1 c2 k1 k2 k3, hX]
      ring
    have e3 : 2 * x + x = ((3 * X : ℤ) : α) * 2 ^ e := by rw [hX]; push_cast; ring
    have er : rndNear (2 * x + x) = rndPos (((3 * X : ℤ) : α) * 2 ^ e) := by
      have : 0 < 2 * x + x := by linarith
      unfold rndNear
      rw [if_pos this, e3]
    by_cases h : 3 * X < 2 ^ 54
    · rw [rndPos_int (j := 1) (by norm_num; omega) (by norm_num; omega)] at er
      have herr := rne_err (((3 * X : ℤ) : α) / 2 ^ 1)
      set Y := rne (((3 * X : ℤ) : α) / 2 ^ 1) with hY
      have hd : |2 * Y - 3 * X| ≤ 1 := by
        have : |((2 * Y - 3 * X : ℤ) : α)| ≤ ((1 : ℤ) : α) := by
          rw [abs_le] at herr ⊢
          push_cast at herr ⊢
          constructor <;> linarith [herr.1, herr.2]
        exact_mod_cast this
      refine fin (2 * Y - 3 * X) (by omega) (by omega) (fun hm => ?_) ?_
      · rw [abs_le] at hd
        omega
      · rw [er]; push_cast; ring
    · rw [rndPos_int (j := 2) (by norm_num; omega) (by norm_num; omega)] at er
      have herr := rne_err (((3 * X : ℤ) : α) / 2 ^ 2)
      set Y := rne (((3 * X : ℤ) : α) / 2 ^ 2) with hY
      have hd : |4 * Y - 3 * X| ≤ 2 := by
        have : |((4 * Y - 3 * X : ℤ) : α)| ≤ ((2 : ℤ) : α) := by
          rw [abs_le] at herr ⊢
          push_cast at herr ⊢
          constructor <;> linarith [herr.1, herr.2]
        exact_mod_cast this
      refine fin (4 * Y - 3 * X) hd (fun h2 => ?_) (fun hm => by omega) ?_
      · rcases (abs_eq (by norm_num)).1 h2 with h3 | h3 <;> omega
      · rw [er]; push_cast; ring
  rcases lt_trichotomy x 0 with h | h | h
  · have := main (-x) (by linarith) (by rw [R.neg, hx])
    rw [show 2 * -x + -x = -(2 * x + x) by ring, R.neg, show -rndNear (2 * x + x) + -x = -(rndNear (2 * x + x) + x) by ring, R.neg] at this
    linarith
  · subst h; simp [R.zero]
  · exact main x h hx

end Rounding53
