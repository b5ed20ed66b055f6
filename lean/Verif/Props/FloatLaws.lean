import Verif.Model.Float
import Mathlib.Tactic.Linarith
import Mathlib.Algebra.Order.Field.Rat

/-!
# Sanity of the number model

The exact numbers `Fl α` obey the order and NaN laws that IEEE comparison obeys.  These are not claims about
neutralocean; they guard the model that the other theorems use.
-/

set_option linter.unusedSectionVars false

namespace Fl
variable {α : Type*} [Field α] [LinearOrder α] [IsStrictOrderedRing α]
open FloatLike hiding nan

/-- Nothing is below itself. -/
theorem lt_irrefl' (x : Fl α) : lt x x = false := by
  cases x <;> first | rfl | simp

/-- `<` is transitive. -/
theorem lt_trans' {x y z : Fl α} (h1 : lt x y = true) (h2 : lt y z = true) : lt x z = true := by
  cases x <;> cases y <;> cases z <;>
    first | rfl | exact absurd h1 Bool.false_ne_true | exact absurd h2 Bool.false_ne_true | skip
  rw [lt_fin, decide_eq_true_eq] at *
  exact lt_trans h1 h2

/-- Two values that are not NaN are ordered or equal. -/
theorem lt_trichotomy' {x y : Fl α} (hx : isNaN x = false) (hy : isNaN y = false) :
    lt x y = true ∨ feq x y = true ∨ lt y x = true := by
  cases x <;> cases y <;>
    first
    | exact Or.inl rfl
    | exact Or.inr (Or.inl rfl)
    | exact Or.inr (Or.inr rfl)
    | exact absurd hx.symm Bool.false_ne_true | exact absurd hy.symm Bool.false_ne_true | skip
  rename_i a b
  simp only [lt_fin, feq_fin, decide_eq_true_eq]
  exact lt_trichotomy a b

/-- A comparison that holds involves no NaN. -/
theorem lt_not_nan {x y : Fl α} (h : lt x y = true) : isNaN x = false ∧ isNaN y = false := by
  cases x <;> cases y <;> first | exact ⟨rfl, rfl⟩ | exact absurd h Bool.false_ne_true

/-- `x <= y` is `x < y or x == y`, and exactly the opposite of `y < x` when neither is NaN. -/
theorem le_iff_not_lt {x y : Fl α} (hx : isNaN x = false) (hy : isNaN y = false) : le x y = !lt y x := by
  cases x <;> cases y <;> first | rfl | exact absurd hx.symm Bool.false_ne_true | exact absurd hy.symm Bool.false_ne_true | skip
  rename_i a b
  rw [le_fin, lt_fin]
  by_cases h : a ≤ b
  · rw [decide_eq_true h, decide_eq_false (not_lt.mpr h)]; rfl
  · rw [decide_eq_false h, decide_eq_true (not_le.mp h)]; rfl

/-- `==` holds exactly between equal values that are not NaN. -/
theorem feq_iff {x y : Fl α} : feq x y = true ↔ x = y ∧ isNaN x = false := by
  cases x <;> cases y <;>
    first
    | exact ⟨fun h => absurd h Bool.false_ne_true, fun h => absurd h.2.symm Bool.false_ne_true⟩
    | exact ⟨fun h => absurd h Bool.false_ne_true, fun h => absurd h.1 (by intro h; cases h)⟩
    | exact ⟨fun _ => ⟨rfl, rfl⟩, fun _ => rfl⟩
    | skip
  simp

/-- Addition and multiplication commute, infinities and NaN included. -/
theorem add_comm' (x y : Fl α) : x + y = y + x := by
  cases x <;> cases y <;> first | rfl | (simp only [fin_add]; rw [add_comm])

theorem mul_comm' (x y : Fl α) : x * y = y * x := by
  cases x <;> cases y <;> first | rfl | (simp only [fin_mul]; rw [mul_comm])

end Fl
