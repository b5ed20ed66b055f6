import Mathlib.Algebra.Order.Field.Basic
import Mathlib.Algebra.Order.Group.Abs
import Mathlib.Data.Rat.Cast.Order
import Mathlib.Data.Rat.Cast.CharZero
import Mathlib.Tactic.Linarith
import Mathlib.Tactic.Ring
import Mathlib.Tactic.NormNum

/-!
# Numbers

The Python code works on numpy/numba `float64`.  Model functions are written once, over any type
with the operations of `FloatLike` (no laws).  `Fl α` is the exact-arithmetic instance.
-/

/-- The operations of `float64` scalars used by the repository (e.g. `/repo/neutralocean/fzero.py`
lines 73-149, `/repo/neutralocean/ppinterp/ppinterp.py` lines 47-69).
Simplification: no laws are assumed; comparisons return `Bool` and are meant to be `false` on NaN.
Numerals in the Python source become `lit q`. -/
class FloatLike (F : Type*) extends Add F, Sub F, Mul F, Div F, Neg F where
  /-- absolute value, `abs(x)` -/
  abs : F → F
  /-- a decimal literal -/
  lit : ℚ → F
  /-- `np.nan` -/
  nan : F
  /-- `x < y` -/
  lt : F → F → Bool
  /-- `x <= y` -/
  le : F → F → Bool
  /-- `x == y` -/
  feq : F → F → Bool
  /-- `np.isnan(x)` -/
  isNaN : F → Bool
  /-- `np.isfinite(x)` -/
  isFinite : F → Bool

namespace FloatLike
variable {F : Type*} [FloatLike F]

/-- Python `max(x, y)`: `y` if `y > x`, else `x`. Used at `/repo/neutralocean/fzero.py` lines 188, 222. -/
def fmax (x y : F) : F := if lt x y then y else x
/-- Python `min(x, y)`: `y` if `y < x`, else `x`. Used at `/repo/neutralocean/fzero.py` lines 188, 235. -/
def fmin (x y : F) : F := if lt y x then y else x
/-- `np.sign(x)` (NaN on NaN). Used at `/repo/neutralocean/ppinterp/pchip.py` lines 134-160. -/
def sign (x : F) : F :=
  if lt (lit 0) x then lit 1 else if lt x (lit 0) then lit (-1) else if feq x (lit 0) then lit 0 else nan

end FloatLike

/-- Exact numbers with NaN and infinities: the exact-arithmetic stand-in for `float64`.
Simplifications: no rounding, no signed zero (so `x/0` is `+inf` for `x>0`, `-inf` for `x<0`). -/
inductive Fl (α : Type*) where
  | nan | ninf | pinf
  | fin (x : α)
  deriving DecidableEq

namespace Fl
variable {α : Type*}

/-- negation `-x`. -/
protected def neg [Neg α] : Fl α → Fl α
  | nan => nan
  | ninf => pinf
  | pinf => ninf
  | fin x => fin (-x)

/-- addition `x + y`; `inf - inf` is NaN. -/
protected def add [Add α] : Fl α → Fl α → Fl α
  | fin x, fin y => fin (x + y)
  | nan, _ => nan
  | _, nan => nan
  | pinf, ninf => nan
  | ninf, pinf => nan
  | pinf, _ => pinf
  | _, pinf => pinf
  | ninf, _ => ninf
  | _, ninf => ninf

variable [Field α] [LinearOrder α]

/-- multiplication `x * y`; `0 * inf` is NaN. -/
protected def mul : Fl α → Fl α → Fl α
  | fin x, fin y => fin (x * y)
  | nan, _ => nan
  | _, nan => nan
  | pinf, pinf => pinf
  | ninf, ninf => pinf
  | pinf, ninf => ninf
  | ninf, pinf => ninf
  | pinf, fin y => if 0 < y then pinf else if y < 0 then ninf else nan
  | ninf, fin y => if 0 < y then ninf else if y < 0 then pinf else nan
  | fin x, pinf => if 0 < x then pinf else if x < 0 then ninf else nan
  | fin x, ninf => if 0 < x then ninf else if x < 0 then pinf else nan

/-- division `x / y` with the numpy conventions for zero divisors (zero taken as `+0`). -/
protected def div : Fl α → Fl α → Fl α
  | fin x, fin y => if y = 0 then (if 0 < x then pinf else if x < 0 then ninf else nan) else fin (x / y)
  | nan, _ => nan
  | _, nan => nan
  | fin _, _ => fin 0
  | pinf, fin y => if y < 0 then ninf else pinf
  | ninf, fin y => if y < 0 then pinf else ninf
  | _, _ => nan

/-- `x < y`, false on NaN. -/
protected def lt : Fl α → Fl α → Bool
  | fin x, fin y => decide (x < y)
  | nan, _ => false
  | _, nan => false
  | ninf, ninf => false
  | ninf, _ => true
  | pinf, _ => false
  | _, pinf => true
  | _, _ => false

/-- `x == y`, false on NaN. -/
protected def feq : Fl α → Fl α → Bool
  | fin x, fin y => decide (x = y)
  | ninf, ninf => true
  | pinf, pinf => true
  | _, _ => false

/-- `x <= y`, false on NaN. -/
protected def le (x y : Fl α) : Bool := Fl.lt x y || Fl.feq x y

/-- `np.isnan` -/
protected def isNaN : Fl α → Bool
  | nan => true
  | _ => false

/-- `np.isfinite` -/
protected def isFinite : Fl α → Bool
  | fin _ => true
  | _ => false

/-- `abs(x)` -/
def fabs : Fl α → Fl α
  | fin x => fin |x|
  | nan => nan
  | _ => pinf

instance : FloatLike (Fl α) where
  add := Fl.add
  sub x y := Fl.add x (Fl.neg y)
  mul := Fl.mul
  div := Fl.div
  neg := Fl.neg
  abs := fabs
  lit q := fin (q : α)
  nan := nan
  lt := Fl.lt
  le := Fl.le
  feq := Fl.feq
  isNaN := Fl.isNaN
  isFinite := Fl.isFinite

@[simp] theorem fin_add (x y : α) : (fin x + fin y : Fl α) = fin (x + y) := (rfl)
@[simp] theorem fin_sub (x y : α) : (fin x - fin y : Fl α) = fin (x - y) := by
  show fin (x + -y) = _
  rw [sub_eq_add_neg]
@[simp] theorem fin_mul (x y : α) : (fin x * fin y : Fl α) = fin (x * y) := (rfl)
@[simp] theorem fin_neg (x : α) : (-fin x : Fl α) = fin (-x) := (rfl)
theorem fin_div (x y : α) (h : y ≠ 0) : (fin x / fin y : Fl α) = fin (x / y) := by
  show (if y = 0 then _ else fin (x / y)) = _
  rw [if_neg h]
@[simp] theorem nan_add (x : Fl α) : (nan + x : Fl α) = nan := by cases x <;> rfl
@[simp] theorem add_nan (x : Fl α) : (x + nan : Fl α) = nan := by cases x <;> rfl
@[simp] theorem nan_sub (x : Fl α) : (nan - x : Fl α) = nan := by cases x <;> rfl
@[simp] theorem sub_nan (x : Fl α) : (x - nan : Fl α) = nan := by cases x <;> rfl
@[simp] theorem nan_mul (x : Fl α) : (nan * x : Fl α) = nan := by cases x <;> rfl
@[simp] theorem mul_nan (x : Fl α) : (x * nan : Fl α) = nan := by cases x <;> rfl
@[simp] theorem nan_div (x : Fl α) : (nan / x : Fl α) = nan := by cases x <;> rfl
@[simp] theorem div_nan (x : Fl α) : (x / nan : Fl α) = nan := by cases x <;> rfl
@[simp] theorem abs_fin (x : α) : FloatLike.abs (fin x) = fin |x| := (rfl)
@[simp] theorem abs_nan : FloatLike.abs (nan : Fl α) = nan := (rfl)
@[simp] theorem lit_eq (q : ℚ) : (FloatLike.lit q : Fl α) = fin (q : α) := (rfl)
@[simp] theorem nan_eq : (FloatLike.nan : Fl α) = nan := (rfl)
@[simp] theorem lt_fin (x y : α) : FloatLike.lt (fin x) (fin y) = decide (x < y) := (rfl)
@[simp] theorem le_fin (x y : α) : FloatLike.le (fin x) (fin y) = decide (x ≤ y) := by
  show (decide (x < y) || decide (x = y)) = _
  by_cases h : x ≤ y
  · rcases lt_or_eq_of_le h with h' | h' <;> simp [h, h']
  · have h1 : ¬ x < y := fun h' => h h'.le
    have h2 : ¬ x = y := fun h' => h h'.le
    simp [h, h1, h2]
@[simp] theorem feq_fin (x y : α) : FloatLike.feq (fin x) (fin y) = decide (x = y) := (rfl)
@[simp] theorem isNaN_fin (x : α) : FloatLike.isNaN (fin x) = false := (rfl)
@[simp] theorem isNaN_nan : FloatLike.isNaN (nan : Fl α) = true := (rfl)
@[simp] theorem isFinite_fin (x : α) : FloatLike.isFinite (fin x) = true := (rfl)
@[simp] theorem isFinite_nan : FloatLike.isFinite (nan : Fl α) = false := (rfl)
@[simp] theorem isNaN_ninf : FloatLike.isNaN (ninf : Fl α) = false := (rfl)
@[simp] theorem isNaN_pinf : FloatLike.isNaN (pinf : Fl α) = false := (rfl)
@[simp] theorem isFinite_ninf : FloatLike.isFinite (ninf : Fl α) = false := (rfl)
@[simp] theorem isFinite_pinf : FloatLike.isFinite (pinf : Fl α) = false := (rfl)
@[simp] theorem lt_nan_left (x : Fl α) : FloatLike.lt (nan : Fl α) x = false := by cases x <;> rfl
@[simp] theorem lt_nan_right (x : Fl α) : FloatLike.lt x (nan : Fl α) = false := by cases x <;> rfl
@[simp] theorem le_nan_left (x : Fl α) : FloatLike.le (nan : Fl α) x = false := by cases x <;> rfl
@[simp] theorem le_nan_right (x : Fl α) : FloatLike.le x (nan : Fl α) = false := by cases x <;> rfl
@[simp] theorem feq_nan_left (x : Fl α) : FloatLike.feq (nan : Fl α) x = false := by cases x <;> rfl
@[simp] theorem feq_nan_right (x : Fl α) : FloatLike.feq x (nan : Fl α) = false := by cases x <;> rfl
@[simp] theorem ninf_lt_fin (x : α) : FloatLike.lt (ninf : Fl α) (fin x) = true := (rfl)
@[simp] theorem fin_lt_ninf (x : α) : FloatLike.lt (fin x) (ninf : Fl α) = false := (rfl)

theorem isFinite_iff (x : Fl α) : FloatLike.isFinite x = true ↔ ∃ y, x = fin y := by
  cases x <;> simp

theorem isNaN_iff (x : Fl α) : FloatLike.isNaN x = true ↔ x = nan := by
  cases x <;> simp

@[simp] theorem fmax_fin (x y : α) : FloatLike.fmax (fin x) (fin y) = fin (max x y) := by
  unfold FloatLike.fmax
  by_cases h : x < y
  · simp [h, max_eq_right h.le]
  · simp [h, max_eq_left (not_lt.mp h)]
@[simp] theorem fmin_fin (x y : α) : FloatLike.fmin (fin x) (fin y) = fin (min x y) := by
  unfold FloatLike.fmin
  by_cases h : y < x
  · simp [h, min_eq_right h.le]
  · simp [h, min_eq_left (not_lt.mp h)]

end Fl
