import Verif.Model.Float
import Mathlib.Data.Int.Log
import Mathlib.Data.Rat.Floor

/-!
# Rounded arithmetic

`Fl α` computes exactly.  `Rfl rnd` is the same set of values, but the result of every `+ - * /` and every
literal is rounded with `rnd`, as the hardware does for `/repo/neutralocean` running on `float64`.

Simplification: the exponent is unbounded, i.e. no finite result overflows to infinity or underflows
(this is the usual "standard model" of floating point arithmetic).  Comparison, negation and `abs` are exact,
as in IEEE 754.
-/

/-- Values of rounded arithmetic: exact numbers, NaN, infinities.  A type of its own so that its operations
differ from those of `Fl α`. -/
def Rfl {α : Type*} (_rnd : α → α) : Type _ := Fl α

set_option linter.unusedSectionVars false

namespace Rfl
variable {α : Type*} {rnd : α → α}

instance [DecidableEq α] : DecidableEq (Rfl rnd) := inferInstanceAs (DecidableEq (Fl α))

/-- A number. -/
def fin (x : α) : Rfl rnd := Fl.fin x

/-- NaN. -/
def qnan : Rfl rnd := Fl.nan

/-- Round a result. -/
def round (rnd : α → α) : Fl α → Fl α
  | .fin x => .fin (rnd x)
  | y => y

variable [Field α] [LinearOrder α]

instance : FloatLike (Rfl rnd) where
  add x y := round rnd (Fl.add x y)
  sub x y := round rnd (Fl.add x (Fl.neg y))
  mul x y := round rnd (Fl.mul x y)
  div x y := round rnd (Fl.div x y)
  neg := Fl.neg
  abs := Fl.fabs
  lit q := Fl.fin (rnd (q : α))
  nan := Fl.nan
  lt := Fl.lt
  le := Fl.le
  feq := Fl.feq
  isNaN := Fl.isNaN
  isFinite := Fl.isFinite

@[simp] theorem fin_add (x y : α) : (fin x + fin y : Rfl rnd) = fin (rnd (x + y)) := (rfl)
@[simp] theorem fin_sub (x y : α) : (fin x - fin y : Rfl rnd) = fin (rnd (x - y)) := by
  rw [sub_eq_add_neg]; rfl
@[simp] theorem fin_mul (x y : α) : (fin x * fin y : Rfl rnd) = fin (rnd (x * y)) := (rfl)
@[simp] theorem fin_neg (x : α) : (-fin x : Rfl rnd) = fin (-x) := (rfl)
theorem fin_div (x y : α) (h : y ≠ 0) : (fin x / fin y : Rfl rnd) = fin (rnd (x / y)) := by
  show round rnd (if y = 0 then _ else Fl.fin (x / y)) = _
  rw [if_neg h]; rfl
@[simp] theorem abs_fin (x : α) : FloatLike.abs (fin x : Rfl rnd) = fin |x| := (rfl)
@[simp] theorem lit_eq (q : ℚ) : (FloatLike.lit q : Rfl rnd) = fin (rnd (q : α)) := (rfl)
@[simp] theorem nan_eq : (FloatLike.nan : Rfl rnd) = qnan := (rfl)
@[simp] theorem lt_fin (x y : α) : FloatLike.lt (fin x : Rfl rnd) (fin y) = decide (x < y) := (rfl)
@[simp] theorem le_fin (x y : α) : FloatLike.le (fin x : Rfl rnd) (fin y) = decide (x ≤ y) :=
  Fl.le_fin x y
@[simp] theorem feq_fin (x y : α) : FloatLike.feq (fin x : Rfl rnd) (fin y) = decide (x = y) := (rfl)
@[simp] theorem isNaN_fin (x : α) : FloatLike.isNaN (fin x : Rfl rnd) = false := (rfl)
@[simp] theorem isNaN_qnan : FloatLike.isNaN (qnan : Rfl rnd) = true := (rfl)
@[simp] theorem isFinite_fin (x : α) : FloatLike.isFinite (fin x : Rfl rnd) = true := (rfl)
@[simp] theorem isFinite_qnan : FloatLike.isFinite (qnan : Rfl rnd) = false := (rfl)
theorem fin_inj {x y : α} : (fin x : Rfl rnd) = fin y ↔ x = y :=
  ⟨fun h => Fl.fin.inj h, fun h => by rw [h]⟩
theorem fin_ne_qnan (x : α) : (fin x : Rfl rnd) ≠ qnan := fun h => by cases h
@[simp] theorem fmax_fin (x y : α) : FloatLike.fmax (fin x : Rfl rnd) (fin y) = fin (max x y) :=
  Fl.fmax_fin x y
@[simp] theorem fmin_fin (x y : α) : FloatLike.fmin (fin x : Rfl rnd) (fin y) = fin (min x y) :=
  Fl.fmin_fin x y

end Rfl

/-- What is assumed of the rounding of `float64`: to nearest with 53 significant bits, so the relative error
is at most `2^-53`, it is monotone and symmetric.  `Rounding53.rnd53_std` shows that binary rounding to nearest,
ties to even, has these properties. -/
structure StdRound {α : Type*} [Field α] [LinearOrder α] (rnd : α → α) : Prop where
  err : ∀ x, |rnd x - x| ≤ |x| / 2 ^ 53
  mono : ∀ x y, x ≤ y → rnd x ≤ rnd y
  neg : ∀ x, rnd (-x) = -rnd x

/-- Further laws of binary rounding (again with unbounded exponent): rounding twice changes nothing, `1` is a floating point
number and scaling by `2` is exact.  `Rounding53.rndNear_bin` shows them for rounding to nearest, ties to even. -/
structure BinRound {α : Type*} [Field α] [LinearOrder α] (rnd : α → α) : Prop extends StdRound rnd where
  idem : ∀ x, rnd (rnd x) = rnd x
  one : rnd 1 = 1
  two : ∀ x, rnd (2 * x) = 2 * rnd x

namespace Rounding53
section
variable {α : Type*} [Field α] [LinearOrder α] [FloorRing α]

/-- Nearest integer, ties to even. -/
def rne (y : α) : ℤ :=
  if y - ⌊y⌋ < 1/2 then ⌊y⌋
  else if 1/2 < y - ⌊y⌋ then ⌊y⌋ + 1
  else if ⌊y⌋ % 2 = 0 then ⌊y⌋ else ⌊y⌋ + 1

/-- Unit in the last place of a positive number: exponent of `2`. -/
def ulpExp (x : α) : ℤ := Int.log 2 x - 52

/-- Rounding of a positive number to 53 significant bits, to nearest, ties to even. -/
def rndPos (x : α) : α := rne (x / 2 ^ ulpExp x) * 2 ^ ulpExp x

/-- IEEE 754 `binary64` rounding to nearest, ties to even, with unbounded exponent. -/
def rndNear (x : α) : α := if 0 < x then rndPos x else if x < 0 then -rndPos (-x) else 0

end

/-- `rndNear` on the rationals. -/
def rnd53 : ℚ → ℚ := rndNear

/-- Unit in the last place with gradual underflow: never below `2^-1074`. -/
def ulpExp64 (x : ℚ) : ℤ := max (Int.log 2 x - 52) (-1074)

/-- Rounding of a positive number with gradual underflow. -/
def rndPos64 (x : ℚ) : ℚ := rne (x / 2 ^ ulpExp64 x) * 2 ^ ulpExp64 x

/-- IEEE 754 `binary64` rounding to nearest, ties to even, with gradual underflow (but no overflow). -/
def rnd64 (x : ℚ) : ℚ := if 0 < x then rndPos64 x else if x < 0 then -rndPos64 (-x) else 0

end Rounding53
