import Mathlib.Data.Real.Basic
import Mathlib.Algebra.Order.Ring.Abs
import Mathlib.Tactic.Linarith
import Mathlib.Tactic.Ring
import Mathlib.Tactic.Positivity

/-!
# Bounds of polynomials on a box

Polynomials in three variables as nested lists of coefficients, with addition, subtraction and multiplication, their
value at a point of the cube `[-1, 1]³`, and bounds computed from the coefficients. All of it is used only in proofs:
the bounds are evaluated by the kernel on exact rationals.
-/

namespace PolyBox

/-- A polynomial in one variable with coefficients in `R`, lowest order first. -/
structure LP (R : Type*) where
  l : List R

variable {R : Type*}

/-- Sum of coefficient lists. -/
def padd [Add R] : List R → List R → List R
  | [], m => m
  | l, [] => l
  | a :: l, b :: m => (a + b) :: padd l m

/-- Product of coefficient lists. -/
def pmul [Zero R] [Add R] [Mul R] : List R → List R → List R
  | [], _ => []
  | a :: l, m => padd (m.map (a * ·)) (0 :: pmul l m)

instance : Zero (LP R) := ⟨⟨[]⟩⟩
instance [Add R] : Add (LP R) := ⟨fun p q => ⟨padd p.l q.l⟩⟩
instance [Zero R] [Add R] [Mul R] : Mul (LP R) := ⟨fun p q => ⟨pmul p.l q.l⟩⟩
instance [Neg R] : Neg (LP R) := ⟨fun p => ⟨p.l.map (- ·)⟩⟩
instance [Add R] [Neg R] : Sub (LP R) := ⟨fun p q => p + -q⟩

/-- A map into the reals respecting the operations. -/
structure Hom [Zero R] [Add R] [Neg R] [Mul R] (φ : R → ℝ) : Prop where
  zero : φ 0 = 0
  add : ∀ a b, φ (a + b) = φ a + φ b
  neg : ∀ a, φ (-a) = -φ a
  mul : ∀ a b, φ (a * b) = φ a * φ b

/-- Value of a coefficient list. -/
def evl (φ : R → ℝ) (u : ℝ) : List R → ℝ
  | [] => 0
  | a :: l => φ a + u * evl φ u l

/-- Value of a polynomial. -/
def ev (φ : R → ℝ) (u : ℝ) (p : LP R) : ℝ := evl φ u p.l

variable [Zero R] [Add R] [Neg R] [Mul R] {φ : R → ℝ}

theorem evl_add (h : Hom φ) (u : ℝ) (l m : List R) : evl φ u (padd l m) = evl φ u l + evl φ u m := by
  induction l generalizing m with
  | nil => cases m <;> simp [padd, evl]
  | cons a l ih =>
    cases m with
    | nil => simp [padd, evl]
    | cons b m => simp only [padd, evl, ih, h.add]; ring

theorem evl_map_mul (h : Hom φ) (u : ℝ) (a : R) (m : List R) : evl φ u (m.map (a * ·)) = φ a * evl φ u m := by
  induction m with
  | nil => simp [evl]
  | cons b m ih => simp only [List.map_cons, evl, ih, h.mul]; ring

theorem evl_map_neg (h : Hom φ) (u : ℝ) (m : List R) : evl φ u (m.map (- ·)) = -evl φ u m := by
  induction m with
  | nil => simp [evl]
  | cons b m ih => simp only [List.map_cons, evl, ih, h.neg]; ring

theorem evl_mul (h : Hom φ) (u : ℝ) (l m : List R) : evl φ u (pmul l m) = evl φ u l * evl φ u m := by
  induction l with
  | nil => simp [pmul, evl]
  | cons a l ih => simp only [pmul, evl_add h, evl_map_mul h, evl, ih, h.zero]; ring

theorem ev_hom (h : Hom φ) (u : ℝ) : Hom (ev φ u) where
  zero := rfl
  add a b := evl_add h u a.l b.l
  neg a := evl_map_neg h u a.l
  mul a b := evl_mul h u a.l b.l

theorem Hom.sub {φ : R → ℝ} (h : Hom φ) [Sub R] (hs : ∀ a b : R, a - b = a + -b) (a b : R) : φ (a - b) = φ a - φ b := by
  rw [hs, h.add, h.neg, sub_eq_add_neg]

/-- A bound of the values of the coefficients. -/
structure Bound (φ : R → ℝ) (nrm lo hi : R → ℚ) : Prop where
  nrm : ∀ a, |φ a| ≤ (nrm a : ℚ)
  lo : ∀ a, ((lo a : ℚ) : ℝ) ≤ φ a
  hi : ∀ a, φ a ≤ (hi a : ℚ)

/-- Sum of bounds. -/
def nrml (nrm : R → ℚ) : List R → ℚ
  | [] => 0
  | a :: l => nrm a + nrml nrm l

/-- Lower bound from the constant coefficient and the size of the others. -/
def lol (nrm lo : R → ℚ) : List R → ℚ
  | [] => 0
  | a :: l => lo a - nrml nrm l

/-- Upper bound from the constant coefficient and the size of the others. -/
def hil (nrm hi : R → ℚ) : List R → ℚ
  | [] => 0
  | a :: l => hi a + nrml nrm l

theorem nrml_bound {nrm lo hi : R → ℚ} (h : Bound φ nrm lo hi) {u : ℝ} (hu : |u| ≤ 1) (l : List R) :
    |evl φ u l| ≤ (nrml nrm l : ℚ) := by
  induction l with
  | nil => simp [evl, nrml]
  | cons a l ih =>
    have h1 : |u * evl φ u l| ≤ (nrml nrm l : ℚ) := by
      rw [abs_mul]
      calc |u| * |evl φ u l| ≤ 1 * |evl φ u l| := by gcongr
        _ ≤ _ := by rw [one_mul]; exact ih
    have := abs_add_le (φ a) (u * evl φ u l)
    have h2 := h.nrm a
    simp only [evl, nrml, Rat.cast_add]
    linarith

theorem ev_bound {nrm lo hi : R → ℚ} (h : Bound φ nrm lo hi) {u : ℝ} (hu : |u| ≤ 1) :
    Bound (ev φ u) (fun p => nrml nrm p.l) (fun p => lol nrm lo p.l) (fun p => hil nrm hi p.l) := by
  have key : ∀ l : List R, |u * evl φ u l| ≤ (nrml nrm l : ℚ) := fun l => by
    rw [abs_mul]
    calc |u| * |evl φ u l| ≤ 1 * |evl φ u l| := by gcongr
      _ ≤ _ := by rw [one_mul]; exact nrml_bound h hu l
  refine ⟨fun p => nrml_bound h hu p.l, ?_, ?_⟩
  · rintro ⟨l⟩
    cases l with
    | nil => simp [ev, evl, lol]
    | cons a l =>
      have := neg_le_of_abs_le (key l)
      have := h.lo a
      simp only [ev, evl, lol, Rat.cast_sub]
      linarith
  · rintro ⟨l⟩
    cases l with
    | nil => simp [ev, evl, hil]
    | cons a l =>
      have := le_of_abs_le (key l)
      have := h.hi a
      simp only [ev, evl, hil, Rat.cast_add]
      linarith

/-! ### Three variables over the rationals -/

/-- Polynomials in three variables. -/
abbrev P3 := LP (LP (LP ℚ))

/-- Value at a point. -/
def val (u w q : ℝ) : P3 → ℝ := ev (ev (ev (fun a : ℚ => (a : ℝ)) u) w) q

theorem hom_cast : Hom (fun a : ℚ => (a : ℝ)) :=
  ⟨Rat.cast_zero, Rat.cast_add, Rat.cast_neg, Rat.cast_mul⟩

theorem bound_cast : Bound (fun a : ℚ => (a : ℝ)) (fun a => |a|) id id :=
  ⟨fun a => by rw [Rat.cast_abs], fun _ => le_rfl, fun _ => le_rfl⟩

/-- A constant. -/
def k3 (a : ℚ) : P3 := ⟨[⟨[⟨[a]⟩]⟩]⟩
/-- The first variable, as `m + h * u`. -/
def x3 (m h : ℚ) : P3 := ⟨[⟨[⟨[m, h]⟩]⟩]⟩
/-- The second variable, as `m + h * w`. -/
def y3 (m h : ℚ) : P3 := ⟨[⟨[⟨[m]⟩, ⟨[h]⟩]⟩]⟩
/-- The third variable, as `m + h * q`. -/
def z3 (m h : ℚ) : P3 := ⟨[⟨[⟨[m]⟩]⟩, ⟨[⟨[h]⟩]⟩]⟩

/-- Lower bound on the cube. -/
def low (p : P3) : ℚ :=
  lol (fun p : LP (LP ℚ) => nrml (fun p : LP ℚ => nrml (fun a : ℚ => |a|) p.l) p.l)
    (fun p : LP (LP ℚ) => lol (fun p : LP ℚ => nrml (fun a : ℚ => |a|) p.l) (fun p : LP ℚ => lol (fun a : ℚ => |a|) id p.l) p.l) p.l

/-- Upper bound on the cube. -/
def high (p : P3) : ℚ :=
  hil (fun p : LP (LP ℚ) => nrml (fun p : LP ℚ => nrml (fun a : ℚ => |a|) p.l) p.l)
    (fun p : LP (LP ℚ) => hil (fun p : LP ℚ => nrml (fun a : ℚ => |a|) p.l) (fun p : LP ℚ => hil (fun a : ℚ => |a|) id p.l) p.l) p.l

variable {u w q : ℝ}

theorem val_hom (u w q : ℝ) : Hom (val u w q) := ev_hom (ev_hom (ev_hom hom_cast u) w) q

theorem val_add (a b : P3) : val u w q (a + b) = val u w q a + val u w q b := (val_hom u w q).add a b
theorem val_mul (a b : P3) : val u w q (a * b) = val u w q a * val u w q b := (val_hom u w q).mul a b
theorem val_sub (a b : P3) : val u w q (a - b) = val u w q a - val u w q b :=
  (val_hom u w q).sub (fun _ _ => rfl) a b
theorem val_k (a : ℚ) : val u w q (k3 a) = a := by simp [val, k3, ev, evl]
theorem val_x (m h : ℚ) : val u w q (x3 m h) = m + h * u := by simp [val, x3, ev, evl]; ring
theorem val_y (m h : ℚ) : val u w q (y3 m h) = m + h * w := by simp [val, y3, ev, evl]; ring
theorem val_z (m h : ℚ) : val u w q (z3 m h) = m + h * q := by simp [val, z3, ev, evl]; ring

theorem val_bound (hu : |u| ≤ 1) (hw : |w| ≤ 1) (hq : |q| ≤ 1) (p : P3) :
    ((low p : ℚ) : ℝ) ≤ val u w q p ∧ val u w q p ≤ (high p : ℚ) :=
  have h := ev_bound (ev_bound (ev_bound bound_cast hu) hw) hq
  ⟨h.lo p, h.hi p⟩

/-- A number between `m - h` and `m + h` is `m + h * u` with `u` in `[-1, 1]`. -/
theorem unit_of {x : ℝ} {m h : ℚ} (hh : 0 < h) (h1 : ((m - h : ℚ) : ℝ) ≤ x) (h2 : x ≤ ((m + h : ℚ) : ℝ)) :
    ∃ u : ℝ, |u| ≤ 1 ∧ x = m + h * u := by
  have hh' : (0 : ℝ) < h := by exact_mod_cast hh
  push_cast at h1 h2
  refine ⟨(x - m) / h, ?_, ?_⟩
  · rw [abs_div, abs_of_pos hh', div_le_one hh', abs_le]
    constructor <;> linarith
  · rw [mul_div_cancel₀ _ hh'.ne']; ring

end PolyBox
