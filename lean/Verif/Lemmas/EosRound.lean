import Verif.Model.EosRound
import Verif.Lemmas.PchipRound

/-!
# Tracking rounding errors through an expression

`Trk` holds a bound of the size of a number and one of the error with which it is computed; adding and multiplying such pairs gives the
bounds of sums and products.  The formulas of the equations of state, read with `Trk` in place of numbers, compute their own error bounds.
-/

namespace Eos
open FloatLike Interp
set_option linter.unusedSectionVars false

/-- Bounds of the size of an exact number, and of the error of the computed one. -/
structure Trk where
  m : ℚ
  e : ℚ

namespace Trk

/-- The unit roundoff. -/
def u : ℚ := 1 / 2 ^ 53

/-- One more rounding: `d` is the error so far. -/
def rd (m d : ℚ) : Trk := ⟨m, d + (m + d) * u⟩

instance : Add Trk := ⟨fun x y => rd (x.m + y.m) (x.e + y.e)⟩
instance : Sub Trk := ⟨fun x y => rd (x.m + y.m) (x.e + y.e)⟩
instance : Mul Trk := ⟨fun x y => rd (x.m * y.m) (x.m * y.e + y.m * x.e + x.e * y.e)⟩

/-- A literal. -/
def lit (q : ℚ) : Trk := rd |q| 0

/-- An argument. -/
def arg (m : ℚ) : Trk := ⟨m, 0⟩

/-- A quotient, with a lower bound of the size of the divisor. -/
def div (L : ℚ) (x y : Trk) : Trk := rd (x.m / L) ((x.e + x.m / L * y.e) / (L - y.e))

/-- A square root, with bounds of it. -/
def sqrt (L M : ℚ) (x : Trk) : Trk := rd M (x.e / L)

/-- The same with a better bound of the size. -/
def cap (m : ℚ) (x : Trk) : Trk := ⟨m, x.e⟩

end Trk

variable {rnd : ℝ → ℝ}

/-- `v` is a number within the error bound of the exact number `a`, whose size is bounded. -/
def Tr (x : Trk) (a : ℝ) (v : Rfl rnd) : Prop := ∃ w : ℝ, v = Rfl.fin w ∧ |a| ≤ x.m ∧ |w - a| ≤ x.e

namespace Tr
variable {x y : Trk} {a b : ℝ} {v w : Rfl rnd}

theorem rd (R : StdRound rnd) {z c : ℝ} {m d : ℚ} (hm : |c| ≤ m) (hd : |z - c| ≤ d) :
    Tr (Trk.rd m d) c (Rfl.fin (rnd z) : Rfl rnd) := by
  refine ⟨_, rfl, hm, ?_⟩
  have h1 := R.err z
  have h2 : |z| ≤ m + d := by
    calc |z| = |c + (z - c)| := by ring_nf
      _ ≤ |c| + |z - c| := abs_add_le _ _
      _ ≤ m + d := add_le_add hm hd
  calc |rnd z - c| = |(z - c) + (rnd z - z)| := by ring_nf
    _ ≤ |z - c| + |rnd z - z| := abs_add_le _ _
    _ ≤ d + (m + d) * (1 / 2 ^ 53) := by
      refine add_le_add hd (h1.trans ?_)
      rw [div_eq_mul_one_div]
      gcongr
    _ = ((Trk.rd m d).e : ℝ) := by
      simp only [Trk.rd, Trk.u]
      push_cast
      ring

theorem lit (R : StdRound rnd) (q : ℚ) : Tr (Trk.lit q) (q : ℝ) (FloatLike.lit q : Rfl rnd) := by
  rw [Rfl.lit_eq]
  exact rd R (by push_cast; exact le_rfl) (by simp)

theorem arg {m : ℚ} (h : |a| ≤ m) : Tr (Trk.arg m) a (Rfl.fin a : Rfl rnd) :=
  ⟨a, rfl, h, by simp [Trk.arg]⟩

theorem add (R : StdRound rnd) (h : Tr x a v) (h' : Tr y b w) : Tr (x + y) (a + b) (v + w) := by
  obtain ⟨p, rfl, h1, h2⟩ := h
  obtain ⟨q, rfl, h3, h4⟩ := h'
  rw [Rfl.fin_add]
  refine rd R ?_ ?_
  · push_cast; exact (abs_add_le _ _).trans (add_le_add h1 h3)
  · push_cast
    calc |p + q - (a + b)| = |(p - a) + (q - b)| := by ring_nf
      _ ≤ _ := (abs_add_le _ _).trans (add_le_add h2 h4)

theorem sub (R : StdRound rnd) (h : Tr x a v) (h' : Tr y b w) : Tr (x - y) (a - b) (v - w) := by
  obtain ⟨p, rfl, h1, h2⟩ := h
  obtain ⟨q, rfl, h3, h4⟩ := h'
  rw [Rfl.fin_sub]
  refine rd R ?_ ?_
  · push_cast; exact (abs_sub _ _).trans (add_le_add h1 h3)
  · push_cast
    calc |p - q - (a - b)| = |(p - a) - (q - b)| := by ring_nf
      _ ≤ _ := (abs_sub _ _).trans (add_le_add h2 h4)

theorem mul (R : StdRound rnd) (h : Tr x a v) (h' : Tr y b w) : Tr (x * y) (a * b) (v * w) := by
  obtain ⟨p, rfl, h1, h2⟩ := h
  obtain ⟨q, rfl, h3, h4⟩ := h'
  rw [Rfl.fin_mul]
  have hx : (0 : ℝ) ≤ x.m := (abs_nonneg _).trans h1
  have hxe : (0 : ℝ) ≤ x.e := (abs_nonneg _).trans h2
  have hy : (0 : ℝ) ≤ y.m := (abs_nonneg _).trans h3
  refine rd R ?_ ?_
  · push_cast; rw [abs_mul]; gcongr
  · push_cast
    calc |p * q - a * b| = |a * (q - b) + b * (p - a) + (p - a) * (q - b)| := by ring_nf
      _ ≤ |a * (q - b)| + |b * (p - a)| + |(p - a) * (q - b)| := abs_add_three _ _ _
      _ ≤ _ := by
        rw [abs_mul, abs_mul, abs_mul]
        gcongr

/-- A divisor bounded from below. -/
theorem div (R : StdRound rnd) (h : Tr x a v) (h' : Tr y b w) {L : ℚ} (hL : (L : ℝ) ≤ |b|) (he : y.e < L) :
    ∃ z, sdiv v w = some z ∧ Tr (Trk.div L x y) (a / b) z := by
  obtain ⟨p, rfl, h1, h2⟩ := h
  obtain ⟨q, rfl, h3, h4⟩ := h'
  have he' : (y.e : ℝ) < L := by exact_mod_cast he
  have hye : (0 : ℝ) ≤ y.e := (abs_nonneg _).trans h4
  have hL0 : (0 : ℝ) < L := hye.trans_lt he'
  have hx : (0 : ℝ) ≤ x.m := (abs_nonneg _).trans h1
  have hxe : (0 : ℝ) ≤ x.e := (abs_nonneg _).trans h2
  have hb : 0 < |b| := hL0.trans_le hL
  have hb0 : b ≠ 0 := abs_pos.mp hb
  have hq : L - y.e ≤ |q| := by
    have : |b| ≤ |q| + |q - b| := by
      calc |b| = |q - (q - b)| := by ring_nf
        _ ≤ _ := abs_sub _ _
    linarith
  have hd : (0 : ℝ) < L - y.e := by linarith
  have hq0 : q ≠ 0 := abs_pos.mp (hd.trans_le hq)
  refine ⟨_, sdiv_fin_rnd R hq0, rd R ?_ ?_⟩
  · push_cast
    rw [abs_div]
    gcongr
  · push_cast
    have e : p / q - a / b = ((p - a) - a / b * (q - b)) / q := by
      field_simp
      ring
    rw [e, abs_div]
    gcongr
    calc |p - a - a / b * (q - b)| ≤ |p - a| + |a / b * (q - b)| := abs_sub _ _
      _ ≤ _ := by
        rw [abs_mul, abs_div]
        gcongr

/-- A square root bounded from below. -/
theorem sqrt (R : StdRound rnd) (h : Tr x a v) {L M : ℚ} (hL : 0 < L) (h0 : (L : ℝ) ≤ Real.sqrt a) (h1 : Real.sqrt a ≤ M)
    (he : x.e ≤ L * L) : Tr (Trk.sqrt L M x) (Real.sqrt a) (FloatSqrt.sqrt v) := by
  obtain ⟨p, rfl, h2, h3⟩ := h
  have hL' : (0 : ℝ) < L := by exact_mod_cast hL
  have he' : (x.e : ℝ) ≤ L * L := by exact_mod_cast he
  have ha : 0 < a := Real.sqrt_pos.mp (hL'.trans_le h0)
  have hLa : (L : ℝ) * L ≤ a := by
    calc (L : ℝ) * L ≤ Real.sqrt a * Real.sqrt a := by gcongr
      _ = a := Real.mul_self_sqrt ha.le
  have hp : 0 ≤ p := by
    have := (abs_le.mp h3).1
    linarith
  have e : (FloatSqrt.sqrt (Rfl.fin p : Rfl rnd)) = Rfl.fin (rnd (Real.sqrt p)) := by
    show Rfl.round rnd (flSqrt (.fin p)) = _
    simp only [flSqrt]
    rw [if_neg (not_lt.mpr hp)]
    rfl
  rw [e]
  refine rd R ?_ ?_
  · rw [abs_of_nonneg (Real.sqrt_nonneg _)]; exact h1
  · push_cast
    have hs : 0 < Real.sqrt p + Real.sqrt a := by
      have := Real.sqrt_nonneg p
      linarith
    have : Real.sqrt p - Real.sqrt a = (p - a) / (Real.sqrt p + Real.sqrt a) := by
      rw [eq_div_iff hs.ne']
      have e1 := Real.mul_self_sqrt hp
      have e2 := Real.mul_self_sqrt ha.le
      ring_nf
      ring_nf at e1 e2
      rw [e1, e2]
    rw [this, abs_div, abs_of_pos hs]
    have := Real.sqrt_nonneg p
    gcongr
    · exact (abs_nonneg _).trans h3
    · linarith

/-- The square root of an argument, which may be zero. -/
theorem sqrtArg (R : StdRound rnd) {M : ℚ} (h0 : 0 ≤ a) (h1 : Real.sqrt a ≤ M) :
    Tr (Trk.rd M 0) (Real.sqrt a) (FloatSqrt.sqrt (Rfl.fin a : Rfl rnd)) := by
  have e : (FloatSqrt.sqrt (Rfl.fin a : Rfl rnd)) = Rfl.fin (rnd (Real.sqrt a)) := by
    show Rfl.round rnd (flSqrt (.fin a)) = _
    simp only [flSqrt]
    rw [if_neg (not_lt.mpr h0)]
    rfl
  rw [e]
  refine rd R ?_ (by simp)
  rw [abs_of_nonneg (Real.sqrt_nonneg _)]; exact h1

theorem cap (h : Tr x a v) {m : ℚ} (hm : |a| ≤ m) : Tr (Trk.cap m x) a v := by
  obtain ⟨p, rfl, h2, h3⟩ := h
  exact ⟨p, rfl, hm, h3⟩

/-- What has been shown, in the end. -/
theorem close (h : Tr x a v) {η : ℚ} (he : x.e ≤ η) : ∃ w : ℝ, v = Rfl.fin w ∧ |w - a| ≤ η := by
  obtain ⟨p, rfl, h2, h3⟩ := h
  exact ⟨p, rfl, h3.trans (by exact_mod_cast he)⟩

theorem size (h : Tr x a v) {M : ℚ} (he : x.m ≤ M) : |a| ≤ M := by
  obtain ⟨p, rfl, h2, h3⟩ := h
  exact h2.trans (by exact_mod_cast he)

end Tr

/-- Track an expression built from sums, differences and products of what is tracked in the context, of coefficients (tracked by the first lemma)
and literals (tracked by the second). -/
macro "track" R:term:max hk:term:max hc:term:max : tactic => `(tactic|
  repeat' first
    | with_reducible assumption
    | with_reducible exact $hk _
    | with_reducible exact $hc _
    | with_reducible refine Tr.add $R ?_ ?_
    | with_reducible refine Tr.sub $R ?_ ?_
    | with_reducible refine Tr.mul $R ?_ ?_)

end Eos
