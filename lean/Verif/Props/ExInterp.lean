import Verif.Props.PchipSlopes
import Verif.Props.InterpRound
import Verif.Props.Order
import Verif.Props.Gufunc
import Verif.Props.MakePP

/-!
# Theorems on interpolation (C10–C17, C64, C113–C122) applied to concrete data
-/

namespace Interp
open FloatLike

theorem exFinite (x : Fl ℚ) : isFinite x = true → isNaN x = false := by cases x <;> simp

example := validRange_spec exFinite (Arr.ofList [Fl.nan, Fl.fin 1, Fl.fin 2, Fl.nan, Fl.fin 3])

example := validRange2_spec exFinite exX exY

/-- one datum and then NaN only -/
example : (validRange (Arr.ofList [Fl.nan, Fl.fin (1 : ℚ), Fl.nan, Fl.nan])).2 = 2 :=
  validRange_alone_partial exFinite _ (by decide +kernel) fun i h1 h2 => by
    have h1 : 1 < i := h1
    have h2 : i < 4 := h2
    interval_cases i <;> rfl

example (x : ℚ) (h : x < 0 ∨ 3 < x) : ppval1 (Fl.fin x) exX (linearCoeffs1 exX exY) 0 = Fl.nan :=
  (ppval1_spec exBlock rfl 0).2.1 x h

example : ppval1 (Fl.fin 1) (Arr.ofList [Fl.nan, Fl.fin (1 : ℚ)]) (linearCoeffs1 (Arr.ofList [Fl.nan, Fl.fin 1]) (Arr.ofList [Fl.fin 7, Fl.fin 8])) 0 = Fl.nan :=
  ppval1_few (by decide +kernel) _ 0

example := pieceIndex_range exX exY (Fl.fin 2) (by decide +kernel)

example : linearInterp1 (Fl.fin (1 / 3)) exX exY 0 = some (Fl.fin (16 / 3)) := by
  have := (linear_chord exBlock (i := 1) (x := 1 / 3) (by omega) (by omega) (by norm_num) (by norm_num)).2.1
  norm_num at this
  exact this

example : ∃ v, ppval1 (Fl.fin (1 / 3)) exX (linearCoeffs1 exX exY) 0 = Fl.fin v ∧ 5 ≤ v ∧ v ≤ 6 := by
  have := linear_between exBlock (i := 1) (x := 1 / 3) (by omega) (by omega) (by norm_num) (by norm_num)
  norm_num at this
  norm_num
  exact this

example : linearInterp1 (exX.get 2) exX exY 0 = some (exY.get 2) := (linear_interpolates exBlock (j := 2) (by omega) (by omega)).2

example : ∃ C, pchipCoeffs1 exX exY = some C ∧ ppval1 (exX.get 3) exX C 0 = exY.get 3 := by
  obtain ⟨C, h, h1⟩ := pchip_interpolates exBlock
  exact ⟨C, h, h1 3 (by omega) (by omega)⟩

example : ∃ C, pchipCoeffs1 exX exY = some C ∧ ∃ v v', ppval1 (Fl.fin (1 / 3)) exX C 0 = Fl.fin v ∧ ppval1 (Fl.fin (2 / 3)) exX C 0 = Fl.fin v' ∧ 5 ≤ v ∧ v ≤ v' ∧ v' ≤ 6 := by
  obtain ⟨C, h, h1⟩ := pchip_shape exBlock
  obtain ⟨v, v', e, e', h2, _⟩ := h1 1 (by omega) (by omega) (1 / 3) (2 / 3) (by norm_num) (by norm_num) (by norm_num)
  have := h2 (by norm_num)
  norm_num at this
  exact ⟨C, h, v, v', e, e', this⟩

/-- squares of whole numbers -/
theorem sqBlock : Block (⟨3, fun i => Fl.fin (i : ℝ)⟩ : Arr (Fl ℝ)) ⟨3, fun i => Fl.fin ((i : ℝ) ^ 2)⟩ 0 3 (fun i => i) (fun i => (i : ℝ) ^ 2) := by
  refine ⟨rfl, ?_, by omega, fun _ _ _ => rfl, fun _ _ _ => rfl, ?_⟩
  · apply validRange2_eq <;> simp
  · intro i _ _; push_cast; linarith

example := pchip_C1 sqBlock

theorem exPlain : Plain exX exY := by
  refine ⟨?_, ?_, ?_⟩
  all_goals
    intro i hi
    have hi : i < 6 := hi
    interval_cases i <;> decide +kernel

example {C : PPC (Fl ℚ)} (hC : pchipCoeffs1 exX exY = some C) (x : Fl ℚ) (d : ℕ) : pchipInterp1 x exX exY d = some (ppval1 x exX C d) :=
  pchip_onthefly_eq_table (fun a b => by show Fl.add a b = Fl.add b a; cases a <;> cases b <;> simp [Fl.add, add_comm]) exPlain rfl hC x d

example : (Fl.fin 6 : Fl ℚ) = ppval1 (Fl.fin 2) exX (linearCoeffs1 exX exY) 0 :=
  linear_onthefly_eq_table (X := exX) (Y := exY) rfl (Fl.fin 2) 0 (by decide +kernel)

example (x : Fl ℚ) (d : ℕ) : ppval1Two x exX (linearCoeffs1 exX exY) (linearCoeffs1 exX exX) d =
    (ppval1 x exX (linearCoeffs1 exX exY) d, ppval1 x exX (linearCoeffs1 exX exX) d) :=
  ppval1Two_eq (by decide +kernel) x d

example (x : Fl ℚ) (d : ℕ) := ppval1Nonan_trim (X := exX) (C := linearCoeffs1 exX exY) x d (by decide +kernel)

example : pchipCoeffs1Nonan (Arr.ofList [Fl.fin (0 : ℚ), Fl.fin 1, Fl.fin 3]) (Arr.ofList [Fl.fin 5, Fl.fin 6, Fl.fin 6]) =
    pchipCoeffs1 (Arr.ofList [Fl.fin 0, Fl.fin 1, Fl.fin 3]) (Arr.ofList [Fl.fin 5, Fl.fin 6, Fl.fin 6]) :=
  pchipNonan_eq (by decide) ⟨rfl, rfl⟩ fun i h1 h2 => by
    have h2 : i < 3 := h2
    interval_cases i <;> exact ⟨rfl, rfl⟩

/-- the fourth derivative of a cubic -/
example (x a b c d : Fl ℚ) : pval x [a, b, c, d] 4 = lit 0 := pval_high x _ 4 (by omega) (by simp)

theorem exPadded : Padded (Arr.ofList [Fl.fin (0 : ℚ), Fl.fin 1, Fl.fin 3]) (Arr.ofList [Fl.fin 5, Fl.fin 6, Fl.fin 6]) exX exY 1 := by
  refine ⟨rfl, rfl, by decide, ?_, ?_, ?_, ?_⟩
  · intro i hi
    have hi : i < 3 := hi
    interval_cases i <;> rfl
  · intro i hi
    have hi : i < 3 := hi
    interval_cases i <;> rfl
  · intro j hj
    have : j = 0 := by omega
    subst this; exact Or.inl rfl
  · decide +kernel

theorem exSome : (∀ i, i < (Arr.ofList [Fl.fin (0 : ℚ), Fl.fin 1, Fl.fin 3]).size → isFinite ((Arr.ofList [Fl.fin (0 : ℚ), Fl.fin 1, Fl.fin 3]).get i) = false ∨
      isFinite ((Arr.ofList [Fl.fin (5 : ℚ), Fl.fin 6, Fl.fin 6]).get i) = false) →
      ∀ i, i < exX.size → isFinite (exX.get i) = false ∨ isFinite (exY.get i) = false :=
  fun h => absurd (h 0 (by decide)) (by decide +kernel)

example (x : Fl ℚ) (d : ℕ) := linear_padding exFinite exPadded exSome x d

example (x : Fl ℚ) (d : ℕ) := pchip_padding exFinite (fun a b h => by
  show isNaN (Fl.add a b) = true
  cases a <;> cases b <;> simp_all [Fl.add]) exPadded exSome x d

/-! ## slopes -/

/-- the parabola `x² + x` -/
example : threePoint (1 - 0) (3 - 1) ((2 - 0) / (1 - 0)) ((12 - 2) / (3 - 1)) = (2 * 1 * 0 + 1 : ℚ) :=
  threePoint_parabola (x0 := 0) (x1 := 1) (x2 := 3) (y0 := 0) (y1 := 2) (y2 := 12) (A := 1) (C := 1) (D := 0)
    (by norm_num) (by norm_num) (by norm_num) (by norm_num) (by norm_num) (by norm_num) (by norm_num)

/-! ## double precision -/

open Rounding53 in
example := linear_rounded rnd53_std rBlock (1 / 3)

open Rounding53 in
example : linearInterp1 (Rfl.fin 0) rX rY 0 = some (Rfl.fin 5) := (linear_rounded_first_partial rnd53_std rBlock (by decide +kernel)).2

open Rounding53 in
example := linear_rounded_site_partial rnd53_std rBlock (j := 3) (by omega) (by omega)

open Rounding53 in
example := pchip_rounded rnd53_std rBlock

open Rounding53 in
example : ∃ C, pchipCoeffs1 rX rY = some C ∧ ∀ x d, pchipInterp1 x rX rY d = some (ppval1 x rX C d) :=
  pchip_rounded_onthefly rnd53_std rBlock
    (fun i _ => by by_cases h : i = 0 <;> simp [rX, h]) (fun i _ => Or.inr ⟨_, rfl⟩)

end Interp

namespace Traj
open FloatLike Interp VertSolve
open Fl hiding nan

theorem exUp : ∀ i, 1 ≤ i → i + 1 < 4 → (if i = 1 then 35 else if i = 2 then 36 else 37 : ℝ) ≤ if i + 1 = 1 then 35 else if i + 1 = 2 then 36 else 37 := by
  intro i h1 h2
  have : i = 1 ∨ i = 2 := by omega
  rcases this with rfl | rfl <;> norm_num

theorem exDown : ∀ i, 1 ≤ i → i + 1 < 4 → (if i + 1 = 1 then 5 else if i + 1 = 2 then 4 else 3 : ℝ) ≤ if i = 1 then 5 else if i = 2 then 4 else 3 := by
  intro i h1 h2
  have : i = 1 ∨ i = 2 := by omega
  rcases this with rfl | rfl <;> norm_num

/-- salinity between two bottles -/
example := piece_mono .pchip exGood.S 1 (by omega) (by omega) (1 / 3) (2 / 3) (by norm_num) (by norm_num) (by norm_num)

/-- salinity increases downwards -/
example {v v' : ℝ} (h : interpAt .pchip (fin (1 / 3)) exCast.P exCast.S = some (fin v)) (h' : interpAt .pchip (fin 2) exCast.P exCast.S = some (fin v')) : v ≤ v' :=
  interp_mono .pchip exGood.S exUp (by norm_num) (by norm_num) (by norm_num) h h'

/-- temperature decreases downwards -/
example {v v' : ℝ} (h : interpAt .pchip (fin (1 / 3)) exCast.P exCast.T = some (fin v)) (h' : interpAt .pchip (fin 2) exCast.P exCast.T = some (fin v')) : v' ≤ v :=
  interp_anti .pchip exGood.T exDown (by norm_num) (by norm_num) (by norm_num) h h'

/-- anomaly surfaces of the example cast -/
example := anomaly_order .pchip exEos exGood (fun i _ _ => by split_ifs <;> norm_num) (tol := 1/100) (refS := 35) (refT := 5) (by norm_num) (by norm_num) 600 (by norm_num)
  (stable_of_monotone .pchip exGood exUp exDown (fun s t p s' t' p' _ _ _ => by linarith))

end Traj

namespace Gufunc
open FloatLike Interp Lib

/-- three values interpolated in each of two casts -/
example (X Y x : Nd (Fl ℚ)) (d : Nd ℕ) (hX : X.shape = [2, 1, 4]) (hY : Y.shape = [2, 1, 4]) (hx : x.shape = [3]) (hd : d.shape = []) {y : Nd (Fl ℚ)}
    (h : linearInterp x X Y d = .ok y) : Broadcast [[3], [2, 1], [2, 1], []] y.shape := by
  obtain ⟨n, _, _, hb, _⟩ := linear_interp_spec h
  rw [hx, hX, hY, hd] at hb
  exact hb

/-- coefficients of two casts with the same pressures -/
example (X Y : Nd (Fl ℚ)) (hX : X.shape = [4]) (hY : Y.shape = [2, 4]) : ∃ C, coeffsU (fun X Y => some (linearCoeffs1 X Y)) 2 X Y = .ok C ∧ C.shape = [2, 4, 2] :=
  coeffsU_returns (c := [2]) (by rw [hX]; rfl) (by rw [hY]; rfl) (by rw [hX, hY, ← bshapes_spec]; rfl) (by simp)

example (x X C : Nd (Fl ℚ)) (d : Nd ℕ) (hx : x.shape = [5]) (hX : X.shape = [3]) (hC : C.shape = [5, 3, 2]) (hd : d.shape = []) :
    ∃ y, ppvalU x X C d = .ok y ∧ y.shape = [5] := by
  obtain ⟨y, h1, h2, _⟩ := ppvalU_returns (n := 3) (m := 2) (c := [5]) (r := [5]) (by rw [hX]; rfl) hC (by rw [hx, hX, hd, ← bshapes_spec]; rfl)
  exact ⟨y, h1, h2⟩

example (s t p : Nd (Fl ℚ)) (hs : s.shape = [2, 3]) (ht : t.shape = [2, 3]) (hp : p.shape = []) :
    ∃ y, vectorizeEos (fun s t p => some (s + t * p)) s t p = .ok y ∧ y.shape = [2, 3] :=
  vectorizeEos_returns (by rw [hs, ht, hp, ← bshapes_spec]; rfl) (by simp)

end Gufunc

namespace MakePP

example : makePP ⟨"pchip", "1", "coeffs", false, 1⟩ ≠ makePP ⟨"pchip", "1", "coeffs", true, 1⟩ := fun h => by
  have := (make_pp_injective _ _ (by simp [Accepts]) (by simp [Accepts])).1 h
  simp at this

example : ∃ name, makePP ⟨"linear", "1", "interp", true, 2⟩ = .ok ("linear", name) ∧ (required name : Int) = 4 :=
  optional_order_partial ⟨"linear", "1", "interp", true, 2⟩ (by simp [Accepts]) rfl (Or.inr rfl)

end MakePP
