import Verif.Lemmas.Scale
import Verif.Model.Traj
import Mathlib.Tactic.FieldSimp

/-! # Interpolation in other units -/

set_option linter.unusedSectionVars false

namespace Fl
open FloatLike
variable {α : Type*} [Field α] [LinearOrder α] [IsStrictOrderedRing α]

theorem sc_sc {a b : α} (ha : 0 < a) (hb : 0 < b) (x : Fl α) : sc a (sc b x) = sc (a * b) x := by
  cases x <;> simp [sc_pinf ha, sc_pinf hb, sc_pinf (mul_pos ha hb), sc_ninf ha, sc_ninf hb, sc_ninf (mul_pos ha hb), mul_assoc]

theorem sc_one (x : Fl α) : sc 1 x = x := by
  cases x <;> simp [sc_pinf, sc_ninf]

theorem sc_mul_sc {a b : α} (ha : 0 < a) (hb : 0 < b) (x y : Fl α) : sc a x * sc b y = sc (a * b) (x * y) := by
  rw [sc_mul ha, mul_sc hb, sc_sc ha hb]

theorem div_sc {b : α} (hb : 0 < b) (x y : Fl α) : x / sc b y = sc b⁻¹ (x / y) := by
  have h : x = sc b (sc b⁻¹ x) := by rw [sc_sc hb (inv_pos.mpr hb), mul_inv_cancel₀ hb.ne', sc_one]
  conv_lhs => rw [h]
  rw [sc_div_sc hb, sc_div (inv_pos.mpr hb)]

theorem sc_div_sc' {a b : α} (ha : 0 < a) (hb : 0 < b) (x y : Fl α) : sc a x / sc b y = sc (a / b) (x / y) := by
  rw [sc_div ha, div_sc hb, sc_sc ha (inv_pos.mpr hb), div_eq_mul_inv]

theorem sc_sign {k : α} (hk : 0 < k) (x : Fl α) : sign (sc k x) = sign x := by
  unfold sign
  simp only [lit_eq, Rat.cast_zero, sc_lt_zero hk, sc_zero_lt hk, sc_feq_zero hk]

/-- `x` in other units: times `a` plus `b` -/
def aff (a b : α) (x : Fl α) : Fl α := sc a x + fin b

section
variable {a b : α}
@[simp] theorem aff_fin (x : α) : aff a b (fin x) = fin (a * x + b) := rfl
@[simp] theorem aff_nan : aff a b (nan : Fl α) = nan := rfl
theorem aff_pinf (ha : 0 < a) : aff a b (pinf : Fl α) = pinf := by unfold aff; rw [sc_pinf ha]; rfl
theorem aff_ninf (ha : 0 < a) : aff a b (ninf : Fl α) = ninf := by unfold aff; rw [sc_ninf ha]; rfl

theorem aff_isNaN (ha : 0 < a) (x : Fl α) : isNaN (aff a b x) = isNaN x := by
  cases x <;> simp [aff_pinf ha, aff_ninf ha]
theorem aff_isFinite (ha : 0 < a) (x : Fl α) : isFinite (aff a b x) = isFinite x := by
  cases x <;> simp [aff_pinf ha, aff_ninf ha]

theorem aff_sub (ha : 0 < a) (x y : Fl α) : aff a b x - aff a b y = sc a (x - y) := by
  cases x <;> cases y <;> simp only [aff_fin, aff_nan, aff_pinf ha, aff_ninf ha, fin_sub, nan_sub, sub_nan, sc_nan, sc_fin]
  case fin.fin x y => congr 1; ring
  all_goals first | rfl | exact (sc_pinf ha).symm | exact (sc_ninf ha).symm

theorem sc_add_aff (ha : 0 < a) (x y : Fl α) : sc a x + aff a b y = aff a b (x + y) := by
  cases x <;> cases y <;> simp only [sc_fin, sc_nan, sc_pinf ha, sc_ninf ha, aff_fin, aff_nan, aff_pinf ha, aff_ninf ha, fin_add, nan_add, add_nan]
  case fin.fin x y => congr 1; ring
  all_goals first | rfl | exact (aff_pinf ha).symm | exact (aff_ninf ha).symm

theorem aff_add_sc (ha : 0 < a) (x y : Fl α) : aff a b x + sc a y = aff a b (x + y) := by
  cases x <;> cases y <;> simp only [sc_fin, sc_nan, sc_pinf ha, sc_ninf ha, aff_fin, aff_nan, aff_pinf ha, aff_ninf ha, fin_add, nan_add, add_nan]
  case fin.fin x y => congr 1; ring
  all_goals first | rfl | exact (aff_pinf ha).symm | exact (aff_ninf ha).symm

theorem aff_mid (ha : 0 < a) (x y : Fl α) : lit (1/2) * (aff a b x + aff a b y) = aff a b (lit (1/2) * (x + y)) := by
  have h0 : (0 : α) < ((1/2 : ℚ) : α) := by norm_num
  have e : ∀ z : Fl α, (lit (1/2) : Fl α) * z = sc ((1/2 : ℚ) : α) z := fun _ => rfl
  rw [e, e]
  cases x <;> cases y <;> simp only [aff_fin, aff_nan, aff_pinf ha, aff_ninf ha, fin_add, nan_add, add_nan, sc_nan, sc_fin]
  case fin.fin x y => congr 1; push_cast; ring
  all_goals
    first
    | (show sc ((1/2 : ℚ) : α) pinf = aff a b (sc ((1/2 : ℚ) : α) pinf); rw [sc_pinf h0, aff_pinf ha])
    | (show sc ((1/2 : ℚ) : α) ninf = aff a b (sc ((1/2 : ℚ) : α) ninf); rw [sc_ninf h0, aff_ninf ha])
    | rfl

theorem aff_lt (ha : 0 < a) (x y : Fl α) : lt (aff a b x) (aff a b y) = lt x y := by
  cases x <;> cases y <;> simp only [aff_fin, aff_nan, aff_pinf ha, aff_ninf ha] <;> try rfl
  simp [ha]

theorem isNaN_sc_add_aff {h : α} (hh : 0 < h) (ha : 0 < a) (x y : Fl α) : isNaN (sc h x + aff a b y) = isNaN (x + y) := by
  cases x <;> cases y <;> simp only [sc_fin, sc_nan, sc_pinf hh, sc_ninf hh, aff_fin, aff_nan, aff_pinf ha, aff_ninf ha] <;> rfl

end
end Fl

/-- the array with `g` applied to the entries -/
def Arr.map {A B : Type*} (g : A → B) (X : Arr A) : Arr B := ⟨X.size, fun i => g (X.get i)⟩

namespace Interp
open FloatLike
open Fl hiding nan
variable {α : Type*} [Field α] [LinearOrder α] [IsStrictOrderedRing α]

/-- a row of coefficients, of a polynomial in `x`, in other units of `x` (`h`) and of the value (`a`, `b`) -/
def scRow (h a b : α) : List (Fl α) → List (Fl α)
  | [] => []
  | [c] => [aff a b c]
  | c :: d :: r => sc (a / h ^ (r.length + 1)) c :: scRow h a b (d :: r)

/-- a table of coefficients in other units -/
def scPPC (h a b : α) (C : PPC (Fl α)) : PPC (Fl α) := ⟨C.size, fun i => scRow h a b (C.row i)⟩

theorem scRow_length (h a b : α) : ∀ C : List (Fl α), (scRow h a b C).length = C.length
  | [] => rfl
  | [_] => rfl
  | _ :: d :: r => by simp [scRow, scRow_length h a b (d :: r)]

theorem scRow_last (h a b : α) : ∀ C : List (Fl α), (scRow h a b C).getLast?.getD nan = aff a b (C.getLast?.getD nan)
  | [] => rfl
  | [_] => rfl
  | c :: d :: r => by
    have := scRow_last h a b (d :: r)
    simp only [scRow, List.getLast?_cons_cons]
    cases hr : scRow h a b (d :: r) with
    | nil => have := scRow_length h a b (d :: r); rw [hr] at this; simp at this
    | cons y l => rw [List.getLast?_cons_cons, ← hr]; exact this

variable {h a b : α} (hh : 0 < h) (ha : 0 < a)
include hh ha

theorem horner_sc (x : Fl α) : ∀ (C : List (Fl α)) (y : Fl α), C ≠ [] →
    (scRow h a b C).foldl (fun y c => y * sc h x + c) (sc (a / h ^ C.length) y) = aff a b (C.foldl (fun y c => y * x + c) y)
  | [], _, hC => absurd rfl hC
  | [c], y, _ => by
    show sc (a / h ^ 1) y * sc h x + aff a b c = aff a b (y * x + c)
    rw [pow_one, sc_mul_sc (div_pos ha hh) hh, div_mul_cancel₀ _ hh.ne', sc_add_aff ha]
  | c :: d :: r, y, _ => by
    have hp : ∀ n : ℕ, (0 : α) < a / h ^ n := fun n => div_pos ha (pow_pos hh n)
    have e : a / h ^ (r.length + 1 + 1) * h = a / h ^ (r.length + 1) := by
      rw [pow_succ h (r.length + 1)]
      field_simp
    show (scRow h a b (d :: r)).foldl _ (sc (a / h ^ (r.length + 1 + 1)) y * sc h x + sc (a / h ^ (r.length + 1)) c) = _
    rw [sc_mul_sc (hp _) hh, e, sc_add (hp _)]
    exact horner_sc x (d :: r) (y * x + c) (by simp)

theorem pval_sc (x : Fl α) (C : List (Fl α)) (hC : C ≠ []) : pval (sc h x) (scRow h a b C) 0 = aff a b (pval x C 0) := by
  unfold pval
  simp only [if_true]
  rw [← horner_sc hh ha x C (lit 0) hC]
  simp

omit ha in
theorem bsearch_sc (X : ℕ → Fl α) (x : Fl α) : ∀ n lo hi, bsearch (fun i => sc h (X i)) (sc h x) n lo hi = bsearch X x n lo hi
  | 0, _, _ => rfl
  | n + 1, lo, hi => by
    unfold bsearch
    simp only [sc_lt hh, bsearch_sc X x n]

omit ha in
theorem searchsorted_sc (X : Arr (Fl α)) (x : Fl α) : searchsorted (X.map (sc h)) (sc h x) = searchsorted X x := bsearch_sc hh _ _ _ _ _

omit [IsStrictOrderedRing α] hh ha in
theorem slice_map {A B : Type*} (g : A → B) (X : Arr A) (k K : ℕ) : (X.map g).slice k K = (X.slice k K).map g := rfl

omit ha in
theorem pieceIndex_sc (X : Arr (Fl α)) (k K : ℕ) (x : Fl α) : pieceIndex (X.map (sc h)) k K (sc h x) = pieceIndex X k K x := by
  unfold pieceIndex
  rw [slice_map, searchsorted_sc hh]

omit ha in
theorem outside_sc (X : Arr (Fl α)) (k K : ℕ) (x : Fl α) : outside (X.map (sc h)) k K (sc h x) = outside X k K x := by
  unfold outside Arr.map
  simp only [sc_isNaN hh, sc_lt hh]

theorem validRange2_sc (X Y : Arr (Fl α)) : validRange2 (X.map (sc h)) (Y.map (aff a b)) = validRange2 X Y := by
  unfold validRange2 Arr.map
  simp only [sc_isNaN hh, sc_isFinite hh, aff_isNaN ha, aff_isFinite ha]

theorem validRange2_aff (X Y : Arr (Fl α)) : validRange2 (Y.map (aff a b)) (X.map (sc h)) = validRange2 Y X := by
  unfold validRange2 Arr.map
  simp only [sc_isNaN hh, sc_isFinite hh, aff_isNaN ha, aff_isFinite ha]

theorem validRange_add_sc (X Y : Arr (Fl α)) (n : ℕ) : validRange ⟨n, fun i => aff a b (Y.get i) + sc h (X.get i)⟩ =
    validRange ⟨n, fun i => Y.get i + X.get i⟩ := by
  have h1 : ∀ x y : Fl α, isNaN (aff a b y + sc h x) = isNaN (y + x) := by
    intro x y
    cases x <;> cases y <;> simp only [sc_fin, sc_nan, sc_pinf hh, sc_ninf hh, aff_fin, aff_nan, aff_pinf ha, aff_ninf ha] <;> rfl
  have h2 : ∀ x y : Fl α, isFinite (aff a b y + sc h x) = isFinite (y + x) := by
    intro x y
    cases x <;> cases y <;> simp only [sc_fin, sc_nan, sc_pinf hh, sc_ninf hh, aff_fin, aff_nan, aff_pinf ha, aff_ninf ha] <;> rfl
  unfold validRange
  simp only [h1, h2]

omit ha in
theorem diff_sc (X : Arr (Fl α)) (i : ℕ) : (diffSame (X.map (sc h))).get i = sc h ((diffSame X).get i) := by
  unfold diffSame Arr.map
  dsimp only
  split_ifs
  · rfl
  · rw [sc_sub hh]

omit hh in
theorem diff_aff (X : Arr (Fl α)) (i : ℕ) : (diffSame (X.map (aff a b))).get i = sc a ((diffSame X).get i) := by
  unfold diffSame Arr.map
  dsimp only
  split_ifs
  · rfl
  · rw [aff_sub ha]

omit hh ha in
theorem sdiv_sc {a b : α} (ha : 0 < a) (hb : 0 < b) (x y : Fl α) : sdiv (sc a x) (sc b y) = (sdiv x y).map (sc (a / b)) := by
  unfold sdiv
  simp only [lit_eq, Rat.cast_zero, sc_feq_zero hb, sc_div_sc' ha hb]
  split_ifs <;> rfl

theorem linearCoeffs1_sc (X Y : Arr (Fl α)) : linearCoeffs1 (X.map (sc h)) (Y.map (aff a b)) = scPPC h a b (linearCoeffs1 X Y) := by
  unfold linearCoeffs1 scPPC
  have : ∀ i, (diffSame (Y.map (aff a b))).get i / (diffSame (X.map (sc h))).get i = sc (a / h ^ (0 + 1)) ((diffSame Y).get i / (diffSame X).get i) := by
    intro i
    rw [diff_sc hh, diff_aff ha, sc_div_sc' ha hh, zero_add, pow_one]
  simp only [this]
  rfl

theorem linearCoeffsI_sc (X Y : Arr (Fl α)) (i : ℕ) :
    linearCoeffsI (X.map (sc h)) (Y.map (aff a b)) i = (linearCoeffsI X Y i).map (scRow h a b) := by
  unfold linearCoeffsI Arr.map
  dsimp only
  rw [aff_sub ha, sc_sub hh, sdiv_sc ha hh]
  cases sdiv (Y.get (i + 1) - Y.get i) (X.get (i + 1) - X.get i) with
  | none => rfl
  | some c => simp [scRow]

variable {g : α} (hg : 0 < g)
include hg

omit ha in
theorem endSlope_sc (h0 h1 δ0 δ1 : Fl α) : endSlope (sc h h0) (sc h h1) (sc g δ0) (sc g δ1) = (endSlope h0 h1 δ0 δ1).map (sc g) := by
  unfold endSlope
  have e : h * g / h = g := by field_simp
  rw [mul_sc hh, sc_add hh, sc_mul_sc hh hg, sc_mul_sc hh hg, sc_sub (mul_pos hh hg), sc_add hh, sdiv_sc (mul_pos hh hg) hh, e]
  cases sdiv ((lit 2 * h0 + h1) * δ0 - h0 * δ1) (h0 + h1) with
  | none => rfl
  | some d =>
    simp only [Option.map_some, Option.bind_eq_bind, Option.bind_some, sc_sign hg, mul_sc hg, sc_abs hg, sc_lt hg, Option.pure_def]
    split_ifs <;> simp

omit ha in
theorem endSlopeR_sc (h0 h1 δ0 δ1 : Fl α) : endSlopeR (sc h h0) (sc h h1) (sc g δ0) (sc g δ1) = (endSlopeR h0 h1 δ0 δ1).map (sc g) := by
  unfold endSlopeR
  have e : h * g / h = g := by field_simp
  rw [mul_sc hh, sc_add hh, sc_mul_sc hh hg, sc_mul_sc hh hg, sc_sub (mul_pos hh hg), sc_add hh, sdiv_sc (mul_pos hh hg) hh, e]
  cases sdiv ((h0 + lit 2 * h1) * δ1 - h1 * δ0) (h0 + h1) with
  | none => rfl
  | some d =>
    simp only [Option.map_some, Option.bind_eq_bind, Option.bind_some, sc_sign hg, mul_sc hg, sc_abs hg, sc_lt hg, Option.pure_def]
    split_ifs <;> simp

omit ha in
theorem slope_sc (w1 w2 δ0 δ1 : Fl α) :
    ((sdiv (sc h w1) (sc g δ0)).bind fun q1 => (sdiv (sc h w2) (sc g δ1)).bind fun q2 => sdiv (sc h w1 + sc h w2) (q1 + q2)) =
    ((sdiv w1 δ0).bind fun q1 => (sdiv w2 δ1).bind fun q2 => sdiv (w1 + w2) (q1 + q2)).map (sc g) := by
  have e : h / (h / g) = g := by field_simp
  rw [sdiv_sc hh hg, sdiv_sc hh hg]
  cases sdiv w1 δ0 with
  | none => rfl
  | some q1 =>
    cases sdiv w2 δ1 with
    | none => rfl
    | some q2 =>
      simp only [Option.map_some, Option.bind_some]
      rw [sc_add hh, sc_add (div_pos hh hg), sdiv_sc hh (div_pos hh hg), e]

omit ha in
theorem midSlope_sc (h0 h1 δ0 δ1 : Fl α) : midSlope (sc h h0) (sc h h1) (sc g δ0) (sc g δ1) = (midSlope h0 h1 δ0 δ1).map (sc g) := by
  unfold midSlope
  simp only [sc_sign hg, mul_sc hh, sc_add hh (lit 2 * h0), sc_add hh h0]
  split_ifs
  · exact slope_sc hh hg _ _ _ _
  · simp

omit ha in
theorem midSlopeI_sc (h0 h1 δ0 δ1 : Fl α) : midSlopeI (sc h h0) (sc h h1) (sc g δ0) (sc g δ1) = (midSlopeI h0 h1 δ0 δ1).map (sc g) := by
  unfold midSlopeI
  simp only [sc_sign hg, mul_sc hh, sc_add hh (lit 2 * h1), sc_add hh h1]
  split_ifs
  · exact slope_sc hh hg _ _ _ _
  · simp

omit hg
theorem hermite_sc (h0 δ d0 d1 y : Fl α) : hermite (sc h h0) (sc (a / h) δ) (sc (a / h) d0) (sc (a / h) d1) (aff a b y) =
    (hermite h0 δ d0 d1 y).map (scRow h a b) := by
  have hg := div_pos ha hh
  have hg2 := div_pos hg hh
  unfold hermite
  rw [sc_sub hg, sc_sub hg, sdiv_sc hg hh, sdiv_sc hg hh]
  cases sdiv (δ - d0) h0 with
  | none => rfl
  | some q1 =>
    cases sdiv (d1 - δ) h0 with
    | none => rfl
    | some q2 =>
      simp only [Option.map_some, Option.bind_eq_bind, Option.bind_some]
      rw [sc_sub hg2, sdiv_sc hg2 hh]
      cases sdiv (q2 - q1) h0 with
      | none => rfl
      | some q3 =>
        simp only [Option.map_some, Option.bind_some, Option.pure_def, scRow, mul_sc hg2, sc_sub hg2, List.length_cons, List.length_nil]
        have e1 : a / h ^ (0 + 1 + 1 + 1) = a / h / h / h := by field_simp
        have e2 : a / h ^ (0 + 1 + 1) = a / h / h := by field_simp
        rw [e1, e2, zero_add, pow_one]

theorem slopeAt_sc (hX δ : ℕ → Fl α) (k K i : ℕ) :
    slopeAt (fun j => sc h (hX j)) (fun j => sc (a / h) (δ j)) k K i = (slopeAt hX δ k K i).map (sc (a / h)) := by
  have hg := div_pos ha hh
  unfold slopeAt
  rw [endSlope_sc hh hg, endSlope_sc hh hg, midSlope_sc hh hg]
  split_ifs <;> rfl

theorem pchipRow_sc (X Y : Arr (Fl α)) (k K i : ℕ) :
    pchipRow (X.map (sc h)) (Y.map (aff a b)) k K i = (pchipRow X Y k K i).map (scRow h a b) := by
  unfold pchipRow
  have e1 : (diffSame (X.map (sc h))).get = fun j => sc h ((diffSame X).get j) := funext (diff_sc hh X)
  have e2 : (fun j => (diffSame (Y.map (aff a b))).get j / (diffSame (X.map (sc h))).get j) =
      fun j => sc (a / h) ((diffSame Y).get j / (diffSame X).get j) := by
    funext j
    rw [diff_sc hh, diff_aff ha, sc_div_sc' ha hh]
  dsimp only
  rw [e2, e1, slopeAt_sc hh ha, slopeAt_sc hh ha]
  cases slopeAt (diffSame X).get (fun j => (diffSame Y).get j / (diffSame X).get j) k K i with
  | none => rfl
  | some d0 =>
    cases slopeAt (diffSame X).get (fun j => (diffSame Y).get j / (diffSame X).get j) k K (i + 1) with
    | none => rfl
    | some d1 =>
      simp only [Option.map_some, Option.bind_eq_bind, Option.bind_some]
      rw [diff_aff ha, sc_div_sc' ha hh]
      exact hermite_sc hh ha _ _ _ _ _

omit hh ha in
theorem scRow_blank (y : Fl α) : scRow h a b [nan, nan, nan, y] = [nan, nan, nan, aff a b y] := rfl

theorem pchipCoeffsAux_sc (X Y : Arr (Fl α)) (k K : ℕ) :
    pchipCoeffsAux (X.map (sc h)) (Y.map (aff a b)) k K = (pchipCoeffsAux X Y k K).map (scPPC h a b) := by
  unfold pchipCoeffsAux
  simp only [pchipRow_sc hh ha, Option.isSome_map]
  split_ifs with h1 h2 h3
  · simp only [Option.map_some, Option.some.injEq]
    unfold scPPC Arr.map
    dsimp only
    congr 1
    funext i
    split_ifs with hi
    · cases pchipRow X Y k K i <;> rfl
    · rfl
  · rfl
  · show (sdiv (aff a b (Y.get (k + 1)) - aff a b (Y.get k)) (sc h (X.get (k + 1)) - sc h (X.get k))).bind _ = _
    rw [aff_sub ha, sc_sub hh, sdiv_sc ha hh]
    cases sdiv (Y.get (k + 1) - Y.get k) (X.get (k + 1) - X.get k) with
    | none => rfl
    | some δ =>
      simp only [Option.map_some, Option.bind_some, Option.bind_eq_bind, Option.pure_def, Option.some.injEq]
      unfold scPPC Arr.map
      dsimp only
      congr 1
      funext i
      split_ifs with hi
      · simp [scRow]
      · rfl
  · rfl

theorem pchipCoeffsI_sc (X Y : Arr (Fl α)) (i : ℕ) :
    pchipCoeffsI (X.map (sc h)) (Y.map (aff a b)) i = (pchipCoeffsI X Y i).map (scRow h a b) := by
  have hg := div_pos ha hh
  unfold pchipCoeffsI
  have hE : decide (i = (X.map (sc h)).size - 2) = decide (i = X.size - 2) := rfl
  have gX : ∀ j, (X.map (sc h)).get j = sc h (X.get j) := fun _ => rfl
  have gY : ∀ j, (Y.map (aff a b)).get j = aff a b (Y.get j) := fun _ => rfl
  simp only [hE, gX, gY, isNaN_sc_add_aff hh ha, aff_sub ha, sc_sub hh, sdiv_sc ha hh]
  generalize (decide (i = 0) || isNaN (X.get (i - 1) + Y.get (i - 1))) = u
  generalize (decide (i = X.size - 2) || isNaN (X.get (i + 2) + Y.get (i + 2))) = v
  cases u <;> cases v <;> simp only [Bool.and_self, Bool.and_false, Bool.and_true, Bool.false_eq_true, if_true, if_false]
  case true.true =>
    cases sdiv (Y.get (i + 1) - Y.get i) (X.get (i + 1) - X.get i) with
    | none => rfl
    | some c => simp [scRow]
  case true.false =>
    cases sdiv (Y.get (i + 1) - Y.get i) (X.get (i + 1) - X.get i) with
    | none => rfl
    | some δ1 =>
      cases sdiv (Y.get (i + 2) - Y.get (i + 1)) (X.get (i + 2) - X.get (i + 1)) with
      | none => rfl
      | some δ2 =>
        simp only [Option.map_some, Option.bind_eq_bind, Option.bind_some, endSlope_sc hh hg, midSlopeI_sc hh hg]
        cases endSlope (X.get (i + 1) - X.get i) (X.get (i + 2) - X.get (i + 1)) δ1 δ2 with
        | none => rfl
        | some d0 =>
          cases midSlopeI (X.get (i + 1) - X.get i) (X.get (i + 2) - X.get (i + 1)) δ1 δ2 with
          | none => rfl
          | some d1 => exact hermite_sc hh ha _ _ _ _ _
  case false.true =>
    cases sdiv (Y.get i - Y.get (i - 1)) (X.get i - X.get (i - 1)) with
    | none => rfl
    | some δ0 =>
      cases sdiv (Y.get (i + 1) - Y.get i) (X.get (i + 1) - X.get i) with
      | none => rfl
      | some δ1 =>
        simp only [Option.map_some, Option.bind_eq_bind, Option.bind_some, endSlopeR_sc hh hg, midSlopeI_sc hh hg]
        cases midSlopeI (X.get i - X.get (i - 1)) (X.get (i + 1) - X.get i) δ0 δ1 with
        | none => rfl
        | some d0 =>
          cases endSlopeR (X.get i - X.get (i - 1)) (X.get (i + 1) - X.get i) δ0 δ1 with
          | none => rfl
          | some d1 => exact hermite_sc hh ha _ _ _ _ _
  case false.false =>
    cases sdiv (Y.get i - Y.get (i - 1)) (X.get i - X.get (i - 1)) with
    | none => rfl
    | some δ0 =>
      cases sdiv (Y.get (i + 1) - Y.get i) (X.get (i + 1) - X.get i) with
      | none => rfl
      | some δ1 =>
        cases sdiv (Y.get (i + 2) - Y.get (i + 1)) (X.get (i + 2) - X.get (i + 1)) with
        | none => rfl
        | some δ2 =>
          simp only [Option.map_some, Option.bind_eq_bind, Option.bind_some, midSlopeI_sc hh hg]
          cases midSlopeI (X.get i - X.get (i - 1)) (X.get (i + 1) - X.get i) δ0 δ1 with
          | none => rfl
          | some d0 =>
            cases midSlopeI (X.get (i + 1) - X.get i) (X.get (i + 2) - X.get (i + 1)) δ1 δ2 with
            | none => rfl
            | some d1 => exact hermite_sc hh ha _ _ _ _ _

theorem ppcFn_sc (kind : PPKind) (X Y : Arr (Fl α)) :
    Traj.ppcFn kind (X.map (sc h)) (Y.map (aff a b)) = (Traj.ppcFn kind X Y).map (scPPC h a b) := by
  cases kind with
  | linear => exact congrArg some (linearCoeffs1_sc hh ha X Y)
  | pchip => exact pchipCoeffsAux_sc hh ha X Y 0 X.size

end Interp
