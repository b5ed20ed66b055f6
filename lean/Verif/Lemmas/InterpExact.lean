import Verif.Lemmas.Interp
import Mathlib.Algebra.Polynomial.Derivative
import Mathlib.Data.Nat.Factorial.Basic
import Mathlib.Data.Sign.Basic
import Mathlib.Tactic.FieldSimp
import Mathlib.Tactic.Positivity

set_option linter.unusedSectionVars false

namespace Interp
open FloatLike
open Fl hiding nan

variable {α : Type*} [Field α] [LinearOrder α] [IsStrictOrderedRing α]

/-! ### Polynomials -/

/-- The polynomial with the given coefficients, highest power first. -/
noncomputable def polyOf (C : List α) : Polynomial α :=
  ∑ o ∈ Finset.range C.length, Polynomial.C (C.getD o 0) * Polynomial.X ^ (C.length - 1 - o)

theorem polyOf_append (C : List α) (c : α) :
    polyOf (C ++ [c]) = polyOf C * Polynomial.X + Polynomial.C c := by
  unfold polyOf
  rw [List.length_append, List.length_singleton, Finset.sum_range_succ, Finset.sum_mul]
  congr 1
  · apply Finset.sum_congr rfl
    intro o ho
    rw [Finset.mem_range] at ho
    rw [List.getD_eq_getElem?_getD, List.getElem?_append_left ho, ← List.getD_eq_getElem?_getD, mul_assoc, ← pow_succ]
    congr 2
    omega
  · simp

theorem horner_eval (x : α) (C : List α) :
    C.foldl (fun y c => y * x + c) 0 = (polyOf C).eval x := by
  induction C using List.reverseRecOn with
  | nil => simp [polyOf]
  | append_singleton C c ih =>
    rw [List.foldl_append, polyOf_append, ih]
    simp

theorem foldl_fin (x : α) (C : List α) (y0 : α) :
    (C.map Fl.fin).foldl (fun y c => y * Fl.fin x + c) (Fl.fin y0)
      = Fl.fin (C.foldl (fun y c => y * x + c) y0) := by
  induction C generalizing y0 with
  | nil => rfl
  | cons c C ih => simp [ih]

theorem foldl_prod (d : ℕ) : ∀ (s : ℕ) (p : α),
    (List.range' s d).foldl (fun p (a : ℕ) => p * Fl.fin (a : α)) (Fl.fin p)
      = Fl.fin (p * (s.ascFactorial d : α)) := by
  induction d with
  | zero => intro s p; simp
  | succ d ih =>
    intro s p
    rw [List.range'_succ, List.foldl_cons, fin_mul, ih]
    congr 1
    rw [mul_assoc]
    congr 1
    have := Nat.succ_ascFactorial s d
    rw [Nat.ascFactorial_succ]
    have h : (s + d) * s.ascFactorial d = s * (s + 1).ascFactorial d := by
      rw [show s + 1 = s.succ from rfl, this]
    rw [h]; push_cast; ring

theorem multiplier_fin (n o d : ℕ) (h : o + d < n) (hd : 0 < d) :
    (multiplier n o d : Fl α) = Fl.fin (((n - 1 - o).descFactorial d : ℕ) : α) := by
  unfold multiplier
  have e : (fun (p : Fl α) (a : ℕ) => p * FloatLike.lit (a : ℚ)) = fun p (a : ℕ) => p * Fl.fin (a : α) := by
    funext p a; simp
  rw [e, lit_eq, Rat.cast_one, foldl_prod, one_mul]
  congr 2
  obtain ⟨m, hm⟩ : ∃ m, n - o - d = m + 1 := ⟨n - o - d - 1, by omega⟩
  rw [hm]
  rw [show n - 1 - o = m + d by omega, Nat.add_descFactorial_eq_ascFactorial]

theorem polyOf_deriv (C : List α) (d : ℕ) (hd : 0 < d) :
    Polynomial.derivative^[d] (polyOf C) =
      polyOf ((C.take (C.length - d)).zipIdx.map
        (fun co => co.1 * (((C.length - 1 - co.2).descFactorial d : ℕ) : α))) := by
  unfold polyOf
  simp only [List.length_map, List.length_zipIdx, List.length_take]
  rw [Polynomial.iterate_derivative_sum]
  have hsub : Finset.range (min (C.length - d) C.length) ⊆ Finset.range C.length := by
    apply Finset.range_subset_range.mpr; omega
  rw [← Finset.sum_subset hsub]
  · apply Finset.sum_congr rfl
    intro o ho
    rw [Finset.mem_range] at ho
    rw [Polynomial.iterate_derivative_C_mul, Polynomial.iterate_derivative_X_pow_eq_C_mul]
    rw [← mul_assoc, ← Polynomial.C_mul]
    have e1 : C.length - 1 - o - d = min (C.length - d) C.length - 1 - o := by omega
    rw [e1]
    congr 2
    have hlt : o < C.length := by omega
    have hlt2 : o < C.length - d := by omega
    rw [List.getD_eq_getElem?_getD, List.getD_eq_getElem?_getD]
    simp [hlt, hlt2]
  · intro o ho hn
    rw [Finset.mem_range] at ho hn
    rw [Polynomial.iterate_derivative_C_mul, Polynomial.iterate_derivative_X_pow_eq_C_mul]
    have : (C.length - 1 - o).descFactorial d = 0 := by
      rw [Nat.descFactorial_eq_zero_iff_lt]; omega
    rw [this]; simp

/-- **C16 core** `pval` computes the `d`-th derivative. -/
theorem pval_fin (x : α) (C : List α) (d : ℕ) :
    pval (Fl.fin x) (C.map Fl.fin) d = Fl.fin ((Polynomial.derivative^[d] (polyOf C)).eval x) := by
  unfold pval
  split_ifs with h
  · subst h
    rw [lit_eq, Rat.cast_zero, foldl_fin, horner_eval]; rfl
  · have hd : 0 < d := Nat.pos_of_ne_zero h
    rw [polyOf_deriv C d hd, ← horner_eval, List.length_map, ← List.map_take, lit_eq, Rat.cast_zero]
    rw [← foldl_fin, List.map_map]
    rw [List.zipIdx_map, List.foldl_map, List.foldl_map]
    apply List.foldl_ext
    intro y co hco
    have hidx : co.2 + d < C.length := by
      have := List.snd_lt_of_mem_zipIdx hco
      rw [List.length_take] at this
      omega
    simp [multiplier_fin _ _ _ hidx hd]

/-! ### Pieces -/

/-- On sorted data the chosen piece contains `x`. -/
theorem pieceIndex_bracket {X : Arr (Fl α)} {a : ℕ → α} {k K : ℕ} {x : α}
    (hX : ∀ i, k ≤ i → i < K → X.get i = Fl.fin (a i))
    (hinc : ∀ i j, k ≤ i → i ≤ j → j < K → a i ≤ a j)
    (h : outside X k K (Fl.fin x) = false) :
    k ≤ pieceIndex X k K (Fl.fin x) ∧ pieceIndex X k K (Fl.fin x) + 2 ≤ K ∧
    a (pieceIndex X k K (Fl.fin x)) ≤ x ∧ x ≤ a (pieceIndex X k K (Fl.fin x) + 1) ∧
    (pieceIndex X k K (Fl.fin x) = k ∨ a (pieceIndex X k K (Fl.fin x)) < x) := by
  obtain ⟨h1, h2⟩ := pieceIndex_range' X k K _ h
  unfold outside at h
  simp only [Bool.or_eq_false_iff, decide_eq_false_iff_not] at h
  obtain ⟨⟨⟨h3, _⟩, h4⟩, h5⟩ := h
  rw [hX k (le_refl _) (by omega), lt_fin] at h4
  rw [hX (K - 1) (by omega) (by omega), lt_fin] at h5
  simp only [decide_eq_false_iff_not, not_lt] at h4 h5
  refine ⟨h1, h2, ?_⟩
  have hs : searchsorted (X.slice k K) (Fl.fin x)
      = bsearch (fun i => Fl.fin (a (k + i))) (Fl.fin x) (K - k) 0 (K - k) := by
    unfold searchsorted
    apply bsearch_congr
    intro i _ hi
    exact hX (k + i) (by omega) (by have : i < K - k := hi; omega)
  obtain ⟨e1, e2⟩ := bsearch_sorted (a := fun i => a (k + i)) (x := x) (K - k) 0 (K - k) (Nat.zero_le _) (by omega)
    (fun i j _ h7 h8 => hinc _ _ (by omega) (by omega) (by omega))
  rw [← hs] at e1 e2
  have hp : pieceIndex X k K (Fl.fin x) = max k (searchsorted (X.slice k K) (Fl.fin x) + k - 1) := rfl
  generalize searchsorted (X.slice k K) (Fl.fin x) = s at e1 e2 hp
  rw [hp] at h1 h2 ⊢
  by_cases hs0 : s ≤ 1
  · have hmax : max k (s + k - 1) = k := by omega
    rw [hmax]
    refine ⟨h4, ?_, Or.inl rfl⟩
    by_cases hs00 : s = 0
    · exact le_trans (e2 0 (by omega) (by omega)) (hinc _ _ (by omega) (by omega) (by omega))
    · exact e2 1 (by omega) (by omega)
  · have hmax : max k (s + k - 1) = k + (s - 1) := by omega
    rw [hmax]
    rw [hmax] at h2
    have h8 := e1 (s - 1) (by omega) (by omega)
    refine ⟨h8.le, ?_, Or.inr h8⟩
    have := e2 s (le_refl _) (by omega)
    rwa [show k + (s - 1) + 1 = k + s by omega]

/-- The part of the data that interpolation uses: the first contiguous valid block `k:K` of the pair
`(X, Y)`, with at least two sites, all finite, `X` strictly increasing. -/
structure Block (X Y : Arr (Fl α)) (k K : ℕ) (a y : ℕ → α) : Prop where
  size : X.size = Y.size
  vr : validRange2 X Y = (k, K)
  two : k + 2 ≤ K
  hX : ∀ i, k ≤ i → i < K → X.get i = Fl.fin (a i)
  hY : ∀ i, k ≤ i → i < K → Y.get i = Fl.fin (y i)
  inc : ∀ i, k ≤ i → i + 1 < K → a i < a (i + 1)

theorem Block.mono {X Y : Arr (Fl α)} {k K : ℕ} {a y : ℕ → α} (B : Block X Y k K a y) :
    ∀ i j, k ≤ i → i ≤ j → j < K → a i ≤ a j := by
  intro i j h1 h2 h3
  induction j, h2 using Nat.le_induction with
  | base => exact le_refl _
  | succ j h ih => exact le_trans (ih (by omega)) (B.inc j (by omega) h3).le

theorem Block.smono {X Y : Arr (Fl α)} {k K : ℕ} {a y : ℕ → α} (B : Block X Y k K a y) :
    ∀ i j, k ≤ i → i < j → j < K → a i < a j := by
  intro i j h1 h2 h3
  exact lt_of_lt_of_le (B.inc i h1 (by omega)) (B.mono (i + 1) j (by omega) h2 h3)

theorem Block.K_le {X Y : Arr (Fl α)} {k K : ℕ} {a y : ℕ → α} (B : Block X Y k K a y) : K ≤ X.size := by
  have : K = (validRange2 X Y).2 := by rw [B.vr]
  rw [this]; exact firstFrom_le _ _ _

theorem Block.outside_iff {X Y : Arr (Fl α)} {k K : ℕ} {a y : ℕ → α} (B : Block X Y k K a y) (x : α) :
    outside X k K (Fl.fin x) = false ↔ a k ≤ x ∧ x ≤ a (K - 1) := by
  have h2 := B.two
  unfold outside
  rw [B.hX k (le_refl _) (by omega), B.hX (K - 1) (by omega) (by omega)]
  simp only [isNaN_fin, lt_fin, Bool.or_eq_false_iff, decide_eq_false_iff_not, not_lt]
  constructor
  · rintro ⟨⟨_, h⟩, h'⟩; exact ⟨h, h'⟩
  · rintro ⟨h, h'⟩; exact ⟨⟨⟨by omega, trivial⟩, h⟩, h'⟩

/-- Uniqueness of the piece, except at a knot where the left piece is used. -/
theorem Block.piece_eq {X Y : Arr (Fl α)} {k K : ℕ} {a y : ℕ → α} (B : Block X Y k K a y) {x : α} {i : ℕ}
    (hi : k ≤ i) (hiK : i + 2 ≤ K) (h1 : a i ≤ x) (h2 : x ≤ a (i + 1)) :
    (pieceIndex X k K (Fl.fin x) = i) ∨ (x = a i ∧ k < i ∧ pieceIndex X k K (Fl.fin x) = i - 1) := by
  have ho : outside X k K (Fl.fin x) = false :=
    (B.outside_iff x).mpr ⟨le_trans (B.mono k i (le_refl _) hi (by omega)) h1,
      le_trans h2 (B.mono (i + 1) (K - 1) (by omega) (by omega) (by omega))⟩
  obtain ⟨e1, e2, e3, e4, e5⟩ := pieceIndex_bracket B.hX B.mono ho
  generalize pieceIndex X k K (Fl.fin x) = j at *
  rcases lt_trichotomy i j with h | h | h
  · exfalso
    have h6 := B.mono (i + 1) j (by omega) h (by omega)
    rcases e5 with h7 | h7
    · omega
    · exact absurd (lt_of_le_of_lt h6 h7) (not_lt.mpr h2)
  · exact Or.inl h.symm
  · right
    have h6 := B.mono (j + 1) i (by omega) h (by omega)
    have hx : x = a i := le_antisymm (le_trans e4 h6) h1
    refine ⟨hx, by omega, ?_⟩
    by_contra hne
    have : a (j + 1) < a i := B.smono _ _ (by omega) (by omega) (by omega)
    rw [hx] at e4
    exact absurd this (not_lt.mpr e4)

end Interp
