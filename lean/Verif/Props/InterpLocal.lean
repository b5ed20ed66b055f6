import Verif.Lemmas.ColumnRound
import Verif.Props.InterpRound

/-!
# Interpolants are local (C176)

A bottle affects linear interpolation only between its neighbours, and PCHIP only between the bottles two away from it.
-/

set_option linter.unusedSectionVars false

namespace Interp
open FloatLike

section generic
variable {F : Type*} [FloatLike F] {X Y Y' : Arr F}

theorem ppinterp1_local {f : Arr F → Arr F → ℕ → Option (List F)} (hv : validRange2 X Y' = validRange2 X Y) {x : F}
    (h : outside X (validRange2 X Y).1 (validRange2 X Y).2 x = false →
      f X Y' (pieceIndex X (validRange2 X Y).1 (validRange2 X Y).2 x) = f X Y (pieceIndex X (validRange2 X Y).1 (validRange2 X Y).2 x)) (d : ℕ) :
    ppinterp1 f x X Y' d = ppinterp1 f x X Y d := by
  unfold ppinterp1
  rw [hv]
  dsimp only
  by_cases ho : outside X (validRange2 X Y).1 (validRange2 X Y).2 x = true
  · rw [if_pos ho, if_pos ho]
  · rw [if_neg ho, if_neg ho, h (by simpa using ho)]

theorem linearCoeffsI_local {i : ℕ} (h0 : Y'.get i = Y.get i) (h1 : Y'.get (i + 1) = Y.get (i + 1)) : linearCoeffsI X Y' i = linearCoeffsI X Y i := by
  unfold linearCoeffsI
  rw [h0, h1]

theorem pchipCoeffsI_local {i k K : ℕ} (hk : k ≤ i) (hK : i + 2 ≤ K) (hb : k = 0 ∨ isNaN (X.get (k - 1) + Y.get (k - 1)) = true ∧ isNaN (X.get (k - 1) + Y'.get (k - 1)) = true)
    (ha : K = X.size ∨ isNaN (X.get K + Y.get K) = true ∧ isNaN (X.get K + Y'.get K) = true)
    (h : ∀ j, k ≤ j → j < K → i ≤ j + 1 → j ≤ i + 2 → Y'.get j = Y.get j) : pchipCoeffsI X Y' i = pchipCoeffsI X Y i := by
  have h0 := h i hk (by omega) (by omega) (by omega)
  have h1 := h (i + 1) (by omega) (by omega) (by omega) (by omega)
  have eS : (decide (i = 0) || isNaN (X.get (i - 1) + Y'.get (i - 1))) = (decide (i = 0) || isNaN (X.get (i - 1) + Y.get (i - 1))) := by
    by_cases hi : i = k
    · subst hi
      rcases hb with rfl | ⟨hb, hb'⟩
      · simp
      · rw [hb, hb']
    · rw [h (i - 1) (by omega) (by omega) (by omega) (by omega)]
  have eE : (decide (i = X.size - 2) || isNaN (X.get (i + 2) + Y'.get (i + 2))) = (decide (i = X.size - 2) || isNaN (X.get (i + 2) + Y.get (i + 2))) := by
    by_cases hi : i + 2 = K
    · rcases ha with ha | ⟨ha, ha'⟩
      · rw [decide_eq_true (by omega : i = X.size - 2)]; rfl
      · rw [hi, ha, ha']
    · rw [h (i + 2) (by omega) (by omega) (by omega) (by omega)]
  by_cases c1 : (decide (i = 0) || isNaN (X.get (i - 1) + Y.get (i - 1))) = true
  · by_cases c2 : (decide (i = X.size - 2) || isNaN (X.get (i + 2) + Y.get (i + 2))) = true
    · unfold pchipCoeffsI
      simp only [eS, eE, c1, c2, Bool.and_self, if_true, h0, h1]
    · have hi : i + 2 < K := by
        by_contra hc
        have : i + 2 = K := by omega
        apply c2
        rcases ha with ha | ⟨ha, -⟩
        · rw [decide_eq_true (by omega : i = X.size - 2)]; rfl
        · rw [this, ha]; simp
      have h2 := h (i + 2) (by omega) hi (by omega) (by omega)
      unfold pchipCoeffsI
      simp only [eS, eE, c1, c2, h0, h1, h2, Bool.and_false, if_true, Bool.false_eq_true, if_false]
  · have hi : k < i := by
      by_contra hc
      have : i = k := by omega
      apply c1
      rcases hb with hb | ⟨hb, -⟩
      · rw [decide_eq_true (by omega : i = 0)]; rfl
      · rw [this, hb]; simp
    have hm := h (i - 1) (by omega) (by omega) (by omega) (by omega)
    by_cases c2 : (decide (i = X.size - 2) || isNaN (X.get (i + 2) + Y.get (i + 2))) = true
    · unfold pchipCoeffsI
      simp only [eS, eE, c1, c2, h0, h1, hm, Bool.false_and, if_true, Bool.false_eq_true, if_false]
    · have hi2 : i + 2 < K := by
        by_contra hc
        have : i + 2 = K := by omega
        apply c2
        rcases ha with ha | ⟨ha, -⟩
        · rw [decide_eq_true (by omega : i = X.size - 2)]; rfl
        · rw [this, ha]; simp
      have h2 := h (i + 2) (by omega) hi2 (by omega) (by omega)
      unfold pchipCoeffsI
      simp only [eS, eE, c1, c2, h0, h1, h2, hm]

end generic

open Traj
variable {α : Type*} [Field α] [LinearOrder α] [IsStrictOrderedRing α] {rnd : α → α}
variable {X Y Y' : Arr (Rfl rnd)} {k K : ℕ} {a y y' : ℕ → α}

theorem ColR.bracket (C : ColR X Y k K a y) {x : α} (h : outside X k K (Rfl.fin x) = false) :
    k ≤ pieceIndex X k K (Rfl.fin x) ∧ pieceIndex X k K (Rfl.fin x) + 2 ≤ K ∧ a (pieceIndex X k K (Rfl.fin x)) ≤ x ∧ x ≤ a (pieceIndex X k K (Rfl.fin x) + 1) := by
  have hm : ∀ i j, k ≤ i → i ≤ j → j < K → a i ≤ a j := by
    intro i j h1 h2 h3
    induction j, h2 using Nat.le_induction with
    | base => exact le_refl _
    | succ j h ih => exact le_trans (ih (by omega)) (C.inc j (by omega) h3).le
  rw [pieceIndex_rnd]
  obtain ⟨b1, b2, b3, b4, -⟩ := pieceIndex_bracket (X := exactArr X) (a := a) (k := k) (K := K) (x := x) (fun i h1 h2 => C.hX i h1 h2) hm h
  exact ⟨b1, b2, b3, b4⟩

theorem ColR.mono' (C : ColR X Y k K a y) : ∀ i j, k ≤ i → i ≤ j → j < K → a i ≤ a j := by
  intro i j h1 h2 h3
  induction j, h2 using Nat.le_induction with
  | base => exact le_refl _
  | succ j h ih => exact le_trans (ih (by omega)) (C.inc j (by omega) h3).le

/-- **C176** Linear interpolation, and its derivatives, at `x` in the data of a cast and in other data at the same pressures: they are the same, to the last bit, if the
bottles that differ are such that `x` is not between their neighbours. -/
theorem linear_local (C : ColR X Y k K a y) (C' : ColR X Y' k K a y') {x : α}
    (hfar : ∀ j, k ≤ j → j < K → y' j ≠ y j → (j + 1 < K ∧ a (j + 1) < x) ∨ (k + 1 ≤ j ∧ x < a (j - 1))) (d : ℕ) :
    linearInterp1 (Rfl.fin x) X Y' d = linearInterp1 (Rfl.fin x) X Y d := by
  refine ppinterp1_local (by rw [C.vr.1, C'.vr.1]) ?_ d
  rw [C.vr.1]
  intro ho
  obtain ⟨b1, b2, b3, b4⟩ := ColR.bracket C ho
  generalize pieceIndex X k K (Rfl.fin x) = i at *
  have key : ∀ j, i ≤ j → j ≤ i + 1 → Y'.get j = Y.get j := by
    intro j h1 h2
    rw [C.hY j (by omega) (by omega), C'.hY j (by omega) (by omega)]
    by_contra hne
    rcases hfar j (by omega) (by omega) (fun h => hne (by rw [h])) with ⟨h3, h4⟩ | ⟨h3, h4⟩
    · have := ColR.mono' C (i + 1) (j + 1) (by omega) (by omega) (by omega)
      linarith
    · have := ColR.mono' C (j - 1) i (by omega) (by omega) (by omega)
      linarith
  exact linearCoeffsI_local (key i le_rfl (by omega)) (key (i + 1) (by omega) le_rfl)

/-- **C176** PCHIP and its derivatives at `x` in two sets of data at the same pressures: they are the same, to the last bit, if the bottles that differ are such that `x`
is not between the bottles two above and two below them. -/
theorem pchip_local (C : ColR X Y k K a y) (C' : ColR X Y' k K a y') {x : α}
    (hfar : ∀ j, k ≤ j → j < K → y' j ≠ y j → (j + 2 < K ∧ a (j + 2) < x) ∨ (k + 2 ≤ j ∧ x < a (j - 2))) (d : ℕ) :
    pchipInterp1 (Rfl.fin x) X Y' d = pchipInterp1 (Rfl.fin x) X Y d := by
  have hle := C.le
  refine ppinterp1_local (by rw [C.vr.1, C'.vr.1]) ?_ d
  rw [C.vr.1]
  intro ho
  obtain ⟨b1, b2, b3, b4⟩ := ColR.bracket C ho
  generalize pieceIndex X k K (Rfl.fin x) = i at *
  have nanl : ∀ z : Rfl rnd, isNaN (Rfl.qnan + z) = true := fun (z : Fl α) => by cases z <;> rfl
  have nanr : ∀ z : Rfl rnd, isNaN (z + Rfl.qnan) = true := fun (z : Fl α) => by cases z <;> rfl
  refine pchipCoeffsI_local b1 b2 ?_ ?_ ?_
  · by_cases h0 : k = 0
    · exact Or.inl h0
    · refine Or.inr ⟨?_, ?_⟩
      · rcases C.before (k - 1) (by omega) with h | h <;> rw [h]
        exacts [nanl _, nanr _]
      · rcases C'.before (k - 1) (by omega) with h | h <;> rw [h]
        exacts [nanl _, nanr _]
  · by_cases h0 : K = X.size
    · exact Or.inl h0
    · refine Or.inr ⟨?_, ?_⟩
      · rcases C.after (by omega) with h | h <;> rw [h]
        exacts [nanl _, nanr _]
      · rcases C'.after (by omega) with h | h <;> rw [h]
        exacts [nanl _, nanr _]
  · intro j h1 h2 h3 h4
    rw [C.hY j h1 h2, C'.hY j h1 h2]
    by_contra hne
    rcases hfar j h1 h2 (fun h => hne (by rw [h])) with ⟨h5, h6⟩ | ⟨h5, h6⟩
    · have := ColR.mono' C (i + 1) (j + 2) (by omega) (by omega) (by omega)
      linarith
    · have := ColR.mono' C (j - 2) i (by omega) (by omega) (by omega)
      linarith

/-- Six bottles at pressures `0 .. 5` and a column of numbers at them; a seventh level has no data. -/
def lX : Arr (Rfl Rounding53.rnd53) := ⟨7, fun i => if i < 6 then Rfl.fin i else Rfl.qnan⟩
def lCol (l : List ℚ) : Arr (Rfl Rounding53.rnd53) := ⟨7, fun i => if i < 6 then Rfl.fin (l.getD i 0) else Rfl.qnan⟩

theorem lCol_col (l : List ℚ) : ColR lX (lCol l) 0 6 (fun i => (i : ℚ)) (fun i => l.getD i 0) where
  size := rfl
  two := by norm_num
  le := by decide
  before := by intro i hi; omega
  after := fun _ => Or.inl rfl
  hX := by intro i _ hi; simp [lX, hi]
  hY := by intro i _ hi; simp [lCol, hi]
  inc := by intro i _ _; push_cast; linarith

/-- The hypotheses are met: the last bottle of six is changed, and PCHIP at `5/2` is as before, as is its derivative. -/
example (v : ℚ) (d : ℕ) : pchipInterp1 (Rfl.fin (5 / 2)) lX (lCol [0, 1, 3, 4, 8, v]) d = pchipInterp1 (Rfl.fin (5 / 2)) lX (lCol [0, 1, 3, 4, 8, 9]) d := by
  refine pchip_local (lCol_col _) (lCol_col _) ?_ d
  intro j _ hj hne
  interval_cases j <;> simp at hne
  right
  norm_num

example (v : ℚ) (d : ℕ) : linearInterp1 (Rfl.fin (5 / 2)) lX (lCol [0, 1, 3, 4, v, 9]) d = linearInterp1 (Rfl.fin (5 / 2)) lX (lCol [0, 1, 3, 4, 8, 9]) d := by
  refine linear_local (lCol_col _) (lCol_col _) ?_ d
  intro j _ hj hne
  interval_cases j <;> simp at hne
  right
  norm_num

/-- **C176** The reach cannot be made smaller: a bottle affects PCHIP (not linear interpolation) between the next bottle and the one after it, on both sides; and linear
interpolation between it and the next bottle, on both sides. -/
theorem local_sharp :
    pchipInterp1 (Rfl.fin (5 / 2)) lX (lCol [0, 1, 3, 4, 4, 9]) 0 ≠ pchipInterp1 (Rfl.fin (5 / 2)) lX (lCol [0, 1, 3, 4, 8, 9]) 0 ∧
    pchipInterp1 (Rfl.fin (5 / 2)) lX (lCol [0, 3, 3, 4, 8, 9]) 0 ≠ pchipInterp1 (Rfl.fin (5 / 2)) lX (lCol [0, 1, 3, 4, 8, 9]) 0 ∧
    linearInterp1 (Rfl.fin (5 / 2)) lX (lCol [0, 1, 3, 5, 8, 9]) 0 ≠ linearInterp1 (Rfl.fin (5 / 2)) lX (lCol [0, 1, 3, 4, 8, 9]) 0 ∧
    linearInterp1 (Rfl.fin (5 / 2)) lX (lCol [0, 1, 2, 4, 8, 9]) 0 ≠ linearInterp1 (Rfl.fin (5 / 2)) lX (lCol [0, 1, 3, 4, 8, 9]) 0 := by
  decide +kernel

end Interp
