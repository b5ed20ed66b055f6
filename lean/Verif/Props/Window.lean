import Verif.Props.InterpLocal
import Verif.Props.Perturb

/-!
# Casts that share some bottles (C177)

Two casts, maybe of different length, with the same bottles in a window of pressures: the interpolants agree there to the last bit, and a surface or a neutral link that is found
inside the window on one cast is found on the other, at the same pressure up to the tolerance.
-/

set_option linter.unusedSectionVars false

namespace Interp
open FloatLike


section generic
variable {F α : Type*} [FloatLike F] [LinearOrder α]

/-- What is used of a column of data, in any arithmetic: `ι` writes a number as a float. -/
structure GCol (ι : α → F) (X Y : Arr F) (k K : ℕ) (a y : ℕ → α) : Prop where
  two : k + 2 ≤ K
  le : K ≤ X.size
  vr : validRange2 X Y = (k, K)
  num : ∀ u v, isNaN (ι u + ι v) = false
  before : k = 0 ∨ isNaN (X.get (k - 1) + Y.get (k - 1)) = true
  after : K = X.size ∨ isNaN (X.get K + Y.get K) = true
  hX : ∀ i, k ≤ i → i < K → X.get i = ι (a i)
  hY : ∀ i, k ≤ i → i < K → Y.get i = ι (y i)
  mono : ∀ i j, k ≤ i → i ≤ j → j < K → a i ≤ a j
  inside : ∀ x, a k ≤ x → x ≤ a (K - 1) → outside X k K (ι x) = false
  brk : ∀ x, a k ≤ x → x ≤ a (K - 1) → k ≤ pieceIndex X k K (ι x) ∧ pieceIndex X k K (ι x) + 2 ≤ K ∧ a (pieceIndex X k K (ι x)) ≤ x ∧
    x ≤ a (pieceIndex X k K (ι x) + 1) ∧ (pieceIndex X k K (ι x) = k ∨ a (pieceIndex X k K (ι x)) < x)

variable {ι : α → F} {X Y X' Y' : Arr F} {k K k' K' : ℕ} {a y a' y' : ℕ → α}

theorem GCol.flags (C : GCol ι X Y k K a y) {i : ℕ} (h1 : k ≤ i) (h2 : i + 2 ≤ K) :
    (decide (i = 0) || isNaN (X.get (i - 1) + Y.get (i - 1))) = decide (i = k) ∧
    (decide (i = X.size - 2) || isNaN (X.get (i + 2) + Y.get (i + 2))) = decide (i + 2 = K) := by
  have hle := C.le
  constructor
  · by_cases hi : i = k
    · subst hi
      rcases C.before with h | h
      · simp [h]
      · simp [h]
    · rw [C.hX (i - 1) (by omega) (by omega), C.hY (i - 1) (by omega) (by omega), C.num]
      simp [hi, show i ≠ 0 by omega]
  · by_cases hi : i + 2 = K
    · rcases C.after with h | h
      · rw [decide_eq_true (by omega : i = X.size - 2), decide_eq_true hi]; rfl
      · rw [hi, h]; simp
    · rw [C.hX (i + 2) (by omega) (by omega), C.hY (i + 2) (by omega) (by omega), C.num]
      simp [hi, show i ≠ X.size - 2 by omega]

/-- The coefficients of a piece of two columns that share the bottles used. -/
theorem GCol.coeffs (C : GCol ι X Y k K a y) (C' : GCol ι X' Y' k' K' a' y') {i i' : ℕ} (h1 : k ≤ i) (h2 : i + 2 ≤ K) (h1' : k' ≤ i') (h2' : i' + 2 ≤ K')
    (hs : i = k ↔ i' = k') (he : i + 2 = K ↔ i' + 2 = K') (e0 : a' i' = a i ∧ y' i' = y i) (e1 : a' (i' + 1) = a (i + 1) ∧ y' (i' + 1) = y (i + 1))
    (em : i ≠ k → a' (i' - 1) = a (i - 1) ∧ y' (i' - 1) = y (i - 1)) (e2 : i + 2 ≠ K → a' (i' + 2) = a (i + 2) ∧ y' (i' + 2) = y (i + 2)) :
    pchipCoeffsI X' Y' i' = pchipCoeffsI X Y i := by
  obtain ⟨f1, f2⟩ := C.flags h1 h2
  obtain ⟨f1', f2'⟩ := C'.flags h1' h2'
  have x0 : X'.get i' = X.get i := by rw [C.hX i h1 (by omega), C'.hX i' h1' (by omega), e0.1]
  have y0 : Y'.get i' = Y.get i := by rw [C.hY i h1 (by omega), C'.hY i' h1' (by omega), e0.2]
  have x1 : X'.get (i' + 1) = X.get (i + 1) := by rw [C.hX (i + 1) (by omega) (by omega), C'.hX (i' + 1) (by omega) (by omega), e1.1]
  have y1 : Y'.get (i' + 1) = Y.get (i + 1) := by rw [C.hY (i + 1) (by omega) (by omega), C'.hY (i' + 1) (by omega) (by omega), e1.2]
  unfold pchipCoeffsI
  simp only [f1, f2, f1', f2', x0, y0, x1, y1]
  by_cases c1 : i = k
  · have c1' := hs.1 c1
    by_cases c2 : i + 2 = K
    · have c2' := he.1 c2
      simp only [c1, c1', c2, c2', decide_true, Bool.and_self, if_true]
      simp only [← c1, ← c1', c2, c2', decide_true, Bool.and_self, if_true]
    · have c2' := fun h => c2 (he.2 h)
      have x2 : X'.get (i' + 2) = X.get (i + 2) := by rw [C.hX (i + 2) (by omega) (by omega), C'.hX (i' + 2) (by omega) (by omega), (e2 c2).1]
      have y2 : Y'.get (i' + 2) = Y.get (i + 2) := by rw [C.hY (i + 2) (by omega) (by omega), C'.hY (i' + 2) (by omega) (by omega), (e2 c2).2]
      simp only [decide_eq_true c1, decide_eq_true c1', decide_eq_false c2, decide_eq_false c2', Bool.and_false, Bool.false_eq_true, if_false, if_true, x2, y2]
  · have c1' := fun h => c1 (hs.2 h)
    have xm : X'.get (i' - 1) = X.get (i - 1) := by rw [C.hX (i - 1) (by omega) (by omega), C'.hX (i' - 1) (by omega) (by omega), (em c1).1]
    have ym : Y'.get (i' - 1) = Y.get (i - 1) := by rw [C.hY (i - 1) (by omega) (by omega), C'.hY (i' - 1) (by omega) (by omega), (em c1).2]
    by_cases c2 : i + 2 = K
    · have c2' := he.1 c2
      simp only [decide_eq_false c1, decide_eq_false c1', decide_eq_true c2, decide_eq_true c2', Bool.false_and, Bool.false_eq_true, if_false, if_true, xm, ym]
    · have c2' := fun h => c2 (he.2 h)
      have x2 : X'.get (i' + 2) = X.get (i + 2) := by rw [C.hX (i + 2) (by omega) (by omega), C'.hX (i' + 2) (by omega) (by omega), (e2 c2).1]
      have y2 : Y'.get (i' + 2) = Y.get (i + 2) := by rw [C.hY (i + 2) (by omega) (by omega), C'.hY (i' + 2) (by omega) (by omega), (e2 c2).2]
      simp only [decide_eq_false c1, decide_eq_false c1', decide_eq_false c2, decide_eq_false c2', Bool.false_and, Bool.false_eq_true, if_false, xm, ym, x2, y2]

/-- The pieces found in two columns that share the bottles `l ≤ j ≤ l + n` (`l' ≤ j ≤ l' + n` in the other) correspond. -/
theorem GCol.same_piece (C : GCol ι X Y k K a y) (C' : GCol ι X' Y' k' K' a' y') {l l' n w : ℕ} (hl : k ≤ l) (hn : l + n < K) (hl' : k' ≤ l') (hn' : l' + n < K')
    (h : ∀ j, j ≤ n → a' (l' + j) = a (l + j)) {x : α} (hn1 : 1 ≤ n) (hwn : w ≤ n)
    (h1 : a (l + w) < x ∨ l = k ∧ l' = k' ∧ a k ≤ x) (h2 : w < n ∧ x ≤ a (l + n - w) ∨ l + n + 1 = K ∧ l' + n + 1 = K' ∧ x ≤ a (K - 1)) :
    ∃ j, j + 1 ≤ n ∧ outside X k K (ι x) = false ∧ outside X' k' K' (ι x) = false ∧ pieceIndex X k K (ι x) = l + j ∧ pieceIndex X' k' K' (ι x) = l' + j ∧
      (w ≤ j ∨ l = k ∧ l' = k') ∧ (j + 1 + w ≤ n ∨ l + n + 1 = K ∧ l' + n + 1 = K') := by
  have xk : a k ≤ x := by
    rcases h1 with h1 | h1
    · exact (C.mono k (l + w) le_rfl (by omega) (by omega)).trans h1.le
    · exact h1.2.2
  have xK : x ≤ a (K - 1) := by
    rcases h2 with h2 | h2
    · exact h2.2.trans (C.mono _ _ (by omega) (by omega) (by omega))
    · exact h2.2.2
  have xl : a l ≤ x := by
    rcases h1 with h1 | h1
    · exact (C.mono l (l + w) hl (by omega) (by omega)).trans h1.le
    · rw [h1.1]; exact h1.2.2
  have xn : x ≤ a (l + n) := by
    rcases h2 with h2 | h2
    · exact h2.2.trans (C.mono _ _ (by omega) (by omega) (by omega))
    · rw [show l + n = K - 1 by omega]; exact h2.2.2
  have xk' : a' k' ≤ x := (C'.mono k' l' le_rfl hl' (by omega)).trans (by have := h 0 (by omega); simp only [Nat.add_zero] at this; rw [this]; exact xl)
  have xK' : x ≤ a' (K' - 1) := (xn.trans (h n le_rfl).ge).trans (C'.mono _ _ (by omega) (by omega) (by omega))
  obtain ⟨b1, b2, b3, b4, b5⟩ := C.brk x xk xK
  obtain ⟨b1', b2', b3', b4', b5'⟩ := C'.brk x xk' xK'
  have o := C.inside x xk xK
  have o' := C'.inside x xk' xK'
  generalize pieceIndex X k K (ι x) = i at *
  generalize pieceIndex X' k' K' (ι x) = i' at *
  -- the piece is in the window
  have hi : l ≤ i := by
    by_contra hc
    have h3 := C.mono (i + 1) l (by omega) (by omega) (by omega)
    have hlk : l ≠ k := by omega
    rcases h1 with h1 | h1
    · have := C.mono l (l + w) hl (by omega) (by omega)
      exact absurd (h1.trans_le (b4.trans (h3.trans this))) (lt_irrefl _)
    · exact hlk h1.1
  have hi2 : i + 1 ≤ l + n := by
    by_contra hc
    have h3 := C.mono (l + n) i (by omega) (by omega) (by omega)
    rcases b5 with b5 | b5
    · omega
    · exact absurd (b5.trans_le (xn.trans h3)) (lt_irrefl _)
  have hj : i' = l' + (i - l) := by
    have ea := h (i - l) (by omega)
    have eb := h (i - l + 1) (by omega)
    rw [show l + (i - l) = i by omega] at ea
    rw [show l + (i - l + 1) = i + 1 by omega] at eb
    by_contra hne
    rcases lt_or_gt_of_ne hne with hlt | hgt
    · have h3 := C'.mono (i' + 1) (l' + (i - l)) (by omega) (by omega) (by omega)
      rw [ea] at h3
      rcases b5 with b5 | b5
      · -- then `x = a k`
        have hlk : l = k := by omega
        rcases h1 with h1 | h1
        · have h4 := C.mono l (l + w) hl (by omega) (by omega)
          rw [show i = l by omega] at h3
          exact absurd (h1.trans_le (b4'.trans (h3.trans h4))) (lt_irrefl _)
        · omega
      · exact absurd (b5.trans_le (b4'.trans h3)) (lt_irrefl _)
    · have h3 := C'.mono (l' + (i - l + 1)) i' (by omega) (by omega) (by omega)
      rw [eb] at h3
      rcases b5' with b5' | b5'
      · omega
      · exact absurd (b5'.trans_le (b4.trans h3)) (lt_irrefl _)
  refine ⟨i - l, by omega, o, o', by omega, hj, ?_, ?_⟩
  · rcases h1 with h1 | h1
    · left
      by_contra hc
      have h3 := C.mono (i + 1) (l + w) (by omega) (by omega) (by omega)
      exact absurd (h1.trans_le (b4.trans h3)) (lt_irrefl _)
    · exact Or.inr ⟨h1.1, h1.2.1⟩
  · rcases h2 with h2 | h2
    · left
      by_contra hc
      have h3 := C.mono (l + n - w) i (by omega) (by omega) (by omega)
      rcases b5 with b5 | b5
      · omega
      · exact absurd (b5.trans_le (h2.2.trans h3)) (lt_irrefl _)
    · exact Or.inr ⟨h2.1, h2.2.1⟩

/-- One variable of two columns that share bottles, at a pressure where only shared bottles are used, in any arithmetic. -/
theorem GCol.window (C : GCol ι X Y k K a y) (C' : GCol ι X' Y' k' K' a' y') {l l' n : ℕ} (hl : k ≤ l) (hn : l + n < K) (hl' : k' ≤ l') (hn' : l' + n < K')
    (hn1 : 1 ≤ n) (h : ∀ j, j ≤ n → a' (l' + j) = a (l + j) ∧ y' (l' + j) = y (l + j)) {x : α} (d : ℕ) :
    (((a l < x ∨ l = k ∧ l' = k' ∧ a k ≤ x) ∧ x ≤ a (l + n)) →
      linearInterp1 (ι x) X' Y' d = linearInterp1 (ι x) X Y d) ∧
    (((a (l + 1) < x ∨ l = k ∧ l' = k' ∧ a k ≤ x) ∧ (1 < n ∧ x ≤ a (l + n - 1) ∨ l + n + 1 = K ∧ l' + n + 1 = K' ∧ x ≤ a (K - 1))) →
      pchipInterp1 (ι x) X' Y' d = pchipInterp1 (ι x) X Y d) := by
  constructor
  · rintro ⟨h1, h2⟩
    obtain ⟨j, hj, o, o', e, e', -, -⟩ := C.same_piece C' hl hn hl' hn' (fun j hj => (h j hj).1) (w := 0) hn1 (Nat.zero_le _) h1 (Or.inl ⟨by omega, h2⟩)
    unfold linearInterp1 ppinterp1
    simp only [C.vr, C'.vr, o, o', Bool.false_eq_true, if_false, e, e']
    have g0 : X'.get (l' + j) = X.get (l + j) := by rw [C.hX _ (by omega) (by omega), C'.hX _ (by omega) (by omega), (h j (by omega)).1]
    have g1 : X'.get (l' + j + 1) = X.get (l + j + 1) := by
      rw [C.hX _ (by omega) (by omega), C'.hX _ (by omega) (by omega)]; exact congrArg ι (h (j + 1) (by omega)).1
    have g2 : Y'.get (l' + j) = Y.get (l + j) := by rw [C.hY _ (by omega) (by omega), C'.hY _ (by omega) (by omega), (h j (by omega)).2]
    have g3 : Y'.get (l' + j + 1) = Y.get (l + j + 1) := by
      rw [C.hY _ (by omega) (by omega), C'.hY _ (by omega) (by omega)]; exact congrArg ι (h (j + 1) (by omega)).2
    unfold linearCoeffsI
    rw [g0, g1, g2, g3]
  · rintro ⟨h1, h2⟩
    obtain ⟨j, hj, o, o', e, e', w1, w2⟩ := C.same_piece C' hl hn hl' hn' (fun j hj => (h j hj).1) (w := 1) hn1 hn1 h1 h2
    unfold pchipInterp1 ppinterp1
    simp only [C.vr, C'.vr, o, o', Bool.false_eq_true, if_false, e, e']
    have g0 : X'.get (l' + j) = X.get (l + j) := by rw [C.hX _ (by omega) (by omega), C'.hX _ (by omega) (by omega), (h j (by omega)).1]
    rw [g0, C.coeffs C' (i := l + j) (i' := l' + j) (by omega) (by omega) (by omega) (by omega) (by omega) (by omega) (h j (by omega)) (h (j + 1) (by omega))
      (fun hk => ?_) (fun hK => h (j + 2) (by omega))]
    have := h (j - 1) (by omega)
    rw [show l + j - 1 = l + (j - 1) by omega, show l' + j - 1 = l' + (j - 1) by omega]
    exact this

end generic

open Traj

theorem _root_.Traj.Col.gcol {X Y : Arr (Fl ℝ)} {k K : ℕ} {a y : ℕ → ℝ} (C : Col X Y k K a y) : GCol Fl.fin X Y k K a y := by
  have hm : ∀ i j, k ≤ i → i ≤ j → j < K → a i ≤ a j := by
    intro i j h1 h2 h3
    induction j, h2 using Nat.le_induction with
    | base => exact le_refl _
    | succ j h ih => exact le_trans (ih (by omega)) (C.inc j (by omega) h3).le
  have h2 := C.two
  have hle := C.le
  have ho : ∀ x, a k ≤ x → x ≤ a (K - 1) → outside X k K (Fl.fin x) = false := by
    intro x h1 h3
    unfold outside
    rw [C.hX k le_rfl (by omega), C.hX (K - 1) (by omega) (by omega)]
    simp [show ¬K - 1 ≤ k by omega, h1, h3]
  refine ⟨C.two, C.le, C.vr.1, fun u v => rfl, ?_, ?_, C.hX, C.hY, hm, ho, fun x h1 h3 => pieceIndex_bracket C.hX hm (ho x h1 h3)⟩
  · by_cases h0 : k = 0
    · exact Or.inl h0
    · right
      rcases C.before (k - 1) (by omega) with h | h <;> rw [h] <;> simp
  · by_cases h0 : K = X.size
    · exact Or.inl h0
    · right
      rcases C.after (by omega) with h | h <;> rw [h] <;> simp

section rounded
variable {α : Type*} [Field α] [LinearOrder α] [IsStrictOrderedRing α] {rnd : α → α}

theorem _root_.Traj.ColR.gcol {X Y : Arr (Rfl rnd)} {k K : ℕ} {a y : ℕ → α} (C : ColR X Y k K a y) : GCol Rfl.fin X Y k K a y := by
  have h2 := C.two
  have hle := C.le
  have ho : ∀ x, a k ≤ x → x ≤ a (K - 1) → outside X k K (Rfl.fin x) = false := by
    intro x h1 h3
    unfold outside
    rw [C.hX k le_rfl (by omega), C.hX (K - 1) (by omega) (by omega)]
    simp [show ¬K - 1 ≤ k by omega, h1, h3]
  have nanl : ∀ z : Rfl rnd, isNaN (Rfl.qnan + z) = true := fun (z : Fl α) => by cases z <;> rfl
  have nanr : ∀ z : Rfl rnd, isNaN (z + Rfl.qnan) = true := fun (z : Fl α) => by cases z <;> rfl
  refine ⟨C.two, C.le, C.vr.1, fun u v => rfl, ?_, ?_, C.hX, C.hY, ColR.mono' C, ho, fun x h1 h3 => ?_⟩
  · by_cases h0 : k = 0
    · exact Or.inl h0
    · right
      rcases C.before (k - 1) (by omega) with h | h <;> rw [h]
      exacts [nanl _, nanr _]
  · by_cases h0 : K = X.size
    · exact Or.inl h0
    · right
      rcases C.after (by omega) with h | h <;> rw [h]
      exacts [nanl _, nanr _]
  · rw [pieceIndex_rnd]
    exact pieceIndex_bracket (X := exactArr X) (a := a) (fun i h1 h2 => C.hX i h1 h2) (ColR.mono' C) (ho x h1 h3)

/-- **C177** Linear interpolation at a pressure between bottles that two casts share (the bottles `l, .., l + n` of one are the bottles `l', .., l' + n` of the other)
is the same on both casts, to the last bit, and so are its derivatives. -/
theorem linear_window {X Y X' Y' : Arr (Rfl rnd)} {k K k' K' : ℕ} {a y a' y' : ℕ → α} (C : ColR X Y k K a y) (C' : ColR X' Y' k' K' a' y') {l l' n : ℕ}
    (hl : k ≤ l) (hn : l + n < K) (hl' : k' ≤ l') (hn' : l' + n < K') (hn1 : 1 ≤ n) (h : ∀ j, j ≤ n → a' (l' + j) = a (l + j) ∧ y' (l' + j) = y (l + j))
    {x : α} (h1 : a l < x ∨ l = k ∧ l' = k' ∧ a k ≤ x) (h2 : x ≤ a (l + n)) (d : ℕ) :
    linearInterp1 (Rfl.fin x) X' Y' d = linearInterp1 (Rfl.fin x) X Y d :=
  (C.gcol.window C'.gcol hl hn hl' hn' hn1 h d).1 ⟨h1, h2⟩

/-- **C177** PCHIP at a pressure with two shared bottles above it and two below it (or one, if there are no more on either cast). -/
theorem pchip_window {X Y X' Y' : Arr (Rfl rnd)} {k K k' K' : ℕ} {a y a' y' : ℕ → α} (C : ColR X Y k K a y) (C' : ColR X' Y' k' K' a' y') {l l' n : ℕ}
    (hl : k ≤ l) (hn : l + n < K) (hl' : k' ≤ l') (hn' : l' + n < K') (hn1 : 1 ≤ n) (h : ∀ j, j ≤ n → a' (l' + j) = a (l + j) ∧ y' (l' + j) = y (l + j))
    {x : α} (h1 : a (l + 1) < x ∨ l = k ∧ l' = k' ∧ a k ≤ x) (h2 : 1 < n ∧ x ≤ a (l + n - 1) ∨ l + n + 1 = K ∧ l' + n + 1 = K' ∧ x ≤ a (K - 1)) (d : ℕ) :
    pchipInterp1 (Rfl.fin x) X' Y' d = pchipInterp1 (Rfl.fin x) X Y d :=
  (C.gcol.window C'.gcol hl hn hl' hn' hn1 h d).2 ⟨h1, h2⟩

end rounded

/-- Columns of four bottles at pressures `0 .. 3`, below a level without data. -/
def shortX : Arr (Rfl Rounding53.rnd53) := ⟨5, fun i => if 0 < i then Rfl.fin (i - 1) else Rfl.qnan⟩
def shortY (l : List ℚ) : Arr (Rfl Rounding53.rnd53) := ⟨5, fun i => if 0 < i then Rfl.fin (l.getD (i - 1) 0) else Rfl.qnan⟩

theorem shortCol (l : List ℚ) : ColR shortX (shortY l) 1 5 (fun i => (i : ℚ) - 1) (fun i => l.getD (i - 1) 0) where
  size := rfl
  two := by norm_num
  le := by decide
  before := by intro i hi; have : i = 0 := by omega
               subst this; exact Or.inl rfl
  after := fun h => absurd h (by decide)
  hX := by intro i h1 _; simp [shortX, show 0 < i by omega]
  hY := by intro i h1 _; simp [shortY, show 0 < i by omega]
  inc := by intro i _ _; push_cast; linarith

/-- The hypotheses are met by a column of six bottles and the column of its first four. -/
example (v w : ℚ) (d : ℕ) : pchipInterp1 (Rfl.fin (3 / 2)) shortX (shortY [0, 1, 3, 4]) d = pchipInterp1 (Rfl.fin (3 / 2)) lX (lCol [0, 1, 3, 4, v, w]) d := by
  refine pchip_window (lCol_col _) (shortCol _) (l := 0) (l' := 1) (n := 3) (by omega) (by omega) (by omega) (by omega) (by omega) ?_ (Or.inr ⟨rfl, rfl, by norm_num⟩)
    (Or.inl ⟨by omega, by norm_num⟩) d
  intro j hj
  interval_cases j <;> norm_num

example (v w : ℚ) (d : ℕ) : linearInterp1 (Rfl.fin (5 / 2)) shortX (shortY [9, 1, 3, 4]) d = linearInterp1 (Rfl.fin (5 / 2)) lX (lCol [0, 1, 3, 4, v, w]) d := by
  refine linear_window (lCol_col _) (shortCol _) (l := 2) (l' := 3) (n := 1) (by omega) (by omega) (by omega) (by omega) (by omega) ?_ (Or.inl (by norm_num))
    (by norm_num) d
  intro j hj
  interval_cases j <;> norm_num

end Interp

namespace VertSolve
open FloatLike Interp Traj
open Fl (fin)
variable {c c' : Cast (Fl ℝ)} {k K k' K' : ℕ} {a s t a' s' t' : ℕ → ℝ} {eos : Fl ℝ → Fl ℝ → Fl ℝ → Fl ℝ} {e : ℝ → ℝ → ℝ → ℝ} {smin : ℝ}

/-- Specification: two casts have the bottles used by the interpolation between `lo` and `hi` in common: the bottles `l, .., l + n` of one are the bottles
`l', .., l' + n` of the other, and of these one (linear) or two (PCHIP) are above `lo` and below `hi` — unless they begin (end) with the first (last)
bottle of both casts. -/
def Shares (kind : PPKind) (k K : ℕ) (a s t : ℕ → ℝ) (k' K' : ℕ) (a' s' t' : ℕ → ℝ) (lo hi : ℝ) : Prop :=
  ∃ l l' n w, w = (if kind = .linear then 0 else 1) ∧ k ≤ l ∧ l + n < K ∧ k' ≤ l' ∧ l' + n < K' ∧ 1 ≤ n ∧
    (∀ j, j ≤ n → a' (l' + j) = a (l + j) ∧ s' (l' + j) = s (l + j) ∧ t' (l' + j) = t (l + j)) ∧
    (a (l + w) < lo ∨ l = k ∧ l' = k') ∧ (w < n ∧ hi ≤ a (l + n - w) ∨ l + n + 1 = K ∧ l' + n + 1 = K')

theorem Shares.at {kind : PPKind} (G : GoodCast c k K a s t) (G' : GoodCast c' k' K' a' s' t') {lo hi : ℝ} (h : Shares kind k K a s t k' K' a' s' t' lo hi)
    {x : ℝ} (h1 : lo ≤ x) (h2 : x ≤ hi) (hk : a k ≤ x) (hK : x ≤ a (K - 1)) {u v : ℝ} (hx : At kind c x u v) :
    At kind c' x u v ∧ a' k' ≤ x ∧ x ≤ a' (K' - 1) := by
  obtain ⟨l, l', n, w, hw, b1, b2, b3, b4, b5, he, hlo, hhi⟩ := h
  have hwn : w ≤ n := by split_ifs at hw <;> omega
  have hlo' : a (l + w) < x ∨ l = k ∧ l' = k' ∧ a k ≤ x := hlo.imp (fun h => h.trans_le h1) (fun h => ⟨h.1, h.2, hk⟩)
  have hhi' : w < n ∧ x ≤ a (l + n - w) ∨ l + n + 1 = K ∧ l' + n + 1 = K' ∧ x ≤ a (K - 1) := hhi.imp (fun h => ⟨h.1, h2.trans h.2⟩) (fun h => ⟨h.1, h.2, hK⟩)
  have m := G.S.gcol.mono
  have m' := G'.S.gcol.mono
  refine ⟨?_, ?_, ?_⟩
  · have wS := G.S.gcol.window G'.S.gcol b1 b2 b3 b4 b5 (fun j hj => ⟨(he j hj).1, (he j hj).2.1⟩) (x := x) 0
    have wT := G.T.gcol.window G'.T.gcol b1 b2 b3 b4 b5 (fun j hj => ⟨(he j hj).1, (he j hj).2.2⟩) (x := x) 0
    cases kind with
    | linear =>
      simp only [if_true] at hw
      subst hw
      have hx2 : x ≤ a (l + n) := by
        rcases hhi' with h | h
        · exact h.2
        · rw [show l + n = K - 1 by omega]; exact h.2.2
      exact ⟨(wS.1 ⟨hlo', hx2⟩).trans hx.1, (wT.1 ⟨hlo', hx2⟩).trans hx.2⟩
    | pchip =>
      have hw1 : w = 1 := by simpa using hw
      subst hw1
      exact ⟨(wS.2 ⟨hlo', hhi'⟩).trans hx.1, (wT.2 ⟨hlo', hhi'⟩).trans hx.2⟩
  · have e0 := (he 0 (by omega)).1
    simp only [Nat.add_zero] at e0
    refine (m' k' l' le_rfl b3 (by omega)).trans ?_
    rw [e0]
    rcases hlo' with h | h
    · exact (m l (l + w) b1 (by omega) (by omega)).trans h.le
    · rw [h.1]; exact h.2.2
  · have e0 := (he n le_rfl).1
    refine le_trans ?_ (m' (l' + n) (K' - 1) (by omega) (by omega) (by omega))
    rw [e0]
    rcases hhi' with h | h
    · exact h.2.trans (m _ _ (by omega) (by omega) (by omega))
    · rw [show l + n = K - 1 by omega]; exact h.2.2

/-- A solution on one cast near which the other has the same bottles is found on the other, if it is stratified. -/
theorem Solved.window {kind : PPKind} (G : GoodCast c k K a s t) (G' : GoodCast c' k' K' a' s' t') {res : ℝ → ℝ → ℝ → ℝ} {tol tol' : ℝ}
    (hst : ∀ x y σ τ σ' τ', a' k' ≤ x → x < y → y ≤ a' (K' - 1) → At kind c' x σ τ → At kind c' y σ' τ' → res σ τ x < res σ' τ' y)
    {r r' : Fl ℝ × Fl ℝ × Fl ℝ} (h : Solved kind c (a k) (a (K - 1)) res tol r) (h' : Solved kind c' (a' k') (a' (K' - 1)) res tol' r')
    {p : ℝ} (hp : r.2.2 = fin p) (hsh : Shares kind k K a s t k' K' a' s' t' (p - acc tol p) (p + acc tol p)) :
    ∃ p', r'.2.2 = fin p' ∧ |p' - p| ≤ acc tol p + acc tol' p' := by
  obtain ⟨gS, gT, hi, h⟩ := h
  obtain ⟨gS', gT', hi', h'⟩ := h'
  rcases h with ⟨rfl, -⟩ | ⟨q, z, rfl, a1, a2, a3, a4, a5, a6⟩
  · cases hp
  cases hp
  have a6' : |z - p| ≤ acc tol p := a6
  rw [abs_le] at a6'
  obtain ⟨g1, g2, g3⟩ := hsh.at G G' (x := z) (by linarith [a6'.1]) (by linarith [a6'.2]) a3 a4 (hi z a3 a4)
  have hAB : a' k' ≤ a' (K' - 1) := g2.trans g3
  have l1 : ∀ x, a' k' ≤ x → x ≤ a' (K' - 1) → (x < z → res (gS' x) (gT' x) x < 0) ∧ (z < x → 0 < res (gS' x) (gT' x) x) := by
    intro x h1 h2
    constructor
    · intro h3
      have := hst x z _ _ _ _ h1 h3 g3 (hi' x h1 h2) g1
      rwa [a5] at this
    · intro h3
      have := hst z x _ _ _ _ g2 h3 h2 g1 (hi' x h1 h2)
      rwa [a5] at this
  have ez : res (gS' z) (gT' z) z = 0 := by
    have e1 := (hi' z g2 g3).1.symm.trans g1.1
    have e2 := (hi' z g2 g3).2.symm.trans g1.2
    simp only [Option.some.injEq, Fl.fin.injEq] at e1 e2
    rw [e1, e2]; exact a5
  rcases h' with ⟨rfl, hpos⟩ | ⟨q', z', rfl, b1, b2, b3, b4, b5, b6⟩
  · exfalso
    have d1 : res (gS' (a' k')) (gT' (a' k')) (a' k') ≤ 0 := by
      rcases g2.lt_or_eq with h | h
      · exact ((l1 _ le_rfl hAB).1 h).le
      · rw [h]; exact ez.le
    have d2 : 0 ≤ res (gS' (a' (K' - 1))) (gT' (a' (K' - 1))) (a' (K' - 1)) := by
      rcases g3.lt_or_eq with h | h
      · exact ((l1 _ hAB le_rfl).2 h).le
      · rw [← h]; exact ez.ge
    exact absurd hpos (not_lt.2 (mul_nonpos_iff.2 (.inr ⟨d1, d2⟩)))
  · refine ⟨q', rfl, ?_⟩
    have hz : z' = z := by
      rcases lt_trichotomy z' z with h | h | h
      · exact absurd b5 ((l1 z' b3 b4).1 h).ne
      · exact h
      · exact absurd b5 ((l1 z' b3 b4).2 h).ne'
    subst hz
    have b6' : |z' - q'| ≤ acc tol' q' := b6
    rw [abs_le] at b6' ⊢
    constructor <;> linarith [a6'.1, a6'.2, b6'.1, b6'.2]

/-- **C177** Potential density surfaces of two casts that have the same bottles near the surface, whatever they have elsewhere, and however many: if the second is stably
stratified, then the surface is there on the second cast too, at the same pressure up to the accuracy of the solver. -/
theorem potential_window (kind : PPKind) (E : EosOn eos e smin) (G : GoodCast c k K a s t) (G' : GoodCast c' k' K' a' s' t')
    (hs : ∀ i, k ≤ i → i < K → smin ≤ s i) (hs' : ∀ i, k' ≤ i → i < K' → smin ≤ s' i) {tol refP v : ℝ} (htol : 0 < tol)
    (n : ℕ) (hn : 2 * (a (K - 1) - a k) / tol ≤ n) (hn' : 2 * (a' (K' - 1) - a' k') / tol ≤ n)
    (hst : ∀ x y σ τ σ' τ', a' k' ≤ x → x < y → y ≤ a' (K' - 1) → At kind c' x σ τ → At kind c' y σ' τ' → e σ τ refP < e σ' τ' refP) :
    ∃ r r', vertsolve1 (n + 13) (fin tol) kind (fun P Sp Tp => zeroPotential eos P Sp Tp (fin refP) (fin v)) c = .ret r ∧
      vertsolve1 (n + 13) (fin tol) kind (fun P Sp Tp => zeroPotential eos P Sp Tp (fin refP) (fin v)) c' = .ret r' ∧
      ∀ p, r.2.2 = fin p → Shares kind k K a s t k' K' a' s' t' (p - acc tol p) (p + acc tol p) →
        ∃ p', r'.2.2 = fin p' ∧ |p' - p| ≤ acc tol p + acc tol p' := by
  obtain ⟨r, h1, h2⟩ := potential_spec (refP := refP) (isoval := v) kind E G hs htol n hn
  obtain ⟨r', h1', h2'⟩ := potential_spec (refP := refP) (isoval := v) kind E G' hs' htol n hn'
  exact ⟨r, r', h1, h1', fun p hp hsh => Solved.window G G'
    (fun x y σ τ σ' τ' g1 g2 g3 g4 g5 => sub_lt_sub_right (hst x y σ τ σ' τ' g1 g2 g3 g4 g5) v) h2 h2' hp hsh⟩

/-- **C177** Anomaly surfaces. -/
theorem anomaly_window (kind : PPKind) (E : EosOn eos e smin) (G : GoodCast c k K a s t) (G' : GoodCast c' k' K' a' s' t')
    (hs : ∀ i, k ≤ i → i < K → smin ≤ s i) (hs' : ∀ i, k' ≤ i → i < K' → smin ≤ s' i) {tol refS refT v : ℝ} (hr : smin ≤ refS) (htol : 0 < tol)
    (n : ℕ) (hn : 2 * (a (K - 1) - a k) / tol ≤ n) (hn' : 2 * (a' (K' - 1) - a' k') / tol ≤ n)
    (hst : ∀ x y σ τ σ' τ', a' k' ≤ x → x < y → y ≤ a' (K' - 1) → At kind c' x σ τ → At kind c' y σ' τ' → e σ τ x - e refS refT x < e σ' τ' y - e refS refT y) :
    ∃ r r', vertsolve1 (n + 13) (fin tol) kind (fun P Sp Tp => zeroAnomaly eos P Sp Tp (fin refS, fin refT) (fin v)) c = .ret r ∧
      vertsolve1 (n + 13) (fin tol) kind (fun P Sp Tp => zeroAnomaly eos P Sp Tp (fin refS, fin refT) (fin v)) c' = .ret r' ∧
      ∀ p, r.2.2 = fin p → Shares kind k K a s t k' K' a' s' t' (p - acc tol p) (p + acc tol p) →
        ∃ p', r'.2.2 = fin p' ∧ |p' - p| ≤ acc tol p + acc tol p' := by
  obtain ⟨r, h1, h2⟩ := anomaly_spec (refS := refS) (refT := refT) (isoval := v) kind E G hs hr htol n hn
  obtain ⟨r', h1', h2'⟩ := anomaly_spec (refS := refS) (refT := refT) (isoval := v) kind E G' hs' hr htol n hn'
  exact ⟨r, r', h1, h1', fun p hp hsh => Solved.window G G'
    (fun x y σ τ σ' τ' g1 g2 g3 g4 g5 => sub_lt_sub_right (hst x y σ τ σ' τ' g1 g2 g3 g4 g5) v) h2 h2' hp hsh⟩

theorem ntp_solved (kind : PPKind) (E : EosOn eos e smin) (G : GoodCast c k K a s t) (hs : ∀ i, k ≤ i → i < K → smin ≤ s i) {sB tB pB tol : ℝ} (hsB : smin ≤ sB)
    (htol : 0 < tol) (n : ℕ) (hn : 2 * (a (K - 1) - a k) / tol ≤ n) :
    ∃ r, ntpBottleToCast (n + 13) (fin tol) eos kind (fin sB) (fin tB) (fin pB) c = .ret r ∧
      Solved kind c (a k) (a (K - 1)) (fun s t p => e s t ((pB + p) / 2) - e sB tB ((pB + p) / 2)) tol r := by
  obtain ⟨gS, gT, hi, h⟩ := ntp_spec kind E G hs (sB := sB) (tB := tB) (pB := pB) hsB htol n hn
  rcases h with ⟨h1, h2⟩ | ⟨p, z, h1, b1, b2, b3, b4, b5, b6⟩
  · refine ⟨_, h1, gS, gT, hi, Or.inl ⟨rfl, ?_⟩⟩
    have : ∀ u v w q : ℝ, 0 < (u - v) * (w - q) → 0 < (v - u) * (q - w) := fun u v w q h => by linarith [show (u - v) * (w - q) = (v - u) * (q - w) by ring]
    exact this _ _ _ _ h2
  · exact ⟨_, h1, gS, gT, hi, Or.inr ⟨p, z, rfl, b1, b2, b3, b4, sub_eq_zero.2 b5.symm, b6⟩⟩

/-- **C177** Neutral links from one bottle to two casts that have the same bottles near the end of the first link. -/
theorem ntp_window (kind : PPKind) (E : EosOn eos e smin) (G : GoodCast c k K a s t) (G' : GoodCast c' k' K' a' s' t')
    (hs : ∀ i, k ≤ i → i < K → smin ≤ s i) (hs' : ∀ i, k' ≤ i → i < K' → smin ≤ s' i) {tol sB tB pB : ℝ} (hsB : smin ≤ sB) (htol : 0 < tol)
    (n : ℕ) (hn : 2 * (a (K - 1) - a k) / tol ≤ n) (hn' : 2 * (a' (K' - 1) - a' k') / tol ≤ n)
    (hst : ∀ x y σ τ σ' τ', a' k' ≤ x → x < y → y ≤ a' (K' - 1) → At kind c' x σ τ → At kind c' y σ' τ' →
      e σ τ ((pB + x) / 2) - e sB tB ((pB + x) / 2) < e σ' τ' ((pB + y) / 2) - e sB tB ((pB + y) / 2)) :
    ∃ r r', ntpBottleToCast (n + 13) (fin tol) eos kind (fin sB) (fin tB) (fin pB) c = .ret r ∧
      ntpBottleToCast (n + 13) (fin tol) eos kind (fin sB) (fin tB) (fin pB) c' = .ret r' ∧
      ∀ p, r.2.2 = fin p → Shares kind k K a s t k' K' a' s' t' (p - acc tol p) (p + acc tol p) →
        ∃ p', r'.2.2 = fin p' ∧ |p' - p| ≤ acc tol p + acc tol p' := by
  obtain ⟨r, h1, h2⟩ := ntp_solved kind E G hs (sB := sB) (tB := tB) (pB := pB) hsB htol n hn
  obtain ⟨r', h1', h2'⟩ := ntp_solved kind E G' hs' (sB := sB) (tB := tB) (pB := pB) hsB htol n hn'
  exact ⟨r, r', h1, h1', fun p hp hsh => Solved.window G G' hst h2 h2' hp hsh⟩

/-- **C177** One cast in a step of `omega_surf`: the same correction `phi`, and the surface at the same place before, on two casts that have the same bottles near the new surface. -/
theorem omega_window (kind : PPKind) (E : EosOn eos e smin) (G : GoodCast c k K a s t) (G' : GoodCast c' k' K' a' s' t')
    (hs : ∀ i, k ≤ i → i < K → smin ≤ s i) (hs' : ∀ i, k' ≤ i → i < K' → smin ≤ s' i) {tol phi s0 t0 p0 : ℝ} (hphi : phi ≠ 0) (hs0 : smin ≤ s0) (htol : 0 < tol)
    (n : ℕ) (hn : 2 * (a (K - 1) - a k) / tol ≤ n) (hn' : 2 * (a' (K' - 1) - a' k') / tol ≤ n)
    (hst : ∀ x y σ τ σ' τ', a' k' ≤ x → x < y → y ≤ a' (K' - 1) → At kind c' x σ τ → At kind c' y σ' τ' → e σ τ p0 < e σ' τ' p0) :
    ∃ r r', omegaSolve1 (n + 13) (fin tol) kind eos (fin phi) (fin s0, fin t0, fin p0) c = .ret r ∧
      omegaSolve1 (n + 13) (fin tol) kind eos (fin phi) (fin s0, fin t0, fin p0) c' = .ret r' ∧
      ∀ p, r.2.2 = fin p → Shares kind k K a s t k' K' a' s' t' (p - acc tol p) (p + acc tol p) →
        ∃ p', r'.2.2 = fin p' ∧ |p' - p| ≤ acc tol p + acc tol p' := by
  obtain ⟨r, h1, h2⟩ := omega_spec kind E G hs (t0 := t0) (p0 := p0) hphi hs0 htol n hn
  obtain ⟨r', h1', h2'⟩ := omega_spec kind E G' hs' (t0 := t0) (p0 := p0) hphi hs0 htol n hn'
  exact ⟨r, r', h1, h1', fun p hp hsh => Solved.window G G'
    (fun x y σ τ σ' τ' g1 g2 g3 g4 g5 => sub_lt_sub_right (hst x y σ τ σ' τ' g1 g2 g3 g4 g5) _) h2 h2' hp hsh⟩

/-- **C177** The second cast has to be stratified: three bottles, and the same three bottles above a lighter one.  The isopycnal `3/2` is found at `3/2` on the first
cast, and at `4` on the second. -/
theorem window_unstable :
    let P : Arr (Fl ℚ) := Arr.ofList [.fin 0, .fin 1, .fin 2]
    let P' : Arr (Fl ℚ) := Arr.ofList [.fin 0, .fin 1, .fin 2, .fin 10]
    let c : Cast (Fl ℚ) := ⟨P, Arr.ofList [.fin 0, .fin 0, .fin 0], P⟩
    let c' : Cast (Fl ℚ) := ⟨Arr.ofList [.fin 0, .fin 1, .fin 2, .fin 0], Arr.ofList [.fin 0, .fin 0, .fin 0, .fin 0], P'⟩
    let solve := vertsolve1 40 (.fin (1 / 10)) .linear fun P Sp Tp => zeroPotential (fun s t _ => s - t) P Sp Tp (.fin 0) (.fin (3 / 2))
    (match solve c, solve c' with
      | .ret (_, _, .fin p), .ret (_, _, .fin p') => decide (p = 3 / 2 ∧ p' = 4)
      | _, _ => false) = true := by
  decide +kernel

/-! Example: `exCast` and the same cast with two more bottles, far below; the last one is lighter than the one above it. -/

noncomputable def longCast : Cast (Fl ℝ) :=
  ⟨Arr.ofList [fin 35, fin 36, fin 37, fin 90, fin 80], Arr.ofList [fin 5, fin 4, fin 3, fin 3, fin 3], Arr.ofList [fin 0, fin 1, fin 3, fin 7, fin 10]⟩

theorem longGood : GoodCast longCast 0 5 (fun i => if i = 0 then 0 else if i = 1 then 1 else if i = 2 then 3 else if i = 3 then 7 else 10)
    (fun i => if i = 0 then 35 else if i = 1 then 36 else if i = 2 then 37 else if i = 3 then 90 else 80) (fun i => if i = 0 then 5 else if i = 1 then 4 else 3) := by
  constructor
  all_goals
    refine ⟨rfl, by omega, by decide, fun i hi => by omega, fun h => absurd h (by decide), ?_, ?_, ?_⟩
    · intro i h1 h2
      have : i = 0 ∨ i = 1 ∨ i = 2 ∨ i = 3 ∨ i = 4 := by omega
      rcases this with rfl | rfl | rfl | rfl | rfl <;> rfl
    · intro i h1 h2
      have : i = 0 ∨ i = 1 ∨ i = 2 ∨ i = 3 ∨ i = 4 := by omega
      rcases this with rfl | rfl | rfl | rfl | rfl <;> rfl
    · intro i h1 h2
      have : i = 0 ∨ i = 1 ∨ i = 2 ∨ i = 3 := by omega
      rcases this with rfl | rfl | rfl | rfl <;> norm_num

/-- A surface found in the upper part of the long cast is found on the short one. -/
example (v : ℝ) : ∃ r r',
    vertsolve1 (2000 + 13) (fin (1 / 100)) .linear (fun P Sp Tp => zeroPotential (fun s t _ => s - t) P Sp Tp (fin 0) (fin v)) longCast = .ret r ∧
    vertsolve1 (2000 + 13) (fin (1 / 100)) .linear (fun P Sp Tp => zeroPotential (fun s t _ => s - t) P Sp Tp (fin 0) (fin v)) exCast = .ret r' ∧
    ∀ p, r.2.2 = fin p → p + acc (1 / 100) p ≤ 3 → ∃ p', r'.2.2 = fin p' ∧ |p' - p| ≤ acc (1 / 100) p + acc (1 / 100) p' := by
  obtain ⟨r, r', h1, h2, h3⟩ := potential_window (eos := fun s t _ => s - t) (e := fun s t _ => s - t) (smin := 0) (tol := 1 / 100) (refP := 0) (v := v) .linear
    exEos longGood exGood (fun i _ _ => by split_ifs <;> norm_num) (fun i _ _ => by split_ifs <;> norm_num) (by norm_num) 2000 (by norm_num) (by norm_num)
    (fun x y σ τ σ' τ' g1 g2 g3 g4 g5 => by
      have := exStrat (by norm_num at g1; exact g1) g2.le (by norm_num at g3; exact g3) g4 g5
      linarith)
  refine ⟨r, r', h1, h2, fun p hp hle => h3 p hp ⟨0, 1, 2, 0, by simp, by omega, by omega, by omega, by omega, by omega, ?_, Or.inr ⟨rfl, rfl⟩, Or.inl ⟨by omega, ?_⟩⟩⟩
  · intro j hj
    interval_cases j <;> norm_num
  · norm_num at hle ⊢
    exact hle

end VertSolve
