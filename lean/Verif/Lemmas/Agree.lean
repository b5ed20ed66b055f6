import Verif.Model.Traj
import Verif.Lemmas.InterpPad

/-! # Entries beyond the size of an array are not read -/

set_option linter.unusedSectionVars false

namespace Interp
open FloatLike Traj
variable {F : Type*} [FloatLike F]

/-- Same size and the same entries. -/
structure Agree {α : Type*} (X X' : Arr α) : Prop where
  size : X'.size = X.size
  get : ∀ i, i < X.size → X'.get i = X.get i

/-- Same for coefficient tables. -/
structure AgreeC (C C' : PPC F) : Prop where
  size : C'.size = C.size
  row : ∀ i, i < C.size → C'.row i = C.row i

theorem AgreeC.lastCol {C C' : PPC F} (H : AgreeC C C') : Agree C.lastCol C'.lastCol :=
  ⟨H.size, fun i hi => by show (C'.row i).getLast?.getD nan = (C.row i).getLast?.getD nan; rw [H.row i hi]⟩

theorem Agree.diffSame {X X' : Arr F} (H : Agree X X') {i : ℕ} (hi : i < X.size) : (diffSame X').get i = (diffSame X).get i := by
  show (if i + 1 = X'.size then nan else X'.get (i + 1) - X'.get i) = (if i + 1 = X.size then nan else X.get (i + 1) - X.get i)
  rw [H.size]
  split_ifs with h
  · rfl
  · rw [H.get _ (by omega), H.get _ hi]

theorem Agree.slopeAt {h h' δ δ' : ℕ → F} {N i : ℕ} (hh : ∀ i, i < N → h' i = h i) (hd : ∀ i, i < N → δ' i = δ i) (h2 : 2 < N) (hi : i < N) :
    slopeAt h' δ' 0 N i = slopeAt h δ 0 N i := by
  unfold Interp.slopeAt
  rw [hh 0 (by omega), hh (0 + 1) (by omega), hd 0 (by omega), hd (0 + 1) (by omega), hh (N - 2) (by omega), hh (N - 3) (by omega), hd (N - 2) (by omega),
    hd (N - 3) (by omega), hh i hi, hd i hi, hh (i - 1) (by omega), hd (i - 1) (by omega)]

theorem Agree.pchipRow {X Y X' Y' : Arr F} (hX : Agree X X') (hY : Agree Y Y') (hs : Y.size = X.size) (h2 : 2 < X.size) {i : ℕ} (hi : i + 1 < X.size) :
    pchipRow X' Y' 0 X.size i = pchipRow X Y 0 X.size i := by
  unfold Interp.pchipRow
  dsimp only
  have hh : ∀ i, i < X.size → (Interp.diffSame X').get i = (Interp.diffSame X).get i := fun i hi => hX.diffSame hi
  have hd : ∀ i, i < X.size → (Interp.diffSame Y').get i / (Interp.diffSame X').get i = (Interp.diffSame Y).get i / (Interp.diffSame X).get i :=
    fun i hi => by rw [hX.diffSame hi, hY.diffSame (by omega)]
  rw [Agree.slopeAt (N := X.size) (i := i) hh hd h2 (by omega), Agree.slopeAt (N := X.size) (i := i + 1) hh hd h2 hi, hh i (by omega), hY.diffSame (i := i) (by omega),
    hY.get i (by omega)]

theorem Agree.pchip {X Y X' Y' : Arr F} (hX : Agree X X') (hY : Agree Y Y') (hs : Y.size = X.size) :
    (pchipCoeffs1Nonan X Y = none ∧ pchipCoeffs1Nonan X' Y' = none) ∨
      ∃ C C', pchipCoeffs1Nonan X Y = some C ∧ pchipCoeffs1Nonan X' Y' = some C' ∧ AgreeC C C' ∧ C.size = X.size := by
  unfold pchipCoeffs1Nonan pchipCoeffsAux
  dsimp only
  rw [hX.size]
  by_cases h2 : 2 < X.size - 0
  · rw [if_pos h2, if_pos h2]
    have e : (List.range' 0 (X.size - 1 - 0)).all (fun i => (Interp.pchipRow X' Y' 0 X.size i).isSome) =
        (List.range' 0 (X.size - 1 - 0)).all (fun i => (Interp.pchipRow X Y 0 X.size i).isSome) := by
      rw [Bool.eq_iff_iff, List.all_eq_true, List.all_eq_true]
      refine forall₂_congr fun i hi => ?_
      rw [List.mem_range'_1] at hi
      rw [Agree.pchipRow hX hY hs (by omega) (by omega)]
    rw [e]
    split_ifs with h
    · refine Or.inr ⟨_, _, rfl, rfl, ⟨rfl, ?_⟩, rfl⟩
      intro i hi
      have hi : i < X.size := hi
      dsimp only
      by_cases h' : 0 ≤ i ∧ i < X.size - 1
      · rw [if_pos h', if_pos h', Agree.pchipRow hX hY hs (by omega) (by omega), hY.get i (by omega)]
      · rw [if_neg h', if_neg h', hY.get i (by omega)]
    · exact Or.inl ⟨rfl, rfl⟩
  rw [if_neg h2, if_neg h2]
  by_cases h3 : X.size - 0 = 2
  · rw [if_pos h3, if_pos h3, hY.get (0 + 1) (by omega), hY.get 0 (by omega), hX.get (0 + 1) (by omega), hX.get 0 (by omega)]
    cases sdiv (Y.get (0 + 1) - Y.get 0) (X.get (0 + 1) - X.get 0) with
    | none => exact Or.inl ⟨rfl, rfl⟩
    | some δ =>
      refine Or.inr ⟨_, _, rfl, rfl, ⟨rfl, ?_⟩, rfl⟩
      intro i hi
      have hi : i < X.size := hi
      show (if i = 0 then [lit 0, lit 0, δ, Y'.get i] else [nan, nan, nan, Y'.get i]) = _
      rw [hY.get i (by omega)]
  · rw [if_neg h3, if_neg h3]
    refine Or.inr ⟨_, _, rfl, rfl, ⟨rfl, ?_⟩, rfl⟩
    intro i hi
    have hi : i < X.size := hi
    dsimp only
    rw [hY.get i (by omega)]

theorem Agree.ppcFn {kind : PPKind} {X Y X' Y' : Arr F} (hX : Agree X X') (hY : Agree Y Y') (hs : Y.size = X.size) :
    (ppcFn kind X Y = none ∧ ppcFn kind X' Y' = none) ∨
      ∃ C C', ppcFn kind X Y = some C ∧ ppcFn kind X' Y' = some C' ∧ AgreeC C C' ∧ C.size = X.size := by
  cases kind with
  | pchip => exact hX.pchip hY hs
  | linear =>
    refine Or.inr ⟨_, _, rfl, rfl, ⟨hY.size, ?_⟩, hs⟩
    intro i hi
    have hi : i < Y.size := hi
    show [(Interp.diffSame Y').get i / (Interp.diffSame X').get i, Y'.get i] = [(Interp.diffSame Y).get i / (Interp.diffSame X).get i, Y.get i]
    rw [hY.diffSame hi, hX.diffSame (by omega), hY.get i hi]

theorem Agree.searchsorted {X X' : Arr F} (H : Agree X X') (x : F) : searchsorted X' x = searchsorted X x := by
  unfold Interp.searchsorted
  rw [H.size]
  exact bsearch_congr _ _ _ fun i _ hi => H.get i hi

theorem Agree.nonanTwo {X X' : Arr F} {C C' D D' : PPC F} (hX : Agree X X') (hC : AgreeC C C') (hD : AgreeC D D') (h0 : 0 < X.size) (sC : C.size = X.size)
    (sD : D.size = X.size) (x : F) : ppval1NonanTwo x X' C' D' 0 = ppval1NonanTwo x X C D 0 := by
  unfold ppval1NonanTwo
  dsimp only
  have hi : max 0 (Interp.searchsorted X x - 1) < X.size := by
    have := (bsearch_le X.get x X.size 0 X.size (by omega)).1
    have : Interp.searchsorted X x ≤ X.size := this
    omega
  rw [hX.size, hX.get 0 h0, hX.get _ (by omega), hX.searchsorted, hX.get _ hi, hC.row _ (by omega), hD.row _ (by omega)]

theorem Agree.slice {X X' : Arr F} (H : Agree X X') (k K : ℕ) (hK : K ≤ X.size) : Agree (X.slice k K) (X'.slice k K) :=
  ⟨rfl, fun i hi => H.get _ (by have : i < K - k := hi; omega)⟩

theorem Agree.two {X X' : Arr F} {C C' D D' : PPC F} (hX : Agree X X') (hC : AgreeC C C') (hD : AgreeC D D') (sC : C.size = X.size)
    (sD : D.size = X.size) (x : F) : ppval1Two x X' C' D' 0 = ppval1Two x X C D 0 := by
  unfold ppval1Two
  dsimp only
  have hv : validRange2 X' C'.lastCol = validRange2 X C.lastCol :=
    (validRange2_congr hX.size.symm (fun i hi => (hX.get i hi).symm)
      (fun i hi => ((hC.lastCol).get i (by show i < C.size; omega)).symm)).symm
  have hK := validRange2_K_le X C.lastCol
  rw [hv]
  generalize (validRange2 X C.lastCol).1 = k at hK ⊢
  generalize (validRange2 X C.lastCol).2 = K at hK ⊢
  have ho : outside X' k K x = outside X k K x := by
    unfold outside
    by_cases h : K - 1 ≤ k
    · rw [decide_eq_true h]; rfl
    · rw [hX.get k (by omega), hX.get (K - 1) (by omega)]
  rw [ho]
  cases h : outside X k K x with
  | true => rfl
  | false =>
    obtain ⟨h1, h2⟩ := pieceIndex_range' X k K x h
    have hp : pieceIndex X' k K x = pieceIndex X k K x := by
      unfold pieceIndex
      rw [(hX.slice k K hK).searchsorted]
    rw [hp, hX.get _ (by omega), hC.row _ (by omega), hD.row _ (by omega)]

end Interp
