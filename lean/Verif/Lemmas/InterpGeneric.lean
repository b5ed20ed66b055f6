import Verif.Lemmas.Interp

set_option linter.unusedSectionVars false

namespace Interp
open FloatLike

section generic
variable {F : Type*} [FloatLike F]

theorem validRange2_congr {X Y X' Y' : Arr F} (hs : X.size = X'.size)
    (hX : ∀ i, i < X.size → X.get i = X'.get i) (hY : ∀ i, i < X.size → Y.get i = Y'.get i) :
    validRange2 X Y = validRange2 X' Y' := by
  have h1 : firstFrom (fun i => isFinite (X.get i) && isFinite (Y.get i)) 0 X.size
      = firstFrom (fun i => isFinite (X'.get i) && isFinite (Y'.get i)) 0 X'.size := by
    apply firstFrom_eq
    · rw [hs]; exact firstFrom_le _ _ _
    · intro i _ h
      have h2 := lt_of_lt_of_le h (firstFrom_le _ _ _)
      rw [hX i (by omega), hY i (by omega)]
      exact firstFrom_before (p := fun i => isFinite (X'.get i) && isFinite (Y'.get i)) (Nat.zero_le _) h
    · intro h
      rw [hX _ h, hY _ h]
      rw [hs] at h
      exact firstFrom_at (p := fun i => isFinite (X'.get i) && isFinite (Y'.get i)) h
  unfold validRange2
  simp only
  rw [h1]
  congr 1
  apply firstFrom_eq
  · rw [hs]; exact firstFrom_le _ _ _
  · intro i h0 h
    have h2 := lt_of_lt_of_le h (firstFrom_le _ _ _)
    rw [hX i (by omega), hY i (by omega)]
    exact firstFrom_before (p := fun i => isNaN (X'.get i) || isNaN (Y'.get i)) h0 h
  · intro h
    rw [hX _ h, hY _ h]
    rw [hs] at h
    exact firstFrom_at (p := fun i => isNaN (X'.get i) || isNaN (Y'.get i)) h

theorem validRange2_K_le (X Y : Arr F) : (validRange2 X Y).2 ≤ X.size := firstFrom_le _ _ _

theorem validRange2_first (X Y : Arr F) (h : (validRange2 X Y).1 < X.size) :
    isFinite (X.get (validRange2 X Y).1) = true ∧ isFinite (Y.get (validRange2 X Y).1) = true := by
  have := (firstFrom_at (p := fun i => isFinite (X.get i) && isFinite (Y.get i)) h).2
  exact Bool.and_eq_true_iff.mp this

theorem validRange2_before (X Y : Arr F) {i : ℕ} (h : i < (validRange2 X Y).1) :
    isFinite (X.get i) = false ∨ isFinite (Y.get i) = false := by
  have := firstFrom_before (p := fun i => isFinite (X.get i) && isFinite (Y.get i)) (Nat.zero_le _) h
  exact Bool.and_eq_false_iff.mp this

theorem validRange2_in (X Y : Arr F) {i : ℕ} (h : (validRange2 X Y).1 < i) (h' : i < (validRange2 X Y).2) :
    isNaN (X.get i) = false ∧ isNaN (Y.get i) = false := by
  have := firstFrom_before (p := fun i => isNaN (X.get i) || isNaN (Y.get i)) h h'
  simpa using this

theorem validRange2_after (X Y : Arr F) (h : (validRange2 X Y).2 < X.size) :
    isNaN (X.get (validRange2 X Y).2) = true ∨ isNaN (Y.get (validRange2 X Y).2) = true := by
  have := (firstFrom_at (p := fun i => isNaN (X.get i) || isNaN (Y.get i)) h).2
  exact Bool.or_eq_true_iff.mp this

/-- Uniqueness of the valid range when it is nonempty. -/
theorem validRange2_eq {X Y : Arr F} {k K : ℕ} (hk : k < X.size) (hK : k < K) (hKs : K ≤ X.size)
    (h1 : ∀ i, i < k → isFinite (X.get i) = false ∨ isFinite (Y.get i) = false)
    (h2 : isFinite (X.get k) = true ∧ isFinite (Y.get k) = true)
    (h3 : ∀ i, k < i → i < K → isNaN (X.get i) = false ∧ isNaN (Y.get i) = false)
    (h4 : K < X.size → isNaN (X.get K) = true ∨ isNaN (Y.get K) = true) :
    validRange2 X Y = (k, K) := by
  have e1 : firstFrom (fun i => isFinite (X.get i) && isFinite (Y.get i)) 0 X.size = k := by
    apply firstFrom_eq hk.le
    · intro i _ h; exact Bool.and_eq_false_iff.mpr (h1 i h)
    · intro _; simpa using h2
  unfold validRange2
  simp only
  rw [e1]
  congr 1
  apply firstFrom_eq hKs
  · intro i h h'; simpa using h3 i h h'
  · intro h; exact ⟨hK, by simpa using h4 h⟩

theorem validRange2_none {X Y : Arr F}
    (h1 : ∀ i, i < X.size → isFinite (X.get i) = false ∨ isFinite (Y.get i) = false) :
    validRange2 X Y = (X.size, X.size) := by
  have e1 : firstFrom (fun i => isFinite (X.get i) && isFinite (Y.get i)) 0 X.size = X.size := by
    apply firstFrom_eq (le_refl _)
    · intro i _ h; exact Bool.and_eq_false_iff.mpr (h1 i h)
    · intro h; omega
  unfold validRange2
  simp only
  rw [e1]
  congr 1
  apply firstFrom_eq (le_refl _)
  · intro i h h'; omega
  · intro h; omega

/-! ### coefficient tables keep the data in the last column -/

@[simp] theorem linearCoeffs1_size (X Y : Arr F) : (linearCoeffs1 X Y).size = Y.size := (rfl)

theorem linearCoeffs1_lastCol (X Y : Arr F) : (linearCoeffs1 X Y).lastCol = Y := (rfl)

theorem hermite_last {h δ d0 d1 y : F} {C : List F} (hC : hermite h δ d0 d1 y = some C) :
    C.getLast?.getD nan = y := by
  unfold hermite at hC
  simp only [Option.bind_eq_bind, Option.bind_eq_some_iff] at hC
  obtain ⟨_, _, _, _, c, _, hc⟩ := hC
  cases hc
  simp

theorem pchipRow_last {X Y : Arr F} {k K i : ℕ} {C : List F} (hC : pchipRow X Y k K i = some C) :
    C.getLast?.getD nan = Y.get i := by
  unfold pchipRow at hC
  simp only [Option.bind_eq_bind, Option.bind_eq_some_iff] at hC
  obtain ⟨d0, _, d1, _, h⟩ := hC
  exact hermite_last h

theorem pchipAux_spec {X Y : Arr F} {k K : ℕ} {C : PPC F} (hC : pchipCoeffsAux X Y k K = some C) :
    C.size = X.size ∧ C.lastCol.get = Y.get := by
  unfold pchipCoeffsAux at hC
  simp only at hC
  split_ifs at hC with h1 h2 h3
  · cases hC
    refine ⟨rfl, ?_⟩
    funext i
    show ((if k ≤ i ∧ i < K - 1 then (pchipRow X Y k K i).getD _ else _ : List F)).getLast?.getD nan = _
    split_ifs with h
    · rw [List.all_eq_true] at h2
      have := h2 i (by rw [List.mem_range'_1]; omega)
      obtain ⟨r, hr⟩ := Option.isSome_iff_exists.mp this
      rw [hr]; exact pchipRow_last hr
    · simp
  · cases hs : sdiv (Y.get (k + 1) - Y.get k) (X.get (k + 1) - X.get k) <;> rw [hs] at hC <;> simp at hC
    subst hC
    refine ⟨rfl, ?_⟩
    funext i
    simp only [PPC.lastCol]
    split_ifs <;> simp
  · cases hC
    refine ⟨rfl, ?_⟩
    funext i
    simp [PPC.lastCol]

theorem pchipAux_row {X Y : Arr F} {k K : ℕ} {C : PPC F} (hC : pchipCoeffsAux X Y k K = some C) (h2 : 2 < K - k)
    {i : ℕ} (hk : k ≤ i) (hi : i + 1 < K) : pchipRow X Y k K i = some (C.row i) := by
  unfold pchipCoeffsAux at hC
  simp only at hC
  rw [if_pos h2] at hC
  split_ifs at hC with h3
  cases hC
  rw [List.all_eq_true] at h3
  have := h3 i (by rw [List.mem_range'_1]; omega)
  obtain ⟨r, hr⟩ := Option.isSome_iff_exists.mp this
  simp only
  rw [if_pos ⟨hk, by omega⟩, hr]
  rfl

/-! ### C14 -/

theorem midSlope_comm (hadd : ∀ a b : F, a + b = b + a) (h0 h1 δ0 δ1 : F) :
    midSlopeI h0 h1 δ0 δ1 = midSlope h0 h1 δ0 δ1 := by
  unfold midSlope midSlopeI
  simp only
  rw [hadd (lit 2 * h1) h0, hadd h1 (lit 2 * h0)]

theorem endSlope_comm (hadd : ∀ a b : F, a + b = b + a) (h0 h1 δ0 δ1 : F) :
    endSlopeR h0 h1 δ0 δ1 = endSlope h1 h0 δ1 δ0 := by
  unfold endSlope endSlopeR
  rw [hadd h0 (lit 2 * h1), hadd h0 h1]

theorem sdiv_of_hermite {h δ d0 d1 y : F} {C : List F} (hC : hermite h δ d0 d1 y = some C) (z : F) :
    sdiv z h = some (z / h) := by
  unfold hermite at hC
  unfold sdiv at hC ⊢
  split_ifs at hC ⊢ with h1
  · simp at hC
  · rfl

theorem sdiv_of_row {X Y : Arr F} {k K i : ℕ} {C : List F} (hC : pchipRow X Y k K i = some C) (z : F) :
    sdiv z ((diffSame X).get i) = some (z / (diffSame X).get i) := by
  unfold pchipRow at hC
  simp only [Option.bind_eq_bind, Option.bind_eq_some_iff] at hC
  obtain ⟨d0, _, d1, _, h⟩ := hC
  exact sdiv_of_hermite h z

theorem diffSame_get {X : Arr F} {i : ℕ} (h : i + 1 < X.size) :
    (diffSame X).get i = X.get (i + 1) - X.get i := by
  show (if i + 1 = X.size then nan else _) = _
  rw [if_neg (by omega)]

/-- Data entries are finite or NaN, and the sum of two entries is NaN only if one is. -/
structure Plain (X Y : Arr F) : Prop where
  x : ∀ i, i < X.size → isFinite (X.get i) = !isNaN (X.get i)
  y : ∀ i, i < X.size → isFinite (Y.get i) = !isNaN (Y.get i)
  add : ∀ i, i < X.size → isNaN (X.get i + Y.get i) = (isNaN (X.get i) || isNaN (Y.get i))

theorem Plain.atStart {X Y : Arr F} (P : Plain X Y) {i : ℕ} (h1 : (validRange2 X Y).1 ≤ i)
    (h2 : i + 1 < (validRange2 X Y).2) :
    (decide (i = 0) || isNaN (X.get (i - 1) + Y.get (i - 1))) = decide (i = (validRange2 X Y).1) := by
  have hK := validRange2_K_le X Y
  by_cases h0 : i = 0
  · have : i = (validRange2 X Y).1 := by omega
    rw [decide_eq_true h0, decide_eq_true this]; rfl
  · rw [decide_eq_false h0, Bool.false_or, P.add _ (by omega)]
    by_cases h3 : i = (validRange2 X Y).1
    · have h4 := validRange2_before X Y (i := i - 1) (by omega)
      rw [P.x _ (by omega), P.y _ (by omega)] at h4
      rw [decide_eq_true h3]
      rcases h4 with h | h
      · rw [(by simpa using h : isNaN (X.get (i - 1)) = true)]; rfl
      · rw [(by simpa using h : isNaN (Y.get (i - 1)) = true)]; simp
    · rw [decide_eq_false h3]
      have h4 : isNaN (X.get (i - 1)) = false ∧ isNaN (Y.get (i - 1)) = false := by
        by_cases h5 : i - 1 = (validRange2 X Y).1
        · have h6 := validRange2_first X Y (by omega)
          rw [← h5, P.x _ (by omega), P.y _ (by omega)] at h6
          simpa using h6
        · exact validRange2_in X Y (by omega) (by omega)
      rw [h4.1, h4.2]; rfl

theorem Plain.atEnd {X Y : Arr F} (P : Plain X Y) {i : ℕ} (h1 : (validRange2 X Y).1 ≤ i)
    (h2 : i + 1 < (validRange2 X Y).2) :
    (decide (i = X.size - 2) || isNaN (X.get (i + 2) + Y.get (i + 2)))
      = decide (i + 2 = (validRange2 X Y).2) := by
  have hK := validRange2_K_le X Y
  by_cases h0 : i = X.size - 2
  · have : i + 2 = (validRange2 X Y).2 := by omega
    rw [decide_eq_true h0, decide_eq_true this]; rfl
  · rw [decide_eq_false h0, Bool.false_or, P.add _ (by omega)]
    by_cases h3 : i + 2 = (validRange2 X Y).2
    · have h4 := validRange2_after X Y (by omega)
      rw [decide_eq_true h3, h3]
      rcases h4 with h | h <;> rw [h] <;> simp
    · rw [decide_eq_false h3]
      have h4 := validRange2_in X Y (i := i + 2) (by omega) (by omega)
      rw [h4.1, h4.2]; rfl

/-- Coefficients of piece `i` computed on the fly are row `i` of the table. -/
theorem pchipCoeffsI_eq (hadd : ∀ a b : F, a + b = b + a) {X Y : Arr F} (P : Plain X Y) {C : PPC F}
    (hC : pchipCoeffs1 X Y = some C) (hs : X.size = Y.size) {i : ℕ} (h1 : (validRange2 X Y).1 ≤ i)
    (h2 : i + 1 < (validRange2 X Y).2) : pchipCoeffsI X Y i = some (C.row i) := by
  have hK := validRange2_K_le X Y
  have hS := P.atStart h1 h2
  have hE := P.atEnd h1 h2
  unfold pchipCoeffs1 at hC
  generalize hk : (validRange2 X Y).1 = k at *
  generalize hKK : (validRange2 X Y).2 = K at *
  unfold pchipCoeffsI
  simp only
  rw [hS, hE]
  by_cases h3 : 2 < K - k
  · have hrow : ∀ j, k ≤ j → j + 1 < K → ∀ z, sdiv z ((diffSame X).get j) = some (z / (diffSame X).get j) :=
      fun j hj hj' z => sdiv_of_row (pchipAux_row hC h3 hj hj') z
    have hr := pchipAux_row hC h3 h1 h2
    rw [← hr]
    unfold pchipRow
    simp only
    by_cases h4 : i = k
    · have h5 : i + 2 ≠ K := by omega
      rw [decide_eq_true h4, decide_eq_false h5]
      simp only [Bool.and_false, Bool.false_eq_true, if_false, if_true]
      have e1 := hrow i h1 h2
      have e2 := hrow (i + 1) (by omega) (by omega)
      rw [diffSame_get (by omega)] at e1 e2
      rw [e1, e2]
      subst h4
      simp only [slopeAt, Option.bind_eq_bind, Option.bind_some, if_true]
      rw [if_neg (by omega), if_neg (by omega)]
      simp only [Nat.add_sub_cancel]
      rw [diffSame_get (X := X) (i := i) (by omega), diffSame_get (X := X) (i := i + 1) (by omega),
        diffSame_get (X := Y) (i := i) (by omega), diffSame_get (X := Y) (i := i + 1) (by omega), midSlope_comm hadd]
    · by_cases h5 : i + 2 = K
      · rw [decide_eq_false h4, decide_eq_true h5]
        simp only [Bool.and_true, Bool.false_eq_true, if_false, if_true]
        have e1 := hrow i h1 h2
        have e2 := hrow (i - 1) (by omega) (by omega)
        rw [diffSame_get (by omega)] at e1 e2
        rw [show i - 1 + 1 = i by omega] at e2
        rw [e1, e2]
        simp only [slopeAt, Option.bind_eq_bind, Option.bind_some]
        rw [if_neg h4, if_neg (by omega : ¬ i = K - 1), if_neg (by omega : ¬ i + 1 = k), if_pos (by omega : i + 1 = K - 1)]
        rw [show K - 2 = i by omega, show K - 3 = i - 1 by omega]
        rw [diffSame_get (X := X) (i := i) (by omega), diffSame_get (X := X) (i := i - 1) (by omega),
          diffSame_get (X := Y) (i := i) (by omega), diffSame_get (X := Y) (i := i - 1) (by omega),
          show i - 1 + 1 = i by omega, midSlope_comm hadd, endSlope_comm hadd]
      · rw [decide_eq_false h4, decide_eq_false h5]
        simp only [Bool.and_false, Bool.false_eq_true, if_false]
        have e1 := hrow i h1 h2
        have e2 := hrow (i - 1) (by omega) (by omega)
        have e3 := hrow (i + 1) (by omega) (by omega)
        rw [diffSame_get (by omega)] at e1 e2 e3
        rw [show i - 1 + 1 = i by omega] at e2
        rw [e1, e2, e3]
        simp only [slopeAt, Option.bind_eq_bind, Option.bind_some]
        rw [if_neg h4, if_neg (by omega : ¬ i = K - 1), if_neg (by omega : ¬ i + 1 = k), if_neg (by omega : ¬ i + 1 = K - 1)]
        simp only [Nat.add_sub_cancel]
        rw [diffSame_get (X := X) (i := i) (by omega), diffSame_get (X := X) (i := i - 1) (by omega),
          diffSame_get (X := Y) (i := i) (by omega), diffSame_get (X := Y) (i := i - 1) (by omega),
          diffSame_get (X := X) (i := i + 1) (by omega), diffSame_get (X := Y) (i := i + 1) (by omega),
          show i - 1 + 1 = i by omega, midSlope_comm hadd, midSlope_comm hadd]
  · have h4 : i = k := by omega
    have h5 : i + 2 = K := by omega
    rw [decide_eq_true h4, decide_eq_true h5]
    simp only [Bool.and_true, if_true]
    unfold pchipCoeffsAux at hC
    simp only at hC
    rw [if_neg h3, if_pos (by omega)] at hC
    rw [h4]
    cases hsd : sdiv (Y.get (k + 1) - Y.get k) (X.get (k + 1) - X.get k) <;> rw [hsd] at hC <;> simp at hC
    subst hC
    simp

end generic
end Interp
