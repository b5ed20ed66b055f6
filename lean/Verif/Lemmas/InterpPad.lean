import Verif.Lemmas.InterpGeneric

set_option linter.unusedSectionVars false

namespace Interp
open FloatLike

variable {F : Type*} [FloatLike F]

/-- `(X', Y')` is `(X, Y)` with `m` NaN sites put before it, and, if anything comes after, a NaN site first. -/
structure Padded (X Y X' Y' : Arr F) (m : ℕ) : Prop where
  sizeY : Y.size = X.size
  sizeY' : Y'.size = X'.size
  le : m + X.size ≤ X'.size
  x : ∀ i, i < X.size → X'.get (m + i) = X.get i
  y : ∀ i, i < X.size → Y'.get (m + i) = Y.get i
  before : ∀ j, j < m → isNaN (X'.get j) = true ∨ isNaN (Y'.get j) = true
  after : m + X.size < X'.size →
    isNaN (X'.get (m + X.size)) = true ∨ isNaN (Y'.get (m + X.size)) = true

theorem Padded.vr {X Y X' Y' : Arr F} {m : ℕ} (P : Padded X Y X' Y' m)
    (hfn : ∀ x : F, isFinite x = true → isNaN x = false) (hk : (validRange2 X Y).1 < X.size) :
    validRange2 X' Y' = (m + (validRange2 X Y).1, m + (validRange2 X Y).2) := by
  have hK := validRange2_K_le X Y
  have hkK : (validRange2 X Y).1 < (validRange2 X Y).2 := by
    by_contra hc
    have h1 := validRange2_first X Y hk
    have hKlt : (validRange2 X Y).2 < X.size := by omega
    have := (firstFrom_at (p := fun i => isNaN (X.get i) || isNaN (Y.get i)) hKlt).1
    have : (validRange2 X Y).1 + 1 ≤ (validRange2 X Y).2 := this
    omega
  have hle := P.le
  have hnf : ∀ x : F, isNaN x = true → isFinite x = false := by
    intro x h
    cases h' : isFinite x with
    | false => rfl
    | true => rw [hfn x h'] at h; cases h
  apply validRange2_eq (by omega) (by omega) (by omega)
  · intro i hi
    by_cases him : i < m
    · rcases P.before i him with h | h
      · exact Or.inl (hnf _ h)
      · exact Or.inr (hnf _ h)
    · have := validRange2_before X Y (i := i - m) (by omega)
      rw [← P.x _ (by omega), ← P.y _ (by omega), show m + (i - m) = i by omega] at this
      exact this
  · rw [P.x _ hk, P.y _ hk]; exact validRange2_first X Y hk
  · intro i h1 h2
    have := validRange2_in X Y (i := i - m) (by omega) (by omega)
    rw [← P.x _ (by omega), ← P.y _ (by omega), show m + (i - m) = i by omega] at this
    exact this
  · intro h
    by_cases h' : (validRange2 X Y).2 < X.size
    · rw [P.x _ h', P.y _ h']; exact validRange2_after X Y h'
    · have e : (validRange2 X Y).2 = X.size := by omega
      rw [e] at h ⊢
      exact P.after h

theorem Padded.outside_eq {X Y X' Y' : Arr F} {m k K : ℕ} (P : Padded X Y X' Y' m) (hK : K ≤ X.size) (x : F) :
    outside X' (m + k) (m + K) x = outside X k K x := by
  unfold outside
  by_cases h : K - 1 ≤ k
  · rw [decide_eq_true h, decide_eq_true (by omega : m + K - 1 ≤ m + k)]; rfl
  · rw [decide_eq_false h, decide_eq_false (by omega : ¬ m + K - 1 ≤ m + k), P.x k (by omega),
      show m + K - 1 = m + (K - 1) by omega, P.x _ (by omega)]

theorem Padded.piece_eq {X Y X' Y' : Arr F} {m k K : ℕ} (P : Padded X Y X' Y' m) (hK : K ≤ X.size) (x : F) :
    pieceIndex X' (m + k) (m + K) x = m + pieceIndex X k K x ∨ K ≤ k := by
  by_cases hkK : K ≤ k
  · exact Or.inr hkK
  left
  unfold pieceIndex searchsorted
  have hs : (X'.slice (m + k) (m + K)).size = (X.slice k K).size := by
    show m + K - (m + k) = K - k
    omega
  rw [hs]
  have : bsearch (X'.slice (m + k) (m + K)).get x (X.slice k K).size 0 (X.slice k K).size
      = bsearch (X.slice k K).get x (X.slice k K).size 0 (X.slice k K).size := by
    apply bsearch_congr
    intro i _ hi
    have hi' : i < K - k := hi
    show X'.get (m + k + i) = X.get (k + i)
    rw [add_assoc]; exact P.x _ (by omega)
  rw [this]
  omega

/-- On-the-fly interpolation does not see the padding, for any piece function that does not. -/
theorem Padded.ppinterp1 {X Y X' Y' : Arr F} {m : ℕ} (P : Padded X Y X' Y' m)
    (hfn : ∀ x : F, isFinite x = true → isNaN x = false)
    {f : Arr F → Arr F → ℕ → Option (List F)}
    (hnone : (∀ i, i < X.size → isFinite (X.get i) = false ∨ isFinite (Y.get i) = false) →
      ∀ i, i < X'.size → isFinite (X'.get i) = false ∨ isFinite (Y'.get i) = false)
    (hf : ∀ i, (validRange2 X Y).1 ≤ i → i + 2 ≤ (validRange2 X Y).2 → f X' Y' (m + i) = f X Y i)
    (x : F) (d : ℕ) : ppinterp1 f x X' Y' d = ppinterp1 f x X Y d := by
  have hK := validRange2_K_le X Y
  unfold Interp.ppinterp1
  simp only
  by_cases hk : (validRange2 X Y).1 < X.size
  · rw [P.vr hfn hk]
    simp only
    rw [P.outside_eq hK]
    by_cases ho : outside X (validRange2 X Y).1 (validRange2 X Y).2 x = true
    · rw [if_pos ho, if_pos ho]
    · rw [if_neg ho, if_neg ho]
      have ho' : outside X (validRange2 X Y).1 (validRange2 X Y).2 x = false := by simpa using ho
      obtain ⟨h1, h2⟩ := pieceIndex_range' X _ _ x ho'
      rcases P.piece_eq (k := (validRange2 X Y).1) hK x with h | h
      · rw [h, hf _ h1 h2, P.x _ (by omega)]
      · omega
  · have hno : ∀ i, i < X.size → isFinite (X.get i) = false ∨ isFinite (Y.get i) = false :=
      fun i hi => validRange2_before X Y (by omega)
    rw [validRange2_none hno, validRange2_none (hnone hno)]
    have o1 : outside X X.size X.size x = true := by
      unfold outside; rw [decide_eq_true (by omega)]; rfl
    have o2 : outside X' X'.size X'.size x = true := by
      unfold outside; rw [decide_eq_true (by omega)]; rfl
    simp only [o1, o2, if_true]

theorem Padded.linearCoeffsI {X Y X' Y' : Arr F} {m i : ℕ} (P : Padded X Y X' Y' m) (h : i + 1 < X.size) :
    linearCoeffsI X' Y' (m + i) = linearCoeffsI X Y i := by
  unfold Interp.linearCoeffsI
  rw [add_assoc, P.x _ h, P.y _ h, P.x i (by omega), P.y i (by omega)]

theorem Padded.pchipCoeffsI {X Y X' Y' : Arr F} {m i : ℕ} (P : Padded X Y X' Y' m)
    (hn : ∀ a b : F, isNaN a = true ∨ isNaN b = true → isNaN (a + b) = true) (h : i + 1 < X.size) :
    pchipCoeffsI X' Y' (m + i) = pchipCoeffsI X Y i := by
  have hle := P.le
  have eS : (decide (m + i = 0) || isNaN (X'.get (m + i - 1) + Y'.get (m + i - 1)))
      = (decide (i = 0) || isNaN (X.get (i - 1) + Y.get (i - 1))) := by
    by_cases h0 : i = 0
    · subst h0
      by_cases hm : m = 0
      · subst hm; simp
      · rw [hn _ _ (P.before (m + 0 - 1) (by omega))]; simp
    · rw [decide_eq_false h0, decide_eq_false (by omega), show m + i - 1 = m + (i - 1) by omega,
        P.x _ (by omega), P.y _ (by omega)]
  have eE : (decide (m + i = X'.size - 2) || isNaN (X'.get (m + i + 2) + Y'.get (m + i + 2)))
      = (decide (i = X.size - 2) || isNaN (X.get (i + 2) + Y.get (i + 2))) := by
    by_cases h0 : i = X.size - 2
    · rw [decide_eq_true h0]
      by_cases hm : m + X.size = X'.size
      · rw [decide_eq_true (by omega : m + i = X'.size - 2)]; rfl
      · have := hn _ _ (P.after (by omega))
        rw [show m + i + 2 = m + X.size by omega, this]; simp
    · rw [decide_eq_false h0, decide_eq_false (by omega), add_assoc, P.x _ (by omega), P.y _ (by omega)]
  have ends : i + 2 < X.size ∨ (decide (i = X.size - 2) || isNaN (X.get (i + 2) + Y.get (i + 2))) = true := by
    by_cases h0 : i + 2 < X.size
    · exact Or.inl h0
    · right; rw [decide_eq_true (by omega)]; rfl
  have starts : 0 < i ∨ (decide (i = 0) || isNaN (X.get (i - 1) + Y.get (i - 1))) = true := by
    by_cases h0 : 0 < i
    · exact Or.inl h0
    · right; rw [decide_eq_true (by omega)]; rfl
  unfold Interp.pchipCoeffsI
  simp only
  rw [eS, eE]
  generalize (decide (i = 0) || isNaN (X.get (i - 1) + Y.get (i - 1))) = bs at *
  generalize (decide (i = X.size - 2) || isNaN (X.get (i + 2) + Y.get (i + 2))) = be at *
  have x0 := P.x i (by omega)
  have y0 := P.y i (by omega)
  have x1 : X'.get (m + i + 1) = X.get (i + 1) := by rw [add_assoc]; exact P.x _ h
  have y1 : Y'.get (m + i + 1) = Y.get (i + 1) := by rw [add_assoc]; exact P.y _ h
  have xm : 0 < i → X'.get (m + i - 1) = X.get (i - 1) ∧ Y'.get (m + i - 1) = Y.get (i - 1) := by
    intro h0
    rw [show m + i - 1 = m + (i - 1) by omega]
    exact ⟨P.x _ (by omega), P.y _ (by omega)⟩
  have xp : i + 2 < X.size → X'.get (m + i + 2) = X.get (i + 2) ∧ Y'.get (m + i + 2) = Y.get (i + 2) := by
    intro h0
    rw [add_assoc]
    exact ⟨P.x _ h0, P.y _ h0⟩
  rw [x0, y0, x1, y1]
  cases bs <;> cases be
  · have s : 0 < i := by simpa using starts
    have e : i + 2 < X.size := by simpa using ends
    rw [(xm s).1, (xm s).2, (xp e).1, (xp e).2]
  · have s : 0 < i := by simpa using starts
    rw [(xm s).1, (xm s).2]
    rfl
  · have e : i + 2 < X.size := by simpa using ends
    rw [(xp e).1, (xp e).2]
    rfl
  · rfl

end Interp
