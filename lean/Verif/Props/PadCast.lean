import Verif.Props.SameCast
import Verif.Lemmas.Agree

/-! # Levels without data above and below a cast have no influence (C156) -/

set_option linter.unusedSectionVars false

namespace Same
open FloatLike Fzero Interp Traj VertSolve
variable {F : Type*} [FloatLike F]

/-- The cast `c'` is `c` with `m` levels put before its levels and any number after them.  At the levels added, salinity and temperature are NaN, or
pressure is. -/
structure NanPad (c c' : Cast F) (m : ℕ) : Prop where
  sizeS : c.S.size = c.P.size
  sizeT : c.T.size = c.P.size
  sizeS' : c'.S.size = c'.P.size
  sizeT' : c'.T.size = c'.P.size
  le : m + c.P.size ≤ c'.P.size
  S : ∀ i, i < c.P.size → c'.S.get (m + i) = c.S.get i
  T : ∀ i, i < c.P.size → c'.T.get (m + i) = c.T.get i
  P : ∀ i, i < c.P.size → c'.P.get (m + i) = c.P.get i
  out : ∀ j, j < c'.P.size → j < m ∨ m + c.P.size ≤ j → isNaN (c'.S.get j) = true ∧ isNaN (c'.T.get j) = true ∨ isNaN (c'.P.get j) = true

/-- NaN is not finite, and a sum with NaN is NaN. -/
structure NanSum (F : Type*) [FloatLike F] : Prop where
  fin : ∀ x : F, isFinite x = true → isNaN x = false
  add : ∀ a b : F, isNaN a = true ∨ isNaN b = true → isNaN (a + b) = true

/-- Exact arithmetic has these laws, and rounded arithmetic. -/
theorem nanSum_fl {α : Type*} [Field α] [LinearOrder α] [IsStrictOrderedRing α] : NanSum (Fl α) := by
  refine ⟨fun x => ?_, fun a b h => ?_⟩
  · cases x <;> simp
  · rcases h with h | h
    · rw [(Fl.isNaN_iff a).mp h]; simp
    · rw [(Fl.isNaN_iff b).mp h]; simp

theorem nanSum_rfl {α : Type*} [Field α] [LinearOrder α] [IsStrictOrderedRing α] (rnd : α → α) : NanSum (Rfl rnd) := by
  refine ⟨fun (x : Fl α) => ?_, fun (a b : Fl α) h => ?_⟩
  · cases x <;> intro h <;> first | rfl | cases h
  · show Fl.isNaN (Rfl.round rnd (Fl.add a b)) = true
    change Fl.isNaN a = true ∨ Fl.isNaN b = true at h
    cases a <;> cases b <;> rcases h with h | h <;> first | rfl | cases h

variable {kind : PPKind} {c c' : Cast F} {m : ℕ}

theorem NanPad.S_P (H : NanPad c c' m) : Padded c.S c.P c'.S c'.P m :=
  ⟨H.sizeS.symm, H.sizeS'.symm, by rw [H.sizeS, H.sizeS']; exact H.le, fun i hi => H.S i (by rw [← H.sizeS]; exact hi), fun i hi => H.P i (by rw [← H.sizeS]; exact hi),
    fun j hj => (H.out j (by have := H.le; omega) (Or.inl hj)).imp And.left id,
    fun h => by rw [H.sizeS, H.sizeS'] at h; rw [H.sizeS]; exact (H.out _ h (Or.inr le_rfl)).imp And.left id⟩

theorem NanPad.P_S (H : NanPad c c' m) : Padded c.P c.S c'.P c'.S m :=
  ⟨H.sizeS, H.sizeS', H.le, H.P, H.S, fun j hj => (H.out j (by have := H.le; omega) (Or.inl hj)).symm.imp id And.left,
    fun h => (H.out _ h (Or.inr le_rfl)).symm.imp id And.left⟩

theorem NanPad.P_T (H : NanPad c c' m) : Padded c.P c.T c'.P c'.T m :=
  ⟨H.sizeT, H.sizeT', H.le, H.P, H.T, fun j hj => (H.out j (by have := H.le; omega) (Or.inl hj)).symm.imp id And.right,
    fun h => (H.out _ h (Or.inr le_rfl)).symm.imp id And.right⟩

theorem validRange_eq2 (X : Arr F) : validRange X = validRange2 X X := by
  unfold validRange validRange2
  simp only [Bool.and_self, Bool.or_self]

theorem NanSum.nf (L : NanSum F) {x : F} (h : isNaN x = true) : isFinite x = false := by
  cases h' : isFinite x with
  | false => rfl
  | true => rw [L.fin x h'] at h; cases h

theorem NanPad.noData (L : NanSum F) (H : NanPad c c' m) (h : ∀ i, i < c.P.size → isFinite (c.P.get i) = false ∨ isFinite (c.S.get i) = false) :
    ∀ i, i < c'.P.size → isFinite (c'.P.get i) = false ∨ isFinite (c'.S.get i) = false := by
  intro j hj
  by_cases hc : j < m ∨ m + c.P.size ≤ j
  · rcases H.out j hj hc with h | h
    · exact Or.inr (L.nf h.1)
    · exact Or.inl (L.nf h)
  · have := h (j - m) (by omega)
    rw [← H.P _ (by omega), ← H.S _ (by omega), show m + (j - m) = j by omega] at this
    exact this

/-- the padded cast, cut to its valid part -/
theorem slice_agree {X X' : Arr F} {k K N : ℕ} (hX : ∀ i, i < N → X'.get (m + i) = X.get i) (hK : K ≤ N) : Agree (X.slice k K) (X'.slice (m + k) (m + K)) := by
  refine ⟨by show m + K - (m + k) = K - k; omega, ?_⟩
  intro i hi
  have hi : i < K - k := hi
  show X'.get (m + k + i) = X.get (k + i)
  rw [add_assoc]; exact hX _ (by omega)

theorem empty_agree (X X' : Arr F) (a b : ℕ) : Agree (X.slice a a) (X'.slice b b) := by
  refine ⟨by show b - b = a - a; omega, ?_⟩
  intro i hi
  have hi : i < a - a := hi
  omega

/-- Two pairs of indices cut out the same data. -/
structure Cut (c c' : Cast F) (k K k' K' : ℕ) : Prop where
  S : Agree (c.S.slice k K) (c'.S.slice k' K')
  T : Agree (c.T.slice k K) (c'.T.slice k' K')
  P : Agree (c.P.slice k K) (c'.P.slice k' K')

theorem NanPad.cut (L : NanSum F) (H : NanPad c c' m) :
    Cut c c' (validRange2 c.S c.P).1 (validRange2 c.S c.P).2 (validRange2 c'.S c'.P).1 (validRange2 c'.S c'.P).2 := by
  have hK := validRange2_K_le c.S c.P
  rw [H.sizeS] at hK
  by_cases hk : (validRange2 c.S c.P).1 < c.S.size
  · rw [H.S_P.vr L.fin hk]
    exact ⟨slice_agree H.S hK, slice_agree H.T hK, slice_agree H.P hK⟩
  · have hno : ∀ i, i < c.P.size → isFinite (c.P.get i) = false ∨ isFinite (c.S.get i) = false :=
      fun i hi => (validRange2_before c.S c.P (by rw [H.sizeS] at hk; omega)).symm
    have hno' := H.noData L hno
    rw [validRange2_none (X := c.S) (fun i hi => (hno i (by rw [← H.sizeS]; exact hi)).symm),
      validRange2_none (X := c'.S) (fun i hi => (hno' i (by rw [← H.sizeS']; exact hi)).symm)]
    exact ⟨empty_agree _ _ _ _, empty_agree _ _ _ _, empty_agree _ _ _ _⟩

theorem NanPad.cutAdd (L : NanSum F) (H : NanPad c c' m) :
    Cut c c' (validRange (Isopycnal.addArr c.S c.P)).1 (validRange (Isopycnal.addArr c.S c.P)).2
      (validRange (Isopycnal.addArr c'.S c'.P)).1 (validRange (Isopycnal.addArr c'.S c'.P)).2 := by
  have hout : ∀ j, j < c'.P.size → j < m ∨ m + c.P.size ≤ j → isNaN (c'.S.get j + c'.P.get j) = true :=
    fun j hj h => L.add _ _ ((H.out j hj h).imp And.left id)
  have hin : ∀ i, i < c.P.size → c'.S.get (m + i) + c'.P.get (m + i) = c.S.get i + c.P.get i := fun i hi => by rw [H.S i hi, H.P i hi]
  have Q : Padded (Isopycnal.addArr c.S c.P) (Isopycnal.addArr c.S c.P) (Isopycnal.addArr c'.S c'.P) (Isopycnal.addArr c'.S c'.P) m := by
    have hle := H.le
    have e := H.sizeS
    have e' := H.sizeS'
    refine ⟨rfl, rfl, by show m + c.S.size ≤ c'.S.size; omega, fun i hi => hin i ?_, fun i hi => hin i ?_, fun j hj => Or.inl (hout j (by omega) (Or.inl hj)), ?_⟩
    · have : i < c.S.size := hi; omega
    · have : i < c.S.size := hi; omega
    · intro h
      have h : m + c.S.size < c'.S.size := h
      exact Or.inl (hout _ (by show m + c.S.size < _; omega) (Or.inr (by show _ ≤ m + c.S.size; omega)))
  rw [validRange_eq2, validRange_eq2]
  have hs : (Isopycnal.addArr c.S c.P).size = c.P.size := H.sizeS
  have hs' : (Isopycnal.addArr c'.S c'.P).size = c'.P.size := H.sizeS'
  have hK := validRange2_K_le (Isopycnal.addArr c.S c.P) (Isopycnal.addArr c.S c.P)
  rw [hs] at hK
  by_cases hk : (validRange2 (Isopycnal.addArr c.S c.P) (Isopycnal.addArr c.S c.P)).1 < (Isopycnal.addArr c.S c.P).size
  · rw [Q.vr L.fin hk]
    exact ⟨slice_agree H.S hK, slice_agree H.T hK, slice_agree H.P hK⟩
  · rw [hs] at hk
    have hno : ∀ i, i < c.P.size → isFinite (c.S.get i + c.P.get i) = false := by
      intro i hi
      have := validRange2_before (Isopycnal.addArr c.S c.P) (Isopycnal.addArr c.S c.P) (i := i) (by omega)
      rw [or_self] at this
      exact this
    have hno' : ∀ j, j < c'.P.size → isFinite (c'.S.get j + c'.P.get j) = false := by
      intro j hj
      by_cases hc : j < m ∨ m + c.P.size ≤ j
      · exact L.nf (hout j hj hc)
      · have := hno (j - m) (by omega)
        rw [← hin _ (by omega), show m + (j - m) = j by omega] at this
        exact this
    rw [validRange2_none (X := Isopycnal.addArr c.S c.P) (fun i hi => Or.inl (hno i (by rw [hs] at hi; exact hi))),
      validRange2_none (X := Isopycnal.addArr c'.S c'.P) (fun i hi => Or.inl (hno' i (by rw [hs'] at hi; exact hi)))]
    exact ⟨empty_agree _ _ _ _, empty_agree _ _ _ _, empty_agree _ _ _ _⟩

/-- The coefficients of two cuts: no division by zero in one exactly if none in the other, and then the same rows. -/
theorem Cut.tables {k K k' K' : ℕ} (H : Cut c c' k K k' K') :
    (∃ A B A' B', ppcFn kind (c.P.slice k K) (c.S.slice k K) = some A ∧ ppcFn kind (c.P.slice k K) (c.T.slice k K) = some B ∧
      ppcFn kind (c'.P.slice k' K') (c'.S.slice k' K') = some A' ∧ ppcFn kind (c'.P.slice k' K') (c'.T.slice k' K') = some B' ∧
      AgreeC A A' ∧ AgreeC B B' ∧ A.size = K - k ∧ B.size = K - k) ∨
    ∀ {β : Type _} (f : PPC F → PPC F → β) (z : β),
      (match ppcFn kind (c.P.slice k K) (c.S.slice k K), ppcFn kind (c.P.slice k K) (c.T.slice k K) with
        | some A, some B => f A B
        | _, _ => z) = z ∧
      (match ppcFn kind (c'.P.slice k' K') (c'.S.slice k' K'), ppcFn kind (c'.P.slice k' K') (c'.T.slice k' K') with
        | some A, some B => f A B
        | _, _ => z) = z := by
  rcases H.P.ppcFn (kind := kind) H.S rfl with ⟨h1, h2⟩ | ⟨A, A', h1, h2, h3, h4⟩
  · right
    intro β f z
    rw [h1, h2]
    exact ⟨rfl, rfl⟩
  rcases H.P.ppcFn (kind := kind) H.T rfl with ⟨g1, g2⟩ | ⟨B, B', g1, g2, g3, g4⟩
  · right
    intro β f z
    rw [h1, h2, g1, g2]
    exact ⟨rfl, rfl⟩
  · exact Or.inl ⟨A, B, A', B', h1, g1, h2, g2, h3, g3, h4, g4⟩

/-- **C156** (one cast). Nothing distinguishes a cast from the cast with levels without data added. -/
theorem NanPad.same (L : NanSum F) (H : NanPad c c' m) : SameCast kind c c' := by
  have Z := H.cut L
  have hsz : (validRange2 c'.S c'.P).2 - (validRange2 c'.S c'.P).1 = (validRange2 c.S c.P).2 - (validRange2 c.S c.P).1 := Z.P.size
  have hfly : ∀ f : Arr F → Arr F → ℕ → Option (List F),
      (∀ i, (validRange2 c.P c.S).1 ≤ i → i + 2 ≤ (validRange2 c.P c.S).2 → f c'.P c'.S (m + i) = f c.P c.S i ∧ f c'.P c'.T (m + i) = f c.P c.T i) →
      ∀ x, ppinterp1Two f x c'.P c'.S c'.T 0 = ppinterp1Two f x c.P c.S c.T 0 := by
    intro f hf x
    have hK := validRange2_K_le c.P c.S
    unfold ppinterp1Two
    dsimp only
    by_cases hk : (validRange2 c.P c.S).1 < c.P.size
    · rw [H.P_S.vr L.fin hk]
      dsimp only
      rw [H.P_S.outside_eq hK]
      cases ho : outside c.P (validRange2 c.P c.S).1 (validRange2 c.P c.S).2 x with
      | true => rfl
      | false =>
        obtain ⟨h1, h2⟩ := pieceIndex_range' c.P _ _ x ho
        rcases H.P_S.piece_eq (k := (validRange2 c.P c.S).1) hK x with h | h
        · rw [h, (hf _ h1 h2).1, (hf _ h1 h2).2, H.P _ (by omega)]
        · omega
    · have hno : ∀ i, i < c.P.size → isFinite (c.P.get i) = false ∨ isFinite (c.S.get i) = false :=
        fun i hi => validRange2_before c.P c.S (by omega)
      rw [validRange2_none hno, validRange2_none (H.noData L hno)]
      have o : ∀ X : Arr F, outside X X.size X.size x = true := by
        intro X
        unfold outside; rw [decide_eq_true (by omega)]; rfl
      simp only [o, if_true]
  refine ⟨?_, ?_, ?_, ?_, ?_, ?_, ?_, ?_⟩
  · unfold Has; rw [hsz]
  · intro h
    exact Z.P.get 0 (by have : 1 < _ := h; show 0 < _ - _; omega)
  · intro h
    show (trim c' c'.P).get ((validRange2 c'.S c'.P).2 - (validRange2 c'.S c'.P).1 - 1) = (trim c c.P).get ((validRange2 c.S c.P).2 - (validRange2 c.S c.P).1 - 1)
    rw [hsz]
    exact Z.P.get _ (by have : 1 < _ := h; show _ < _ - _; omega)
  · intro h
    unfold evalN
    rcases Z.tables (kind := kind) with ⟨A, B, A', B', e1, e2, e3, e4, e5, e6, e7, e8⟩ | hz
    · unfold trim
      rw [e1, e2, e3, e4]
      dsimp only
      congr 1
      funext x
      exact Z.P.nonanTwo e5 e6 (by have : 1 < _ := h; show 0 < _ - _; omega) e7 e8 x
    · have h1 := (hz (fun A B => some fun x => ppval1NonanTwo x (trim c c.P) A B 0) none).1
      have h2 := (hz (fun A B => some fun x => ppval1NonanTwo x (trim c' c'.P) A B 0) none).2
      exact h2.trans h1.symm
  · intro h
    unfold evalT
    rcases Z.tables (kind := kind) with ⟨A, B, A', B', e1, e2, e3, e4, e5, e6, e7, e8⟩ | hz
    · unfold trim
      rw [e1, e2, e3, e4]
      dsimp only
      congr 1
      funext x
      exact Z.P.two e5 e6 e7 e8 x
    · have h1 := (hz (fun A B => some fun x => ppval1Two x (trim c c.P) A B 0) none).1
      have h2 := (hz (fun A B => some fun x => ppval1Two x (trim c' c'.P) A B 0) none).2
      exact h2.trans h1.symm
  · intro p
    have hK := validRange2_K_le c.P c.S
    cases kind with
    | linear => exact hfly _ (fun i _ _ => ⟨H.P_S.linearCoeffsI (by omega), H.P_T.linearCoeffsI (by omega)⟩) p
    | pchip => exact hfly _ (fun i _ _ => ⟨H.P_S.pchipCoeffsI L.add (by omega), H.P_T.pchipCoeffsI L.add (by omega)⟩) p
  · intro p
    unfold trajStart
    dsimp only
    rw [Z.P.size]
    by_cases h0 : (c.P.slice (validRange2 c.S c.P).1 (validRange2 c.S c.P).2).size = 0
    · rw [if_pos h0, if_pos h0]
    rw [if_neg h0, if_neg h0]
    rcases Z.tables (kind := kind) with ⟨A, B, A', B', e1, e2, e3, e4, e5, e6, e7, e8⟩ | hz
    · rw [e1, e2, e3, e4]
      dsimp only
      rw [Z.P.nonanTwo e5 e6 (by omega) e7 e8]
    · exact (hz _ _).2.trans (hz _ _).1.symm
  · intro p
    have Z := H.cutAdd L
    unfold Isopycnal.pinST
    dsimp only
    rcases Z.tables (kind := kind) with ⟨A, B, A', B', e1, e2, e3, e4, e5, e6, e7, e8⟩ | hz
    · rw [e1, e2, e3, e4]
      dsimp only
      rw [Z.P.two e5 e6 e7 e8]
    · exact (hz _ _).2.trans (hz _ _).1.symm

end Same
