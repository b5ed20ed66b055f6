import Verif.Props.PadCast
import Verif.Props.Stability
import Verif.Props.MixedLayer
import Verif.Props.LabelStep

/-!
# Levels without data and the functions that work on single casts (C175)

`count_unstable`, `stabilize_ST`, `mixed_layer` and `veronis`, on a cast and on the same cast with levels added at which there is no data.
-/

set_option linter.unusedSectionVars false

namespace Same
open FloatLike Interp
variable {F : Type*} [FloatLike F]

/-- Results of operations on NaN are NaN, and comparisons with NaN are false. -/
structure NanLaws (F : Type*) [FloatLike F] : Prop extends NanSum F where
  sub : ∀ a b : F, isNaN a = true ∨ isNaN b = true → isNaN (a - b) = true
  mul : ∀ a b : F, isNaN a = true ∨ isNaN b = true → isNaN (a * b) = true
  div : ∀ a b : F, isNaN a = true ∨ isNaN b = true → isNaN (a / b) = true
  le : ∀ a b : F, isNaN a = true ∨ isNaN b = true → FloatLike.le a b = false
  lt : ∀ a b : F, isNaN a = true ∨ isNaN b = true → FloatLike.lt a b = false
  nan : isNaN (FloatLike.nan : F) = true

theorem nanLaws_fl {α : Type*} [Field α] [LinearOrder α] [IsStrictOrderedRing α] : NanLaws (Fl α) where
  toNanSum := nanSum_fl
  sub a b h := by cases a <;> cases b <;> rcases h with h | h <;> first | rfl | cases h
  mul a b h := by cases a <;> cases b <;> rcases h with h | h <;> first | rfl | cases h
  div a b h := by cases a <;> cases b <;> rcases h with h | h <;> first | rfl | cases h
  le a b h := by cases a <;> cases b <;> rcases h with h | h <;> first | rfl | cases h
  lt a b h := by cases a <;> cases b <;> rcases h with h | h <;> first | rfl | cases h
  nan := rfl

theorem nanLaws_rfl {α : Type*} [Field α] [LinearOrder α] [IsStrictOrderedRing α] (rnd : α → α) : NanLaws (Rfl rnd) where
  toNanSum := nanSum_rfl rnd
  sub := fun (a b : Fl α) h => by
    change Fl.isNaN a = true ∨ Fl.isNaN b = true at h
    show Fl.isNaN (Rfl.round rnd (Fl.add a (Fl.neg b))) = true
    cases a <;> cases b <;> rcases h with h | h <;> first | rfl | cases h
  mul := fun (a b : Fl α) h => by
    change Fl.isNaN a = true ∨ Fl.isNaN b = true at h
    show Fl.isNaN (Rfl.round rnd (Fl.mul a b)) = true
    cases a <;> cases b <;> rcases h with h | h <;> first | rfl | cases h
  div := fun (a b : Fl α) h => by
    change Fl.isNaN a = true ∨ Fl.isNaN b = true at h
    show Fl.isNaN (Rfl.round rnd (Fl.div a b)) = true
    cases a <;> cases b <;> rcases h with h | h <;> first | rfl | cases h
  le := fun (a b : Fl α) h => by
    change Fl.isNaN a = true ∨ Fl.isNaN b = true at h
    show Fl.le a b = false
    cases a <;> cases b <;> rcases h with h | h <;> first | rfl | cases h
  lt := fun (a b : Fl α) h => by
    change Fl.isNaN a = true ∨ Fl.isNaN b = true at h
    show Fl.lt a b = false
    cases a <;> cases b <;> rcases h with h | h <;> first | rfl | cases h
  nan := rfl

/-- An equation of state that gives NaN without salinity and temperature, and without pressure. -/
def NanAll (eos : F → F → F → F) : Prop :=
  ∀ s t p, (isNaN s = true ∧ isNaN t = true) ∨ isNaN p = true → isNaN (eos s t p) = true

theorem countP_shift {N N' m : ℕ} {q q' : ℕ → Bool} (hle : m + N ≤ N') (hout : ∀ k, k < N' → k < m ∨ m + N ≤ k → q' k = false)
    (hin : ∀ i, i < N → q' (m + i) = q i) : (List.range N').countP q' = (List.range N).countP q := by
  obtain ⟨r, rfl⟩ := Nat.exists_eq_add_of_le hle
  rw [List.range_add, List.countP_append, List.range_add, List.countP_append, List.countP_map, List.countP_map]
  have h1 : (List.range m).countP q' = 0 := by
    rw [List.countP_eq_zero]
    intro k hk
    rw [List.mem_range] at hk
    rw [hout k (by omega) (Or.inl hk)]
    simp
  have h2 : (List.range r).countP (q' ∘ fun x => m + N + x) = 0 := by
    rw [List.countP_eq_zero]
    intro k hk
    rw [List.mem_range] at hk
    show ¬ q' (m + N + k) = true
    rw [hout (m + N + k) (by omega) (Or.inr (by omega))]
    simp
  rw [h1, h2, zero_add, add_zero]
  apply List.countP_congr
  intro i hi
  rw [List.mem_range] at hi
  show q' (m + i) = true ↔ _
  rw [hin i hi]

end Same

namespace Stability
open FloatLike Interp Same
variable {F : Type*} [FloatLike F] {c c' : Cast F} {m : ℕ}

/-- **C175** The number of unstable pairs of neighbouring bottles does not change when levels without data are added, in any arithmetic with NaN. -/
theorem countPairs_pad (L : NanLaws F) (H : NanPad c c' m) {eos : F → F → F → F} (hE : NanAll eos) :
    countPairs eos c'.S.get c'.T.get c'.P.get c'.P.size = countPairs eos c.S.get c.T.get c.P.get c.P.size := by
  have hle := H.le
  have key : ∀ k, k + 1 < c'.P.size → (k < m ∨ m + c.P.size ≤ k) ∨ (k + 1 < m ∨ m + c.P.size ≤ k + 1) →
      le (eos (c'.S.get (k + 1)) (c'.T.get (k + 1)) ((c'.P.get k + c'.P.get (k + 1)) / lit 2))
        (eos (c'.S.get k) (c'.T.get k) ((c'.P.get k + c'.P.get (k + 1)) / lit 2)) = false := by
    intro k hk h
    apply L.le
    rcases h with h | h
    · rcases H.out k (by omega) h with hn | hn
      · exact Or.inr (hE _ _ _ (Or.inl hn))
      · exact Or.inr (hE _ _ _ (Or.inr (L.div _ _ (Or.inl (L.add _ _ (Or.inl hn))))))
    · rcases H.out (k + 1) (by omega) h with hn | hn
      · exact Or.inl (hE _ _ _ (Or.inl hn))
      · exact Or.inr (hE _ _ _ (Or.inr (L.div _ _ (Or.inl (L.add _ _ (Or.inr hn))))))
  unfold countPairs
  by_cases h0 : c.P.size = 0
  · rw [h0]
    simp only [Nat.zero_sub, List.range_zero, List.countP_nil]
    rw [List.countP_eq_zero]
    intro k hk
    rw [List.mem_range] at hk
    rw [key k (by omega) (Or.inl (by omega))]
    simp
  · refine countP_shift (m := m) (by omega) ?_ ?_
    · intro k hk h
      exact key k (by omega) (by omega)
    · intro i hi
      show le _ _ = le _ _
      rw [show m + i + 1 = m + (i + 1) by omega, H.S i (by omega), H.T i (by omega), H.P i (by omega), H.S (i + 1) (by omega), H.T (i + 1) (by omega),
        H.P (i + 1) (by omega)]

/-- What `scipy` returns depends only on the bottles it is given. -/
def Local (mini : Minimiser F) : Prop := ∀ n (S T P g S' T' P' g' : ℕ → F),
  (∀ i, i < n → S' i = S i ∧ T' i = T i ∧ P' i = P i ∧ g' i = g i) → mini n S' T' P' g' = mini n S T P g

theorem unstable_congr {eos : F → F → F → F} {S T P g S' T' P' g' : ℕ → F} {n : ℕ}
    (h : ∀ i, i < n → S' i = S i ∧ T' i = T i ∧ P' i = P i ∧ g' i = g i) : unstable eos S' T' P' g' n = unstable eos S T P g n := by
  unfold unstable
  rw [Bool.eq_iff_iff, List.any_eq_true, List.any_eq_true]
  refine exists_congr fun i => and_congr_right fun hi => ?_
  rw [List.mem_range] at hi
  obtain ⟨a1, a2, a3, a4⟩ := h i (by omega)
  obtain ⟨b1, b2, b3, -⟩ := h (i + 1) (by omega)
  unfold grad
  rw [a1, a2, a3, a4, b1, b2, b3]

/-- **C175** `stabilize_ST` changes the bottles of a cast in the same way if levels with NaN salinity are added, leaves the added levels as they are, and fails for the
one if it fails for the other. -/
theorem castStep_pad (L : NanLaws F) (H : NanPad c c' m) (hS : ∀ j, j < c'.P.size → j < m ∨ m + c.P.size ≤ j → isNaN (c'.S.get j) = true)
    {eos : F → F → F → F} {mini : Minimiser F} (hM : Local mini) {g g' : ℕ → F} (hg : ∀ i, i < c.P.size → g' (m + i) = g i) :
    (castStep eos mini g c.S c.T c.P = none ∧ castStep eos mini g' c'.S c'.T c'.P = none) ∨
    ∃ S1 T1 S1' T1', castStep eos mini g c.S c.T c.P = some (S1, T1) ∧ castStep eos mini g' c'.S c'.T c'.P = some (S1', T1') ∧
      S1'.size = c'.P.size ∧ T1'.size = c'.P.size ∧
      (∀ i, i < c.P.size → S1'.get (m + i) = S1.get i ∧ T1'.get (m + i) = T1.get i) ∧
      (∀ j, j < m ∨ m + c.P.size ≤ j → S1'.get j = c'.S.get j ∧ T1'.get j = c'.T.get j) := by
  have hle := H.le
  have hp : Padded c.S c.S c'.S c'.S m :=
    ⟨rfl, rfl, by rw [H.sizeS, H.sizeS']; exact hle, fun i hi => H.S i (by rw [← H.sizeS]; exact hi), fun i hi => H.S i (by rw [← H.sizeS]; exact hi),
      fun j hj => Or.inl (hS j (by omega) (Or.inl hj)), fun h => by
        rw [H.sizeS, H.sizeS'] at h; rw [H.sizeS]; exact Or.inl (hS _ h (Or.inr le_rfl))⟩
  have hsz := H.sizeS
  have hK := validRange2_K_le c.S c.S
  by_cases hk : (validRange2 c.S c.S).1 < c.S.size
  · have hv := hp.vr L.fin hk
    unfold castStep
    rw [validRange_eq2, validRange_eq2, hv]
    dsimp only
    generalize (validRange2 c.S c.S).1 = k at *
    generalize (validRange2 c.S c.S).2 = K at *
    have en : m + K - (m + k) = K - k := by omega
    rw [en]
    have hsl : ∀ i, i < K - k → (c'.S.slice (m + k) (m + K)).get i = (c.S.slice k K).get i ∧ (c'.T.slice (m + k) (m + K)).get i = (c.T.slice k K).get i ∧
        (c'.P.slice (m + k) (m + K)).get i = (c.P.slice k K).get i ∧ g' (m + k + i) = g (k + i) := by
      intro i hi
      refine ⟨?_, ?_, ?_, ?_⟩
      · show c'.S.get (m + k + i) = c.S.get (k + i)
        rw [add_assoc]; exact H.S _ (by omega)
      · show c'.T.get (m + k + i) = c.T.get (k + i)
        rw [add_assoc]; exact H.T _ (by omega)
      · show c'.P.get (m + k + i) = c.P.get (k + i)
        rw [add_assoc]; exact H.P _ (by omega)
      · rw [add_assoc]; exact hg _ (by omega)
    rw [unstable_congr (eos := eos) hsl, hM _ _ _ _ _ _ _ _ _ hsl]
    split_ifs with hu
    · cases mini (K - k) (c.S.slice k K).get (c.T.slice k K).get (c.P.slice k K).get (fun i => g (k + i)) with
      | none => exact Or.inl ⟨rfl, rfl⟩
      | some x =>
        refine Or.inr ⟨_, _, _, _, rfl, rfl, H.sizeS', H.sizeT', ?_, ?_⟩
        · intro i hi
          dsimp only
          rw [H.S i hi, H.T i hi, show m + i - (m + k) = i - k by omega]
          by_cases hik : k ≤ i ∧ i < K
          · rw [if_pos hik, if_pos hik, if_pos (by omega), if_pos (by omega)]
            exact ⟨rfl, rfl⟩
          · rw [if_neg hik, if_neg hik, if_neg (by omega), if_neg (by omega)]
            exact ⟨rfl, rfl⟩
        · intro j hj
          dsimp only
          rw [if_neg (by omega), if_neg (by omega)]
          exact ⟨rfl, rfl⟩
    · exact Or.inr ⟨_, _, _, _, rfl, rfl, H.sizeS', H.sizeT', fun i hi => ⟨H.S i hi, H.T i hi⟩, fun j _ => ⟨rfl, rfl⟩⟩
  · have hno : ∀ i, i < c.S.size → isFinite (c.S.get i) = false ∨ isFinite (c.S.get i) = false :=
      fun i hi => validRange2_before c.S c.S (by omega)
    have hno' : ∀ i, i < c'.S.size → isFinite (c'.S.get i) = false ∨ isFinite (c'.S.get i) = false := by
      intro j hj
      rw [H.sizeS'] at hj
      by_cases hc : j < m ∨ m + c.P.size ≤ j
      · exact Or.inl (L.toNanSum.nf (hS j hj hc))
      · have := hno (j - m) (by omega)
        rw [← H.S _ (by omega), show m + (j - m) = j by omega] at this
        exact this
    unfold castStep
    rw [validRange_eq2, validRange_eq2, validRange2_none hno, validRange2_none hno']
    simp only [Nat.sub_self, Nat.not_lt_zero, decide_false, Bool.false_and, Bool.false_eq_true, if_false]
    exact Or.inr ⟨_, _, _, _, rfl, rfl, H.sizeS', H.sizeT', fun i hi => ⟨H.S i hi, H.T i hi⟩, fun j _ => ⟨rfl, rfl⟩⟩

end Stability

namespace MixedLayer
open FloatLike Interp Same
variable {F : Type*} [FloatLike F] {c c' : _root_.Cast F} {m : ℕ}

theorem dens_size' (eos : F → F → F → F) (S T : Arr F) (r : F) (j : ℕ) : (dens eos S T r j).size = S.size := by
  unfold dens; split_ifs <;> rfl

/-- **C175** The mixed layer depth does not change when levels without data are added (the bottle of reference being the same one), in any arithmetic with NaN. -/
theorem mixedLayer_pad (L : NanLaws F) (H : NanPad c c' m) {eos : F → F → F → F} (hE : NanAll eos) {interp : F → Arr F → Arr F → ℕ → Option F}
    (hI : interp = linearInterp1 ∨ interp = pchipInterp1) (thr refp : F) {j : ℕ} (hj : j < c.P.size) :
    mixedLayer interp eos c'.S c'.T c'.P thr refp ((m + j : ℕ) : ℤ) = mixedLayer interp eos c.S c.T c.P thr refp (j : ℤ) := by
  have hle := H.le
  have b1 : bottle (j : ℤ) c.S.size = some j := (bottle_some_iff _ _ _).mpr ⟨by rw [H.sizeS]; exact hj, Or.inl rfl⟩
  have b2 : bottle ((m + j : ℕ) : ℤ) c'.S.size = some (m + j) := (bottle_some_iff _ _ _).mpr ⟨by rw [H.sizeS']; omega, Or.inl rfl⟩
  unfold mixedLayer
  rw [b1, b2]
  dsimp only
  have hin : ∀ i, i < c.P.size → (dens eos c'.S c'.T refp (m + j)).get (m + i) = (dens eos c.S c.T refp j).get i := by
    intro i hi
    unfold dens
    split_ifs
    · show eos _ _ _ - eos _ _ _ = eos _ _ _ - eos _ _ _
      rw [H.S i hi, H.T i hi, H.S j hj, H.T j hj]
    · show lit 1 / eos _ _ _ - lit 1 / eos _ _ _ = lit 1 / eos _ _ _ - lit 1 / eos _ _ _
      rw [H.S i hi, H.T i hi, H.S j hj, H.T j hj]
  have hout : ∀ i, i < c'.P.size → i < m ∨ m + c.P.size ≤ i →
      isNaN ((dens eos c'.S c'.T refp (m + j)).get i) = true ∨ isNaN (c'.P.get i) = true := by
    intro i hi h
    rcases H.out i hi h with hn | hn
    · left
      unfold dens
      split_ifs
      · exact L.sub _ _ (Or.inl (hE _ _ _ (Or.inl hn)))
      · exact L.sub _ _ (Or.inl (L.div _ _ (Or.inr (hE _ _ _ (Or.inl hn)))))
    · exact Or.inr hn
  have s1 := dens_size' eos c.S c.T refp j
  have s2 := dens_size' eos c'.S c'.T refp (m + j)
  rw [H.sizeS] at s1
  rw [H.sizeS'] at s2
  have hp : Padded (dens eos c.S c.T refp j) c.P (dens eos c'.S c'.T refp (m + j)) c'.P m :=
    ⟨s1.symm, s2.symm, by rw [s1, s2]; exact hle, fun i hi => hin i (by rwa [s1] at hi), fun i hi => H.P i (by rwa [s1] at hi),
      fun i hi => hout i (by omega) (Or.inl hi), fun h => by rw [s1, s2] at h; rw [s1]; exact hout _ h (Or.inr le_rfl)⟩
  have hnone : (∀ i, i < (dens eos c.S c.T refp j).size → isFinite ((dens eos c.S c.T refp j).get i) = false ∨ isFinite (c.P.get i) = false) →
      ∀ i, i < (dens eos c'.S c'.T refp (m + j)).size → isFinite ((dens eos c'.S c'.T refp (m + j)).get i) = false ∨ isFinite (c'.P.get i) = false := by
    intro h i hi
    rw [s2] at hi
    by_cases hc : i < m ∨ m + c.P.size ≤ i
    · exact (hout i hi hc).imp L.toNanSum.nf L.toNanSum.nf
    · have := h (i - m) (by rw [s1]; omega)
      rw [← hin _ (by omega), ← H.P _ (by omega), show m + (i - m) = i by omega] at this
      exact this
  rcases hI with rfl | rfl
  · exact linear_padding L.fin hp hnone thr 0
  · exact pchip_padding L.fin L.add hp hnone thr 0

end MixedLayer

namespace Stability
open FloatLike Interp Same
variable {F : Type*} [FloatLike F] {c c' : Cast F} {m : ℕ}

theorem ppinterp1Two_pad (L : NanLaws F) (H : NanPad c c' m) {f : Arr F → Arr F → ℕ → Option (List F)} (hf : f = linearCoeffsI ∨ f = pchipCoeffsI) (x : F) (d : ℕ) :
    ppinterp1Two f x c'.P c'.S c'.T d = ppinterp1Two f x c.P c.S c.T d := by
  have hK := validRange2_K_le c.P c.S
  have pieces : ∀ i, i + 2 ≤ c.P.size → f c'.P c'.S (m + i) = f c.P c.S i ∧ f c'.P c'.T (m + i) = f c.P c.T i := by
    intro i hi
    rcases hf with rfl | rfl
    · exact ⟨H.P_S.linearCoeffsI (by omega), H.P_T.linearCoeffsI (by omega)⟩
    · exact ⟨H.P_S.pchipCoeffsI L.add (by omega), H.P_T.pchipCoeffsI L.add (by omega)⟩
  unfold ppinterp1Two
  dsimp only
  by_cases hk : (validRange2 c.P c.S).1 < c.P.size
  · rw [H.P_S.vr L.fin hk]
    dsimp only
    rw [H.P_S.outside_eq hK]
    by_cases ho : outside c.P (validRange2 c.P c.S).1 (validRange2 c.P c.S).2 x = true
    · rw [if_pos ho, if_pos ho]
    · rw [if_neg ho, if_neg ho]
      obtain ⟨h1, h2⟩ := pieceIndex_range' c.P _ _ x (by simpa using ho)
      rcases H.P_S.piece_eq (k := (validRange2 c.P c.S).1) hK x with h | h
      · rw [h, (pieces _ (by omega)).1, (pieces _ (by omega)).2, H.P _ (by omega)]
      · omega
  · have hno : ∀ i, i < c.P.size → isFinite (c.P.get i) = false ∨ isFinite (c.S.get i) = false :=
      fun i hi => validRange2_before c.P c.S (by omega)
    rw [validRange2_none hno, validRange2_none (H.noData L.toNanSum hno)]
    have o1 : outside c.P c.P.size c.P.size x = true := by
      unfold outside; rw [decide_eq_true (by omega)]; rfl
    have o2 : outside c'.P c'.P.size c'.P.size x = true := by
      unfold outside; rw [decide_eq_true (by omega)]; rfl
    simp only [o1, o2, if_true]

/-- The test made at a bottle by `count_unstable` with an interpolant. -/
def flag (f : Arr F → Arr F → ℕ → Option (List F)) (eosST : F → F → F → F × F) (c : Cast F) (k : ℕ) : Bool :=
  match ppinterp1Two f (c.P.get k) c.P c.S c.T 1 with
  | none => false
  | some d => lt ((eosST (c.S.get k) (c.T.get k) (c.P.get k)).1 * d.1 + (eosST (c.S.get k) (c.T.get k) (c.P.get k)).2 * d.2) (lit 0)

/-- **C175** (violated for `count_unstable` with an interpolant, see `countInterp_pad_false`) With a level without data below, the deepest bottle is tested as well; nothing
else changes. -/
theorem countInterp_pad_partial (L : NanLaws F) (H : NanPad c c' m) (hn : 0 < c.P.size) (hb : m + c.P.size < c'.P.size)
    {f : Arr F → Arr F → ℕ → Option (List F)} (hf : f = linearCoeffsI ∨ f = pchipCoeffsI) {eosST : F → F → F → F × F}
    (hE : ∀ s t p, isNaN s = true ∧ isNaN t = true → isNaN (eosST s t p).1 = true) :
    countInterp (ppinterp1Two f) eosST c'.S c'.T c'.P =
      countInterp (ppinterp1Two f) eosST c.S c.T c.P + (if flag f eosST c (c.P.size - 1) then 1 else 0) := by
  have e0 : countInterp (ppinterp1Two f) eosST c.S c.T c.P + (if flag f eosST c (c.P.size - 1) then 1 else 0) = (List.range c.P.size).countP (flag f eosST c) := by
    unfold countInterp
    rw [H.sizeS]
    conv_rhs => rw [show c.P.size = c.P.size - 1 + 1 by omega, List.range_succ, List.countP_append, List.countP_singleton]
    rfl
  rw [e0]
  unfold countInterp
  rw [H.sizeS']
  refine countP_shift (m := m) (by omega) ?_ ?_
  · intro k hk h
    have key : ∀ d : F × F, ppinterp1Two f (c'.P.get k) c'.P c'.S c'.T 1 = some d →
        lt ((eosST (c'.S.get k) (c'.T.get k) (c'.P.get k)).1 * d.1 + (eosST (c'.S.get k) (c'.T.get k) (c'.P.get k)).2 * d.2) (lit 0) = false := by
      intro d hd
      apply L.lt
      left
      apply L.add
      left
      apply L.mul
      rcases H.out k (by omega) h with hx | hx
      · exact Or.inl (hE _ _ _ hx)
      · right
        unfold ppinterp1Two at hd
        dsimp only at hd
        have ho : outside c'.P (validRange2 c'.P c'.S).1 (validRange2 c'.P c'.S).2 (c'.P.get k) = true := by
          unfold outside
          rw [hx]
          simp
        rw [if_pos ho] at hd
        obtain rfl := Option.some.inj hd
        exact L.nan
    show (match ppinterp1Two f (c'.P.get k) c'.P c'.S c'.T 1 with
      | none => false
      | some d => _) = false
    cases hd : ppinterp1Two f (c'.P.get k) c'.P c'.S c'.T 1 with
    | none => rfl
    | some d => exact key d hd
  · intro i hi
    unfold flag
    dsimp only
    rw [ppinterp1Two_pad L H hf, H.P i hi, H.S i hi, H.T i hi]
    rfl

/-- Three bottles; the deepest pair is unstable for a density that is the salinity. -/
def padEx : Cast (Fl ℚ) := ⟨Arr.ofList [.fin 0, .fin 1, .fin 0], Arr.ofList [.fin 5, .fin 5, .fin 5], Arr.ofList [.fin 0, .fin 10, .fin 20]⟩

/-- The same with a level above and two below that have no data. -/
def padEx' : Cast (Fl ℚ) := ⟨Arr.ofList [.nan, .fin 0, .fin 1, .fin 0, .nan, .fin 7], Arr.ofList [.nan, .fin 5, .fin 5, .fin 5, .nan, .fin 7],
  Arr.ofList [.fin (-5), .fin 0, .fin 10, .fin 20, .fin 30, .nan]⟩

theorem padEx_pad : NanPad padEx padEx' 1 := by
  refine ⟨rfl, rfl, rfl, rfl, by decide, ?_, ?_, ?_, ?_⟩
  · intro i hi
    have : i < 3 := hi
    interval_cases i <;> rfl
  · intro i hi
    have : i < 3 := hi
    interval_cases i <;> rfl
  · intro i hi
    have : i < 3 := hi
    interval_cases i <;> rfl
  · intro j hj h
    have : j < 6 := hj
    have h : j < 1 ∨ 4 ≤ j := h
    have : j = 0 ∨ j = 4 ∨ j = 5 := by omega
    rcases this with rfl | rfl | rfl
    · exact Or.inl ⟨rfl, rfl⟩
    · exact Or.inl ⟨rfl, rfl⟩
    · exact Or.inr rfl

/-- **C175** is violated by `count_unstable` with an interpolant: a level without data below the cast raises the number of unstable bottles. -/
theorem countInterp_pad_false : ∃ (c c' : Cast (Fl ℚ)) (m : ℕ), NanPad c c' m ∧ c.P.size = 3 ∧ (∀ i, i < 3 → isFinite (c.S.get i) = true ∧ isFinite (c.T.get i) = true ∧ isFinite (c.P.get i) = true) ∧
    countInterp (ppinterp1Two linearCoeffsI) (fun s t p => if isNaN s || isNaN t || isNaN p then (.nan, .nan) else (.fin 1, .fin 0)) c.S c.T c.P = 0 ∧
    countInterp (ppinterp1Two linearCoeffsI) (fun s t p => if isNaN s || isNaN t || isNaN p then (.nan, .nan) else (.fin 1, .fin 0)) c'.S c'.T c'.P = 1 :=
  ⟨padEx, padEx', 1, padEx_pad, rfl, by
    intro i hi
    interval_cases i <;> exact ⟨rfl, rfl, rfl⟩, by decide +kernel, by decide +kernel⟩

/-- A density that is the salinity, NaN without data. -/
def padEos : Fl ℚ → Fl ℚ → Fl ℚ → Fl ℚ := fun s t p => s + t * .fin 0 + p * .fin 0

theorem padEos_nan : NanAll padEos := by
  intro s t p h
  unfold padEos
  rcases h with h | h
  · exact nanLaws_fl.add _ _ (Or.inl (nanLaws_fl.add _ _ (Or.inl h.1)))
  · exact nanLaws_fl.add _ _ (Or.inr (nanLaws_fl.mul _ _ (Or.inl h)))

/-- The theorem applied: one unstable pair with and without the added levels. -/
example : countPairs padEos padEx'.S.get padEx'.T.get padEx'.P.get 6 = countPairs padEos padEx.S.get padEx.T.get padEx.P.get 3 ∧
    countPairs padEos padEx.S.get padEx.T.get padEx.P.get 3 = 1 :=
  ⟨countPairs_pad nanLaws_fl padEx_pad padEos_nan, by decide +kernel⟩

/-- A minimiser that sees its bottles only, and a padding with NaN salinities, for `castStep_pad`. -/
example : Local (fun n S _ _ _ => some fun i => if i < n then -S i else (.fin 0 : Fl ℚ)) ∧
    ∃ c' : Cast (Fl ℚ), NanPad padEx c' 1 ∧ ∀ j, j < c'.P.size → j < 1 ∨ 1 + padEx.P.size ≤ j → isNaN (c'.S.get j) = true := by
  constructor
  · intro n S T P g S' T' P' g' h
    show some _ = some _
    congr 1
    funext i
    by_cases hi : i < n
    · rw [if_pos hi, if_pos hi, (h i hi).1]
    · rw [if_neg hi, if_neg hi]
  · refine ⟨⟨Arr.ofList [.nan, .fin 0, .fin 1, .fin 0, .nan], Arr.ofList [.nan, .fin 5, .fin 5, .fin 5, .nan], Arr.ofList [.fin (-5), .fin 0, .fin 10, .fin 20, .fin 30]⟩, ?_, ?_⟩
    · refine ⟨rfl, rfl, rfl, rfl, by decide, ?_, ?_, ?_, ?_⟩
      · intro i hi
        have : i < 3 := hi
        interval_cases i <;> rfl
      · intro i hi
        have : i < 3 := hi
        interval_cases i <;> rfl
      · intro i hi
        have : i < 3 := hi
        interval_cases i <;> rfl
      · intro j hj h
        have : j < 5 := hj
        have h : j < 1 ∨ 4 ≤ j := h
        have : j = 0 ∨ j = 4 := by omega
        rcases this with rfl | rfl <;> exact Or.inl ⟨rfl, rfl⟩
    · intro j hj h
      have : j < 5 := hj
      have h : j < 1 ∨ 4 ≤ j := h
      have : j = 0 ∨ j = 4 := by omega
      rcases this with rfl | rfl <;> rfl

end Stability

/-- `mixedLayer_pad` applied: the reference bottle 0 becomes 1. -/
example : MixedLayer.mixedLayer Interp.linearInterp1 (fun s t p => Stability.padEos s t p + .fin 1000) Stability.padEx'.S Stability.padEx'.T Stability.padEx'.P (.fin (1 / 2)) (.fin 0) 1 =
    MixedLayer.mixedLayer Interp.linearInterp1 (fun s t p => Stability.padEos s t p + .fin 1000) Stability.padEx.S Stability.padEx.T Stability.padEx.P (.fin (1 / 2)) (.fin 0) 0 :=
  MixedLayer.mixedLayer_pad (j := 0) Same.nanLaws_fl Stability.padEx_pad
    (fun s t p h => Same.nanLaws_fl.add _ _ (Or.inl (Stability.padEos_nan s t p h))) (Or.inl rfl) _ _ (by decide)

namespace Label
open FloatLike Interp
open Fl hiding nan

section generic
variable {F : Type*} [FloatCeil F] {P P' : Arr F} {Sc Tc Sc' Tc' : PPC F} {eosST : F → F → F → F × F} {dp : F} {K : ℕ}

theorem intXK_congr (hP : ∀ i, i < K → P'.get i = P.get i) (hS : ∀ i, i + 1 < K → Sc'.row i = Sc.row i) (hT : ∀ i, i + 1 < K → Tc'.row i = Tc.row i)
    (p : F) {k : ℕ} (hk : k + 1 < K) : intXK eosST P' Sc' Tc' dp p k = intXK eosST P Sc Tc dp p k := by
  unfold intXK integrand
  rw [hP (k + 1) hk, hP k (by omega), hS k hk, hT k hk]

theorem intUp_congr (hP : ∀ i, i < K → P'.get i = P.get i) (hS : ∀ i, i + 1 < K → Sc'.row i = Sc.row i) (hT : ∀ i, i + 1 < K → Tc'.row i = Tc.row i)
    {p q : F} (hp : pieceEnd P' p = pieceEnd P p) (hq : pieceEnd P' q = pieceEnd P q) (hp1 : 1 ≤ pieceEnd P p) (hq1 : 1 ≤ pieceEnd P q)
    (hpK : pieceEnd P p < K) (hqK : pieceEnd P q < K) : intUp eosST P' Sc' Tc' dp p q = intUp eosST P Sc Tc dp p q := by
  unfold intUp
  rw [hp, hq]
  dsimp only
  rw [intXK_congr hP hS hT p (k := pieceEnd P p - 1) (by omega), intXK_congr hP hS hT q (k := pieceEnd P q - 1) (by omega)]
  have key : ∀ (l : List ℕ), (∀ k ∈ l, k + 1 < K) → ∀ d, l.foldlM (fun d k => (intXK eosST P' Sc' Tc' dp (P'.get k) k).map (fun y => d + y)) d =
      l.foldlM (fun d k => (intXK eosST P Sc Tc dp (P.get k) k).map (fun y => d + y)) d := by
    intro l
    induction l with
    | nil => intro _ d; rfl
    | cons k l ih =>
      intro h d
      have hk := h k (by simp)
      rw [List.foldlM_cons, List.foldlM_cons, hP k (by omega), intXK_congr hP hS hT _ hk]
      congr 1
      funext d'
      exact ih (fun j hj => h j (by simp [hj])) d'
  have e : ∀ d, (List.range' (pieceEnd P p) (pieceEnd P q - pieceEnd P p)).foldlM (fun d k => (intXK eosST P' Sc' Tc' dp (P'.get k) k).map (fun y => d + y)) d =
      (List.range' (pieceEnd P p) (pieceEnd P q - pieceEnd P p)).foldlM (fun d k => (intXK eosST P Sc Tc dp (P.get k) k).map (fun y => d + y)) d :=
    key _ (fun k hk => by rw [List.mem_range'_1] at hk; omega)
  simp only [e]

theorem diffSame_congr {X X' : Arr F} (hX : ∀ i, i < K → X'.get i = X.get i) (h1 : K ≤ X.size) (h2 : K ≤ X'.size) {i : ℕ} (hi : i + 1 < K) :
    (diffSame X').get i = (diffSame X).get i := by
  show (if i + 1 = X'.size then _ else _) = (if i + 1 = X.size then _ else _)
  rw [if_neg (by omega), if_neg (by omega), hX _ hi, hX _ (by omega)]

theorem slopeAt_congr {h h' δ δ' : ℕ → F} (hh : ∀ i, i + 1 < K → h' i = h i) (hd : ∀ i, i + 1 < K → δ' i = δ i) (h2 : 2 < K) {i : ℕ} (hi : i < K) :
    slopeAt h' δ' 0 K i = slopeAt h δ 0 K i := by
  unfold slopeAt
  rw [hh 0 (by omega), hh (0 + 1) (by omega), hd 0 (by omega), hd (0 + 1) (by omega), hh (K - 2) (by omega), hh (K - 3) (by omega), hd (K - 2) (by omega),
    hd (K - 3) (by omega)]
  split_ifs with a b
  · rfl
  · rfl
  · rw [hh i (by omega), hd i (by omega), hh (i - 1) (by omega), hd (i - 1) (by omega)]

theorem pchip_congr {X Y X' Y' : Arr F} (hX : ∀ i, i < K → X'.get i = X.get i) (hY : ∀ i, i < K → Y'.get i = Y.get i) (x1 : K ≤ X.size) (x2 : K ≤ X'.size)
    (y1 : K ≤ Y.size) (y2 : K ≤ Y'.size) (v : validRange2 X Y = (0, K)) (v' : validRange2 X' Y' = (0, K)) {C C' : PPC F} (h : pchipCoeffs1 X Y = some C)
    (h' : pchipCoeffs1 X' Y' = some C') : ∀ i, i + 1 < K → C'.row i = C.row i := by
  intro i hi
  unfold pchipCoeffs1 pchipCoeffsAux at h h'
  rw [v] at h
  rw [v'] at h'
  dsimp only at h h'
  have hrow : 2 < K → pchipRow X' Y' 0 K i = pchipRow X Y 0 K i := by
    intro h2
    unfold pchipRow
    dsimp only
    have hh : ∀ i, i + 1 < K → (diffSame X').get i = (diffSame X).get i := fun i hi => diffSame_congr hX x1 x2 hi
    have hd : ∀ i, i + 1 < K → (diffSame Y').get i / (diffSame X').get i = (diffSame Y).get i / (diffSame X).get i :=
      fun i hi => by rw [hh i hi, diffSame_congr hY y1 y2 hi]
    rw [slopeAt_congr (i := i) hh hd h2 (by omega), slopeAt_congr (i := i + 1) hh hd h2 hi, hh i hi, diffSame_congr hY y1 y2 hi, hY i (by omega)]
  by_cases h2 : 2 < K - 0
  · rw [if_pos h2] at h h'
    split_ifs at h h'
    obtain rfl := Option.some.inj h
    obtain rfl := Option.some.inj h'
    dsimp only
    rw [if_pos (by omega), if_pos (by omega), hrow (by omega), hY i (by omega)]
  · rw [if_neg h2] at h h'
    by_cases h3 : K - 0 = 2
    · rw [if_pos h3] at h h'
      rw [hY (0 + 1) (by omega), hY 0 (by omega), hX (0 + 1) (by omega), hX 0 (by omega)] at h'
      cases hs : sdiv (Y.get (0 + 1) - Y.get 0) (X.get (0 + 1) - X.get 0) with
      | none => rw [hs] at h; cases h
      | some δ =>
        rw [hs] at h h'
        obtain rfl := Option.some.inj h
        obtain rfl := Option.some.inj h'
        dsimp only
        rw [hY i (by omega)]
    · omega

end generic

variable {α : Type*} [Field α] [LinearOrder α] [IsStrictOrderedRing α] [FloorRing α]
variable {P S T P' S' T' : Arr (Fl α)} {K : ℕ} {a a' s t : ℕ → α}
  {eos : Fl α → Fl α → Fl α → Fl α} {eosST : Fl α → Fl α → Fl α → Fl α × Fl α} {ppc : Arr (Fl α) → Arr (Fl α) → Option (PPC (Fl α))}

theorem pieceEnd_pad {Sc Tc Sc' Tc' : PPC (Fl α)} {c e c' e' : ℕ → List α} (B : Cast P Sc Tc K a c e) (B' : Cast P' Sc' Tc' K a' c' e')
    (ha : ∀ i, i < K → a' i = a i) {p : α} (h0 : a 0 ≤ p) (h1 : p ≤ a (K - 1)) : pieceEnd P' (Fl.fin p) = pieceEnd P (Fl.fin p) := by
  have h2 := B.two
  have hs := B.size
  obtain ⟨p1, p2, p3, p4, p5⟩ := pieceEnd_spec B h0 h1
  obtain ⟨q1, q2, q3, q4, q5⟩ := pieceEnd_spec B' (p := p) (by rw [ha 0 (by omega)]; exact h0) (by rw [ha _ (by omega)]; exact h1)
  generalize pieceEnd P (Fl.fin p) = j at *
  generalize pieceEnd P' (Fl.fin p) = l at *
  rw [ha l (by omega)] at q3
  rw [ha (l - 1) (by omega)] at q5
  rcases lt_trichotomy l j with h | h | h
  · exfalso
    have := B.mono l (j - 1) (by omega) (by omega)
    rcases p5 with h' | h'
    · omega
    · linarith
  · exact h
  · exfalso
    have := B.mono j (l - 1) (by omega) (by omega)
    rcases q5 with h' | h'
    · omega
    · linarith

/-- **C175** The Veronis density between positions within the data does not change when levels without salinity and temperature are added below, whatever the step. -/
theorem veronis_pad (H : Profile P S T K a s t) (H' : Profile P' S' T' K a' s t) (ha : ∀ i, i < K → a' i = a i)
    (hpp : ppc = (fun X Y => some (linearCoeffs1 X Y)) ∨ ppc = pchipCoeffs1) {p0 p1 : α} (h0 : a 0 ≤ p0 ∧ p0 ≤ a (K - 1)) (h1 : a 0 ≤ p1 ∧ p1 ≤ a (K - 1))
    (pref b dp : Fl α) :
    veronis ppc eos eosST S' T' P' (Fl.fin p1) (some (Fl.fin p0)) pref b dp = veronis ppc eos eosST S T P (Fl.fin p1) (some (Fl.fin p0)) pref b dp ∧
    veronis ppc eos eosST S' T' P' (Fl.fin p1) none pref b dp = veronis ppc eos eosST S T P (Fl.fin p1) none pref b dp := by
  have G : Good ppc := by rcases hpp with rfl | rfl; exacts [good_linear, good_pchip]
  obtain ⟨Sc, Tc, c, e, g1, g2, g3, g4, B, -⟩ := H.cast G
  obtain ⟨Sc', Tc', c', e', f1, f2, f3, f4, B', -⟩ := H'.cast G
  have h2 := B.two
  have hs := B.size
  have hs' := B'.size
  have eP : ∀ i, i < K → P'.get i = P.get i := fun i hi => by rw [H'.hP i (by omega), H.hP i (by omega), ha i hi]
  have eS : ∀ i, i < K → S'.get i = S.get i := fun i hi => by rw [H'.BS.hY i (Nat.zero_le _) hi, H.BS.hY i (Nat.zero_le _) hi]
  have eT : ∀ i, i < K → T'.get i = T.get i := fun i hi => by rw [H'.BT.hY i (Nat.zero_le _) hi, H.BT.hY i (Nat.zero_le _) hi]
  have sS := H.BS.size
  have sS' := H'.BS.size
  have sT := H.BT.size
  have sT' := H'.BT.size
  have rS : ∀ i, i + 1 < K → Sc'.row i = Sc.row i := by
    rcases hpp with rfl | rfl
    · intro i hi
      obtain rfl := Option.some.inj g1
      obtain rfl := Option.some.inj f1
      show [_, _] = [_, _]
      rw [diffSame_congr eP hs hs' hi, diffSame_congr eS (by omega) (by omega) hi, eS i (by omega)]
    · exact pchip_congr eP eS hs hs' (by omega) (by omega) H.BS.vr H'.BS.vr g1 f1
  have rT : ∀ i, i + 1 < K → Tc'.row i = Tc.row i := by
    rcases hpp with rfl | rfl
    · intro i hi
      obtain rfl := Option.some.inj g2
      obtain rfl := Option.some.inj f2
      show [_, _] = [_, _]
      rw [diffSame_congr eP hs hs' hi, diffSame_congr eT (by omega) (by omega) hi, eT i (by omega)]
    · exact pchip_congr eP eT hs hs' (by omega) (by omega) H.BT.vr H'.BT.vr g2 f2
  have inj : Function.Injective (List.map (Fl.fin (α := α))) := List.map_injective_iff.mpr fun x y h => Fl.fin.inj h
  have ec : ∀ i, i + 1 < K → c' i = c i := fun i hi => inj (by rw [← B'.hS i hi, ← B.hS i hi, rS i hi])
  have ee : ∀ i, i + 1 < K → e' i = e i := fun i hi => inj (by rw [← B'.hT i hi, ← B.hT i hi, rT i hi])
  have main : ∀ p0, a 0 ≤ p0 ∧ p0 ≤ a (K - 1) →
      veronis ppc eos eosST S' T' P' (Fl.fin p1) (some (Fl.fin p0)) pref b dp = veronis ppc eos eosST S T P (Fl.fin p1) (some (Fl.fin p0)) pref b dp := by
    intro p0 h0
    have a0 : a' 0 = a 0 := ha 0 (by omega)
    have aK : a' (K - 1) = a (K - 1) := ha _ (by omega)
    have q0 : a' 0 ≤ p0 ∧ p0 ≤ a' (K - 1) := by rw [a0, aK]; exact h0
    have q1 : a' 0 ≤ p1 ∧ p1 ≤ a' (K - 1) := by rw [a0, aK]; exact h1
    have e0 := pieceEnd_pad B B' ha h0.1 h0.2
    obtain ⟨z1, z2, -⟩ := pieceEnd_spec B h0.1 h0.2
    unfold veronis veronisPP potDens
    rw [g1, g2, f1, f2]
    simp only [Option.bind_eq_bind, Option.bind_some, Option.getD_some]
    rw [intDlrpd_inside B h0.1 h0.2 h1.1 h1.2, intDlrpd_inside B' q0.1 q0.2 q1.1 q1.2]
    have hmin : a 0 ≤ min p0 p1 ∧ min p0 p1 ≤ a (K - 1) := ⟨le_min h0.1 h1.1, le_trans (min_le_left _ _) h0.2⟩
    have hmax : a 0 ≤ max p0 p1 ∧ max p0 p1 ≤ a (K - 1) := ⟨le_trans h0.1 (le_max_left _ _), max_le h0.2 h1.2⟩
    obtain ⟨x1, x2, -⟩ := pieceEnd_spec B hmin.1 hmin.2
    obtain ⟨y1, y2, -⟩ := pieceEnd_spec B hmax.1 hmax.2
    rw [intUp_congr eP rS rT (pieceEnd_pad B B' ha hmin.1 hmin.2) (pieceEnd_pad B B' ha hmax.1 hmax.2) x1 y1 x2 y2]
    rw [B.ppval H g3 h0.1 h0.2 0, B'.ppval H' f3 q0.1 q0.2 0, e0, ec _ (by omega), ee _ (by omega), ha _ (by omega)]
  refine ⟨main p0 h0, ?_⟩
  have en : veronis ppc eos eosST S' T' P' (Fl.fin p1) none pref b dp = veronis ppc eos eosST S' T' P' (Fl.fin p1) (some (P'.get 0)) pref b dp := rfl
  have en' : veronis ppc eos eosST S T P (Fl.fin p1) none pref b dp = veronis ppc eos eosST S T P (Fl.fin p1) (some (P.get 0)) pref b dp := rfl
  rw [en, en', H'.hP 0 (by omega), H.hP 0 (by omega), ha 0 (by omega)]
  exact main (a 0) ⟨le_rfl, B.mono 0 (K - 1) (by omega) (by omega)⟩

/-- The cast of the examples (bottles at 0, 10, 30, and a level at 60 without data) and its bottles alone have the same labels. -/
example : ∀ p ∈ [(5 : ℚ), 20, 30], veronis (fun X Y => some (linearCoeffs1 X Y)) exEos exEosST exS exT exP (Fl.fin p) none (Fl.fin 0) (Fl.fin 1) (Fl.fin 3) =
    veronis (fun X Y => some (linearCoeffs1 X Y)) exEos exEosST (exS.slice 0 3) (exT.slice 0 3) (exP.slice 0 3) (Fl.fin p) none (Fl.fin 0) (Fl.fin 1) (Fl.fin 3) := by
  decide +kernel

end Label
