import Verif.Props.PadTools

/-!
# Veronis density of casts that share some bottles (C178)
-/

set_option linter.unusedSectionVars false

namespace Label
open FloatLike Interp
open Fl hiding nan

/-- Specification: the bottles `l, .., l + n` of one cast are the bottles `l', .., l' + n` of the other, and of these `w` more than the nearest ones lie above `lo` and
below `hi` — unless they begin (end) with the first (last) bottle of both casts. -/
structure Shares {α : Type*} [LinearOrder α] (w K : ℕ) (a s t : ℕ → α) (K' : ℕ) (a' s' t' : ℕ → α) (lo hi : α) (l l' n : ℕ) : Prop where
  le : l + n < K
  le' : l' + n < K'
  one : 1 ≤ n
  same : ∀ j, j ≤ n → a' (l' + j) = a (l + j) ∧ s' (l' + j) = s (l + j) ∧ t' (l' + j) = t (l + j)
  above : a (l + w) < lo ∧ w ≤ n ∨ l = 0 ∧ l' = 0
  below : w < n ∧ hi ≤ a (l + n - w) ∨ l + n + 1 = K ∧ l' + n + 1 = K'

section generic
variable {F : Type*} [FloatCeil F] {l l' n : ℕ}

theorem diffSame_shift {X X' : Arr F} (hX : ∀ j, j ≤ n → X'.get (l' + j) = X.get (l + j)) (h1 : l + n < X.size) (h2 : l' + n < X'.size) {j : ℕ} (hj : j + 1 ≤ n) :
    (diffSame X').get (l' + j) = (diffSame X).get (l + j) := by
  show (if l' + j + 1 = X'.size then _ else _) = (if l + j + 1 = X.size then _ else _)
  have e := hX (j + 1) hj
  rw [if_neg (by omega), if_neg (by omega), hX j (by omega), show l' + j + 1 = l' + (j + 1) by omega, show l + j + 1 = l + (j + 1) by omega, e]

theorem slopeAt_shift {h h' δ δ' : ℕ → F} {K K' : ℕ} (hh : ∀ j, j + 1 ≤ n → h' (l' + j) = h (l + j)) (hd : ∀ j, j + 1 ≤ n → δ' (l' + j) = δ (l + j)) (hK : l + n < K)
    (hK' : l' + n < K') (h2 : 2 ≤ n) {m : ℕ} (ht : 1 ≤ m ∨ l = 0 ∧ l' = 0) (hb : m + 1 ≤ n ∨ m ≤ n ∧ l + n + 1 = K ∧ l' + n + 1 = K') :
    slopeAt h' δ' 0 K' (l' + m) = slopeAt h δ 0 K (l + m) := by
  unfold slopeAt
  by_cases c1 : l + m = 0
  · have hl : l = 0 := by omega
    have hl' : l' = 0 := by omega
    have hm : m = 0 := by omega
    subst hl hl' hm
    have e0 := hh 0 (by omega)
    have e1 := hh 1 (by omega)
    have d0 := hd 0 (by omega)
    have d1 := hd 1 (by omega)
    simp only [Nat.zero_add] at e0 e1 d0 d1
    simp only [Nat.zero_add, if_true, e0, e1, d0, d1]
  · have c1' : ¬l' + m = 0 := by omega
    rw [if_neg c1, if_neg c1']
    by_cases c2 : l + m = K - 1
    · have hm : m = n := by omega
      have e0 := hh (n - 1) (by omega)
      have e1 := hh (n - 2) (by omega)
      have d0 := hd (n - 1) (by omega)
      have d1 := hd (n - 2) (by omega)
      rw [if_pos c2, if_pos (by omega), show K' - 2 = l' + (n - 1) by omega, show K' - 3 = l' + (n - 2) by omega, show K - 2 = l + (n - 1) by omega,
        show K - 3 = l + (n - 2) by omega, e0, e1, d0, d1]
    · rw [if_neg c2, if_neg (by omega)]
      have e0 := hh (m - 1) (by omega)
      have e1 := hh m (by omega)
      have d0 := hd (m - 1) (by omega)
      have d1 := hd m (by omega)
      rw [show l' + m - 1 = l' + (m - 1) by omega, show l + m - 1 = l + (m - 1) by omega, e0, e1, d0, d1]

theorem pchip_shift {X Y X' Y' : Arr F} {K K' : ℕ} (hX : ∀ j, j ≤ n → X'.get (l' + j) = X.get (l + j)) (hY : ∀ j, j ≤ n → Y'.get (l' + j) = Y.get (l + j)) (hK : l + n < K)
    (hK' : l' + n < K') (x1 : K ≤ X.size) (x2 : K' ≤ X'.size)
    (y1 : K ≤ Y.size) (y2 : K' ≤ Y'.size) (v : validRange2 X Y = (0, K)) (v' : validRange2 X' Y' = (0, K')) {C C' : PPC F} (h : pchipCoeffs1 X Y = some C)
    (h' : pchipCoeffs1 X' Y' = some C') {j : ℕ} (hj : j + 1 ≤ n) (ht : 1 ≤ j ∨ l = 0 ∧ l' = 0) (hb : j + 2 ≤ n ∨ l + n + 1 = K ∧ l' + n + 1 = K') :
    C'.row (l' + j) = C.row (l + j) := by
  unfold pchipCoeffs1 pchipCoeffsAux at h h'
  rw [v] at h
  rw [v'] at h'
  dsimp only at h h'
  have eY := hY j (by omega)
  by_cases h2 : 2 < K - 0
  · have hn2 : 2 ≤ n := by omega
    rw [if_pos h2] at h
    rw [if_pos (by omega)] at h'
    have hrow : pchipRow X' Y' 0 K' (l' + j) = pchipRow X Y 0 K (l + j) := by
      unfold pchipRow
      dsimp only
      have hh : ∀ j, j + 1 ≤ n → (diffSame X').get (l' + j) = (diffSame X).get (l + j) := fun i hi => diffSame_shift hX (by omega) (by omega) hi
      have hy : ∀ j, j + 1 ≤ n → (diffSame Y').get (l' + j) = (diffSame Y).get (l + j) := fun i hi => diffSame_shift hY (by omega) (by omega) hi
      have hd : ∀ j, j + 1 ≤ n → (fun i => (diffSame Y').get i / (diffSame X').get i) (l' + j) = (fun i => (diffSame Y).get i / (diffSame X).get i) (l + j) :=
        fun i hi => by dsimp only; rw [hh i hi, hy i hi]
      have s0 := slopeAt_shift (δ := fun i => (diffSame Y).get i / (diffSame X).get i) (δ' := fun i => (diffSame Y').get i / (diffSame X').get i) (m := j) hh hd hK hK' hn2 ht (by omega)
      have s1 := slopeAt_shift (δ := fun i => (diffSame Y).get i / (diffSame X).get i) (δ' := fun i => (diffSame Y').get i / (diffSame X').get i) (m := j + 1) hh hd hK hK' hn2 (by omega) (by omega)
      rw [show l' + j + 1 = l' + (j + 1) by omega, show l + j + 1 = l + (j + 1) by omega, s0, s1, hh j hj, hy j hj, eY]
    split_ifs at h h'
    obtain rfl := Option.some.inj h
    obtain rfl := Option.some.inj h'
    dsimp only
    rw [if_pos (by omega), if_pos (by omega), hrow, eY]
  · have h3 : K - 0 = 2 := by omega
    have hl : l = 0 := by omega
    have hl' : l' = 0 := by omega
    have hn : n = 1 := by omega
    subst hl hl' hn
    rw [if_neg h2, if_pos h3] at h
    rw [if_neg (by omega), if_pos (by omega)] at h'
    have z0 := hX 0 (by omega)
    have z1 := hX 1 (by omega)
    have w0 := hY 0 (by omega)
    have w1 := hY 1 (by omega)
    simp only [Nat.zero_add] at z0 z1 w0 w1 h h'
    rw [z0, z1, w0, w1] at h'
    cases hs : sdiv (Y.get 1 - Y.get 0) (X.get 1 - X.get 0) with
    | none => rw [hs] at h; cases h
    | some δ =>
      rw [hs] at h h'
      obtain rfl := Option.some.inj h
      obtain rfl := Option.some.inj h'
      dsimp only
      rw [eY]

variable {P P' : Arr F} {Sc Tc Sc' Tc' : PPC F} {eosST : F → F → F → F × F} {dp : F}

theorem intXK_shift (p : F) {k k' : ℕ} (h0 : P'.get k' = P.get k) (h1 : P'.get (k' + 1) = P.get (k + 1)) (hS : Sc'.row k' = Sc.row k) (hT : Tc'.row k' = Tc.row k) :
    intXK eosST P' Sc' Tc' dp p k' = intXK eosST P Sc Tc dp p k := by
  unfold intXK integrand
  rw [h0, h1, hS, hT]

theorem intUp_shift {u v : ℕ} (hu : 1 ≤ u) (huv : u ≤ v) (hP : ∀ j, u - 1 ≤ j → j ≤ v → P'.get (l' + j) = P.get (l + j))
    (hS : ∀ j, u - 1 ≤ j → j < v → Sc'.row (l' + j) = Sc.row (l + j)) (hT : ∀ j, u - 1 ≤ j → j < v → Tc'.row (l' + j) = Tc.row (l + j))
    {p q : F} (hp : pieceEnd P p = l + u) (hp' : pieceEnd P' p = l' + u) (hq : pieceEnd P q = l + v) (hq' : pieceEnd P' q = l' + v) :
    intUp eosST P' Sc' Tc' dp p q = intUp eosST P Sc Tc dp p q := by
  have one : ∀ (x : F) j, u - 1 ≤ j → j < v → intXK eosST P' Sc' Tc' dp x (l' + j) = intXK eosST P Sc Tc dp x (l + j) := fun x j h1 h2 =>
    intXK_shift x (hP j h1 h2.le) (hP (j + 1) (by omega) (by omega)) (hS j h1 h2) (hT j h1 h2)
  unfold intUp
  rw [hp, hp', hq, hq']
  dsimp only
  have key : ∀ (m j : ℕ), u ≤ j → j + m ≤ v → ∀ d, (List.range' (l' + j) m).foldlM (fun d k => (intXK eosST P' Sc' Tc' dp (P'.get k) k).map (fun y => d + y)) d =
      (List.range' (l + j) m).foldlM (fun d k => (intXK eosST P Sc Tc dp (P.get k) k).map (fun y => d + y)) d := by
    intro m
    induction m with
    | zero => intro j _ _ d; rfl
    | succ m ih =>
      intro j h1 h2 d
      rw [List.range'_succ, List.range'_succ, List.foldlM_cons, List.foldlM_cons, hP j (by omega) (by omega), one _ j (by omega) (by omega)]
      congr 1
      funext d'
      exact ih (j + 1) (by omega) (by omega) d'
  rw [show l' + u - 1 = l' + (u - 1) by omega, show l + u - 1 = l + (u - 1) by omega, show l' + v - 1 = l' + (v - 1) by omega, show l + v - 1 = l + (v - 1) by omega,
    one p (u - 1) le_rfl (by omega), one q (v - 1) (by omega) (by omega), show l' + v - (l' + u) = v - u by omega, show l + v - (l + u) = v - u by omega]
  have e := key (v - u) u le_rfl (by omega)
  simp only [e]

end generic

variable {α : Type*} [Field α] [LinearOrder α] [IsStrictOrderedRing α] [FloorRing α]
variable {P S T P' S' T' : Arr (Fl α)} {K K' : ℕ} {a s t a' s' t' : ℕ → α}
  {eos : Fl α → Fl α → Fl α → Fl α} {eosST : Fl α → Fl α → Fl α → Fl α × Fl α} {ppc : Arr (Fl α) → Arr (Fl α) → Option (PPC (Fl α))}

/-- The piece found on one cast is in the window. -/
theorem pieceEnd_in {Sc Tc : PPC (Fl α)} {c e : ℕ → List α} (B : Cast P Sc Tc K a c e) {l n w : ℕ} (hK : l + n < K) (hn : 1 ≤ n) {p : α} (h0 : a 0 ≤ p) (h1 : p ≤ a (K - 1))
    (ht : a (l + w) < p ∧ w ≤ n ∨ l = 0) (hb : w < n ∧ p ≤ a (l + n - w) ∨ l + n + 1 = K) :
    ∃ u, pieceEnd P (Fl.fin p) = l + u ∧ 1 ≤ u ∧ u ≤ n ∧ (w + 1 ≤ u ∨ l = 0) ∧ (u + w ≤ n ∨ l + n + 1 = K) := by
  have hs := B.size
  obtain ⟨p1, p2, p3, p4, p5⟩ := pieceEnd_spec B h0 h1
  generalize pieceEnd P (Fl.fin p) = j at *
  have t : l + w + 1 ≤ j ∨ l = 0 := by
    rcases ht with h | h
    · left
      by_contra hc
      exact absurd (h.1.trans_le (p3.trans (B.mono j (l + w) (by omega) (by omega)))) (lt_irrefl _)
    · exact Or.inr h
  have b : w < n ∧ j ≤ l + n - w ∨ l + n + 1 = K := by
    rcases hb with h | h
    · refine Or.inl ⟨h.1, ?_⟩
      by_contra hc
      rcases p5 with h5 | h5
      · omega
      · exact absurd (h5.trans_le (h.2.trans (B.mono (l + n - w) (j - 1) (by omega) (by omega)))) (lt_irrefl _)
    · exact Or.inr h
  exact ⟨j - l, by omega, by omega, by omega, by omega, by omega⟩

theorem pieceEnd_shares {Sc Tc Sc' Tc' : PPC (Fl α)} {c e c' e' : ℕ → List α} (B : Cast P Sc Tc K a c e) (B' : Cast P' Sc' Tc' K' a' c' e') {w l l' n : ℕ} {lo hi : α}
    (H : Shares w K a s t K' a' s' t' lo hi l l' n) {p : α} (h0 : a 0 ≤ p) (h1 : p ≤ a (K - 1)) (hlo : lo ≤ p) (hhi : p ≤ hi) :
    a' 0 ≤ p ∧ p ≤ a' (K' - 1) ∧ ∃ u, pieceEnd P (Fl.fin p) = l + u ∧ pieceEnd P' (Fl.fin p) = l' + u ∧ 1 ≤ u ∧ u ≤ n ∧ (w + 1 ≤ u ∨ l = 0 ∧ l' = 0) ∧
      (u + w ≤ n ∨ l + n + 1 = K ∧ l' + n + 1 = K') := by
  have hs := B.size
  have hs' := B'.size
  have b1 := H.le
  have b2 := H.le'
  have b3 := H.one
  have ht : a (l + w) < p ∧ w ≤ n ∨ l = 0 ∧ l' = 0 := H.above.imp (fun h => ⟨h.1.trans_le hlo, h.2⟩) id
  have hb : w < n ∧ p ≤ a (l + n - w) ∨ l + n + 1 = K ∧ l' + n + 1 = K' := H.below.imp (fun h => ⟨h.1, hhi.trans h.2⟩) id
  obtain ⟨u, e1, e2, e3, e4, e5⟩ := pieceEnd_in B b1 b3 h0 h1 (ht.imp id And.left) (hb.imp id And.left)
  obtain ⟨p1, p2, p3, p4, p5⟩ := pieceEnd_spec B h0 h1
  rw [e1] at p1 p2 p3 p4 p5
  rw [show l + u - 1 = l + (u - 1) by omega] at p4 p5
  have g0 : a' 0 ≤ p := by
    refine (B'.mono 0 (l' + (u - 1)) (by omega) (by omega)).trans ?_
    rw [(H.same (u - 1) (by omega)).1]
    exact p4
  have g1 : p ≤ a' (K' - 1) := by
    refine le_trans ?_ (B'.mono (l' + u) (K' - 1) (by omega) (by omega))
    rw [(H.same u e3).1]
    exact p3
  have ht' : a' (l' + w) < p ∧ w ≤ n ∨ l' = 0 := ht.imp (fun h => ⟨by rw [(H.same w h.2).1]; exact h.1, h.2⟩) And.right
  have hb' : w < n ∧ p ≤ a' (l' + n - w) ∨ l' + n + 1 = K' := hb.imp (fun h => ⟨h.1, by
    rw [show l' + n - w = l' + (n - w) by omega, (H.same (n - w) (by omega)).1, show l + (n - w) = l + n - w by omega]; exact h.2⟩) And.right
  obtain ⟨u', f1, f2, f3, f4, f5⟩ := pieceEnd_in B' b2 b3 g0 g1 ht' hb'
  obtain ⟨q1, q2, q3, q4, q5⟩ := pieceEnd_spec B' g0 g1
  rw [f1] at q1 q2 q3 q4 q5
  rw [show l' + u' - 1 = l' + (u' - 1) by omega, (H.same (u' - 1) (by omega)).1] at q5
  rw [(H.same u' f3).1] at q3
  have huu : u' = u := by
    rcases lt_trichotomy u' u with h | h | h
    · exfalso
      rcases p5 with h' | h'
      · omega
      · exact absurd (h'.trans_le (q3.trans (B.mono (l + u') (l + (u - 1)) (by omega) (by omega)))) (lt_irrefl _)
    · exact h
    · exfalso
      rcases q5 with h' | h'
      · omega
      · exact absurd (h'.trans_le (p3.trans (B.mono (l + u) (l + (u' - 1)) (by omega) (by omega)))) (lt_irrefl _)
  subst huu
  refine ⟨g0, g1, u', e1, f1, e2, e3, ?_, ?_⟩
  · rcases H.above with h | h
    · rcases e4 with h' | h'
      · exact Or.inl h'
      · rcases f4 with h'' | h''
        · exact Or.inl h''
        · exact Or.inr ⟨h', h''⟩
    · exact Or.inr h
  · rcases e5 with h' | h'
    · exact Or.inl h'
    · rcases f5 with h'' | h''
      · exact Or.inl h''
      · exact Or.inr ⟨h', h''⟩

/-- **C178** The Veronis density at a position, from a base position, is determined by the bottles between the two and the nearest ones beyond (for PCHIP, one more on
each side): two casts that share these have the same label, whatever the step and the equation of state. -/
theorem veronis_window (H : Profile P S T K a s t) (H' : Profile P' S' T' K' a' s' t') {w : ℕ}
    (hpp : (ppc = (fun X Y => some (linearCoeffs1 X Y)) ∧ w = 0) ∨ ppc = pchipCoeffs1 ∧ w = 1) {lo hi : α} {l l' n : ℕ} (W : Shares w K a s t K' a' s' t' lo hi l l' n)
    {p0 p1 : α} (h0 : a 0 ≤ p0 ∧ p0 ≤ a (K - 1)) (h1 : a 0 ≤ p1 ∧ p1 ≤ a (K - 1)) (i0 : lo ≤ p0 ∧ p0 ≤ hi) (i1 : lo ≤ p1 ∧ p1 ≤ hi) (pref b dp : Fl α) :
    veronis ppc eos eosST S' T' P' (Fl.fin p1) (some (Fl.fin p0)) pref b dp = veronis ppc eos eosST S T P (Fl.fin p1) (some (Fl.fin p0)) pref b dp := by
  have G : Good ppc := by rcases hpp with ⟨rfl, -⟩ | ⟨rfl, -⟩; exacts [good_linear, good_pchip]
  obtain ⟨Sc, Tc, c, e, g1, g2, g3, g4, B, -⟩ := H.cast G
  obtain ⟨Sc', Tc', c', e', f1, f2, f3, f4, B', -⟩ := H'.cast G
  have h2 := B.two
  have hs := B.size
  have hs' := B'.size
  have b1 := W.le
  have b2 := W.le'
  have eP : ∀ j, j ≤ n → P'.get (l' + j) = P.get (l + j) := fun j hj => by rw [H'.hP _ (by omega), H.hP _ (by omega), (W.same j hj).1]
  have eS : ∀ j, j ≤ n → S'.get (l' + j) = S.get (l + j) := fun j hj => by
    rw [H'.BS.hY _ (Nat.zero_le _) (by omega), H.BS.hY _ (Nat.zero_le _) (by omega), (W.same j hj).2.1]
  have eT : ∀ j, j ≤ n → T'.get (l' + j) = T.get (l + j) := fun j hj => by
    rw [H'.BT.hY _ (Nat.zero_le _) (by omega), H.BT.hY _ (Nat.zero_le _) (by omega), (W.same j hj).2.2]
  have sS := H.BS.size
  have sS' := H'.BS.size
  have sT := H.BT.size
  have sT' := H'.BT.size
  have rS : ∀ j, j + 1 ≤ n → (w ≤ j ∨ l = 0 ∧ l' = 0) → (j + 1 + w ≤ n ∨ l + n + 1 = K ∧ l' + n + 1 = K') → Sc'.row (l' + j) = Sc.row (l + j) := by
    intro j hj ht hb
    rcases hpp with ⟨rfl, rfl⟩ | ⟨rfl, rfl⟩
    · obtain rfl := Option.some.inj g1
      obtain rfl := Option.some.inj f1
      show [_, _] = [_, _]
      rw [diffSame_shift eP (by omega) (by omega) hj, diffSame_shift eS (by omega) (by omega) hj, eS j (by omega)]
    · exact pchip_shift eP eS b1 b2 hs hs' (by omega) (by omega) H.BS.vr H'.BS.vr g1 f1 hj ht hb
  have rT : ∀ j, j + 1 ≤ n → (w ≤ j ∨ l = 0 ∧ l' = 0) → (j + 1 + w ≤ n ∨ l + n + 1 = K ∧ l' + n + 1 = K') → Tc'.row (l' + j) = Tc.row (l + j) := by
    intro j hj ht hb
    rcases hpp with ⟨rfl, rfl⟩ | ⟨rfl, rfl⟩
    · obtain rfl := Option.some.inj g2
      obtain rfl := Option.some.inj f2
      show [_, _] = [_, _]
      rw [diffSame_shift eP (by omega) (by omega) hj, diffSame_shift eT (by omega) (by omega) hj, eT j (by omega)]
    · exact pchip_shift eP eT b1 b2 hs hs' (by omega) (by omega) H.BT.vr H'.BT.vr g2 f2 hj ht hb
  obtain ⟨q0, q0', u, d1, d2, d3, d4, d5, d6⟩ := pieceEnd_shares B B' W h0.1 h0.2 i0.1 i0.2
  obtain ⟨q1, q1', v, -⟩ := pieceEnd_shares B B' W h1.1 h1.2 i1.1 i1.2
  unfold veronis veronisPP potDens
  rw [g1, g2, f1, f2]
  simp only [Option.bind_eq_bind, Option.bind_some, Option.getD_some]
  rw [intDlrpd_inside B h0.1 h0.2 h1.1 h1.2, intDlrpd_inside B' q0 q0' q1 q1']
  have hmin : a 0 ≤ min p0 p1 ∧ min p0 p1 ≤ a (K - 1) := ⟨le_min h0.1 h1.1, le_trans (min_le_left _ _) h0.2⟩
  have hmax : a 0 ≤ max p0 p1 ∧ max p0 p1 ≤ a (K - 1) := ⟨le_trans h0.1 (le_max_left _ _), max_le h0.2 h1.2⟩
  obtain ⟨-, -, x, x1, x2, x3, x4, x5, x6⟩ := pieceEnd_shares B B' W hmin.1 hmin.2 (le_min i0.1 i1.1) ((min_le_left _ _).trans i0.2)
  obtain ⟨-, -, y, y1, y2, y3, y4, y5, y6⟩ := pieceEnd_shares B B' W hmax.1 hmax.2 (i0.1.trans (le_max_left _ _)) (max_le i0.2 i1.2)
  have hxy : x ≤ y := by
    by_contra hc
    obtain ⟨-, -, -, -, z⟩ := pieceEnd_spec B hmin.1 hmin.2
    obtain ⟨-, -, z', -, -⟩ := pieceEnd_spec B hmax.1 hmax.2
    rw [x1] at z
    rw [y1] at z'
    rcases z with z | z
    · omega
    · exact absurd (z.trans_le (min_le_max.trans (z'.trans (B.mono (l + y) (l + x - 1) (by omega) (by omega))))) (lt_irrefl _)
  rw [intUp_shift x3 hxy (fun j _ h => eP j (by omega)) (fun j h h' => rS j (by omega) (by omega) (by omega))
    (fun j h h' => rT j (by omega) (by omega) (by omega)) x1 x2 y1 y2]
  have inj : Function.Injective (List.map (Fl.fin (α := α))) := List.map_injective_iff.mpr fun x y h => Fl.fin.inj h
  have ec : c' (l' + (u - 1)) = c (l + (u - 1)) := inj (by
    rw [← B'.hS _ (by omega), ← B.hS _ (by omega), rS (u - 1) (by omega) (by omega) (by omega)])
  have ee : e' (l' + (u - 1)) = e (l + (u - 1)) := inj (by
    rw [← B'.hT _ (by omega), ← B.hT _ (by omega), rT (u - 1) (by omega) (by omega) (by omega)])
  rw [B.ppval H g3 h0.1 h0.2 0, B'.ppval H' f3 q0 q0' 0, d1, d2, show l + u - 1 = l + (u - 1) by omega, show l' + u - 1 = l' + (u - 1) by omega, ec, ee,
    (W.same (u - 1) (by omega)).1]

/-- **C178** With the base at the top bottle (the default), it is determined by the bottles down to the first (PCHIP: second) below the position. -/
theorem veronis_window_top (H : Profile P S T K a s t) (H' : Profile P' S' T' K' a' s' t') {w : ℕ}
    (hpp : (ppc = (fun X Y => some (linearCoeffs1 X Y)) ∧ w = 0) ∨ ppc = pchipCoeffs1 ∧ w = 1) {n : ℕ} (hn : w < n) (hK : n < K) (hK' : n < K')
    (same : ∀ j, j ≤ n → a' j = a j ∧ s' j = s j ∧ t' j = t j) {p : α} (h0 : a 0 ≤ p) (h1 : p ≤ a (n - w)) (pref b dp : Fl α) :
    veronis ppc eos eosST S' T' P' (Fl.fin p) none pref b dp = veronis ppc eos eosST S T P (Fl.fin p) none pref b dp := by
  have G : Good ppc := by rcases hpp with ⟨rfl, -⟩ | ⟨rfl, -⟩; exacts [good_linear, good_pchip]
  obtain ⟨Sc, Tc, c, e, -, -, -, -, B, -⟩ := H.cast G
  obtain ⟨Sc', Tc', c', e', -, -, -, -, B', -⟩ := H'.cast G
  have hs := B.size
  have hs' := B'.size
  have m0 : a 0 ≤ a (n - w) := B.mono 0 (n - w) (by omega) (by omega)
  have mK : a (n - w) ≤ a (K - 1) := B.mono (n - w) (K - 1) (by omega) (by omega)
  have W : Shares w K a s t K' a' s' t' (a 0) (a (n - w)) 0 0 n :=
    ⟨by omega, by omega, by omega, fun j hj => by simpa using same j hj, Or.inr ⟨rfl, rfl⟩, Or.inl ⟨hn, by rw [Nat.zero_add]⟩⟩
  have en : veronis ppc eos eosST S' T' P' (Fl.fin p) none pref b dp = veronis ppc eos eosST S' T' P' (Fl.fin p) (some (P'.get 0)) pref b dp := rfl
  have en' : veronis ppc eos eosST S T P (Fl.fin p) none pref b dp = veronis ppc eos eosST S T P (Fl.fin p) (some (P.get 0)) pref b dp := rfl
  rw [en, en', H'.hP 0 (by omega), H.hP 0 (by omega), (same 0 (by omega)).1]
  exact veronis_window H H' hpp W ⟨le_rfl, m0.trans mK⟩ ⟨h0, h1.trans mK⟩ ⟨le_rfl, m0⟩ ⟨h0, h1⟩ pref b dp

/-! ## Concrete casts -/

/-- A cast of `m` bottles with the values `f`. -/
def wArr (m : ℕ) (f : ℕ → ℚ) : Arr (Fl ℚ) := ⟨m, fun i => Fl.fin (f i)⟩

theorem wProfile {m : ℕ} (hm : 2 ≤ m) {a : ℕ → ℚ} (ha : ∀ i, a i < a (i + 1)) (f g : ℕ → ℚ) : Profile (wArr m a) (wArr m f) (wArr m g) m a f g := by
  have v : ∀ f, validRange2 (wArr m a) (wArr m f) = (0, m) := fun f => validRange2_eq (show 0 < m by omega) (by omega) (le_refl m) (fun i h => absurd h (by omega)) ⟨rfl, rfl⟩
    (fun i _ _ => ⟨rfl, rfl⟩) (fun h => absurd h (lt_irrefl m))
  exact ⟨fun i _ => rfl, fun i _ => ha i, ⟨rfl, v f, by omega, fun i _ _ => rfl, fun i _ _ => rfl, fun i _ _ => ha i⟩,
    ⟨rfl, v g, by omega, fun i _ _ => rfl, fun i _ _ => rfl, fun i _ _ => ha i⟩⟩

/-- Bottles 1 to 4 of a cast of six bottles, whatever the two others are, and another cast of which the last four are these: the hypotheses of `veronis_window`
are met, for PCHIP and positions between 20 and 30. -/
example (y0 y5 y' z0 z5 z' pref b dp : ℚ) :
    veronis pchipCoeffs1 exEos exEosST (wArr 6 fun i => [y0, 34, 35, 35, 36].getD i y5) (wArr 6 fun i => [z0, 9, 7, 6, 2].getD i z5) (wArr 6 fun i => 10 * i)
      (Fl.fin 28) (some (Fl.fin 21)) (Fl.fin pref) (Fl.fin b) (Fl.fin dp) =
    veronis pchipCoeffs1 exEos exEosST (wArr 6 fun i => [1, y', 34, 35, 35].getD i 36) (wArr 6 fun i => [2, z', 9, 7, 6].getD i 2) (wArr 6 fun i => 10 * i - 10)
      (Fl.fin 28) (some (Fl.fin 21)) (Fl.fin pref) (Fl.fin b) (Fl.fin dp) := by
  refine veronis_window (w := 1) (lo := 21) (hi := 30) (l := 2) (l' := 1) (n := 3) (wProfile (by omega) (fun i => by push_cast; linarith) _ _)
    (wProfile (by omega) (fun i => by push_cast; linarith) _ _) (Or.inr ⟨rfl, rfl⟩) ⟨by omega, by omega, by omega, ?_, Or.inl ⟨by norm_num, by omega⟩, Or.inl ⟨by omega, by norm_num⟩⟩
    (by norm_num) (by norm_num) (by norm_num) (by norm_num) _ _ _
  intro j hj
  interval_cases j <;> norm_num

example (y z pref b dp : ℚ) :
    veronis (fun X Y => some (linearCoeffs1 X Y)) exEos exEosST (wArr 3 fun i => [34, 35].getD i 37) (wArr 3 fun i => [9, 7].getD i 6) (wArr 3 fun i => 10 * i)
      (Fl.fin 18) none (Fl.fin pref) (Fl.fin b) (Fl.fin dp) =
    veronis (fun X Y => some (linearCoeffs1 X Y)) exEos exEosST (wArr 5 fun i => [34, 35, 37].getD i y) (wArr 5 fun i => [9, 7, 6].getD i z) (wArr 5 fun i => 10 * i)
      (Fl.fin 18) none (Fl.fin pref) (Fl.fin b) (Fl.fin dp) := by
  refine veronis_window_top (w := 0) (n := 2) (wProfile (by omega) (fun i => by push_cast; linarith) _ _)
    (wProfile (by omega) (fun i => by push_cast; linarith) _ _) (Or.inl ⟨rfl, rfl⟩) (by omega) (by omega) (by omega) ?_ (by norm_num) (by norm_num) _ _ _
  intro j hj
  interval_cases j <;> norm_num

/-- **C178** No fewer bottles will do: for PCHIP the second bottle below the position matters, and for linear interpolation the first. -/
theorem veronis_window_sharp :
    veronis pchipCoeffs1 exEos exEosST (wArr 4 fun i => [34, 35, 37].getD i 38) (wArr 4 fun i => 5) (wArr 4 fun i => 10 * i) (Fl.fin 15) none (Fl.fin 0) (Fl.fin 1) (Fl.fin 5) ≠
      veronis pchipCoeffs1 exEos exEosST (wArr 4 fun i => [34, 35, 37].getD i 47) (wArr 4 fun i => 5) (wArr 4 fun i => 10 * i) (Fl.fin 15) none (Fl.fin 0) (Fl.fin 1) (Fl.fin 5) ∧
    veronis (fun X Y => some (linearCoeffs1 X Y)) exEos exEosST (wArr 4 fun i => [34, 35].getD i 37) (wArr 4 fun i => 5) (wArr 4 fun i => 10 * i) (Fl.fin 15) none (Fl.fin 0)
      (Fl.fin 1) (Fl.fin 5) ≠
      veronis (fun X Y => some (linearCoeffs1 X Y)) exEos exEosST (wArr 4 fun i => [34, 35].getD i 38) (wArr 4 fun i => 5) (wArr 4 fun i => 10 * i) (Fl.fin 15) none (Fl.fin 0)
      (Fl.fin 1) (Fl.fin 5) := by
  decide +kernel

end Label
