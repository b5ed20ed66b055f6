import Verif.Props.VertSolve
import Verif.Props.PchipSlopes

/-! # Surfaces of a stably stratified cast are ordered (C131), and neutral links can be retraced (C132) -/

set_option linter.unusedSectionVars false

namespace VertSolve
open FloatLike Fzero Interp Traj
open Fl hiding nan

variable {c : Cast (Fl ℝ)} {k K : ℕ} {a s t : ℕ → ℝ} {eos : Fl ℝ → Fl ℝ → Fl ℝ → Fl ℝ} {e : ℝ → ℝ → ℝ → ℝ} {smin : ℝ}

/-- Specification: `f` of the interpolated salinity and temperature does not decrease with pressure between `A` and `B`. -/
def Stable (kind : PPKind) (c : Cast (Fl ℝ)) (A B : ℝ) (f : ℝ → ℝ → ℝ → ℝ) : Prop :=
  ∀ x y s t s' t', A ≤ x → x ≤ y → y ≤ B →
    interpAt kind (fin x) c.P c.S = some (fin s) → interpAt kind (fin x) c.P c.T = some (fin t) →
    interpAt kind (fin y) c.P c.S = some (fin s') → interpAt kind (fin y) c.P c.T = some (fin t') → f s t x ≤ f s' t' y

/-- The accuracy of a computed pressure `p`. -/
noncomputable def acc (tol p : ℝ) : ℝ := 2 * (2 * (1 / 2 ^ 52) * |p| + tol)

/-- Two results on one stably stratified cast: the one for the smaller isovalue is not deeper, up to the accuracy; and if `f` does not
increase by more than `L` per unit of pressure, they are at least `(v₂ - v₁) / L` apart, up to the accuracy. -/
theorem Solved.order {kind : PPKind} {A B : ℝ} {f : ℝ → ℝ → ℝ → ℝ} (hst : Stable kind c A B f) {v1 v2 t1 t2 : ℝ} (hv : v1 < v2)
    {r1 r2 : Fl ℝ × Fl ℝ × Fl ℝ} (h1 : Solved kind c A B (fun s t p => f s t p - v1) t1 r1)
    (h2 : Solved kind c A B (fun s t p => f s t p - v2) t2 r2) {p1 p2 : ℝ} (hp1 : r1.2.2 = fin p1) (hp2 : r2.2.2 = fin p2) :
    p1 ≤ p2 + acc t1 p1 + acc t2 p2 ∧
    ∀ L, 0 < L → (∀ x y s t s' t', A ≤ x → x ≤ y → y ≤ B →
      interpAt kind (fin x) c.P c.S = some (fin s) → interpAt kind (fin x) c.P c.T = some (fin t) →
      interpAt kind (fin y) c.P c.S = some (fin s') → interpAt kind (fin y) c.P c.T = some (fin t') → f s' t' y - f s t x ≤ L * (y - x)) →
      p1 + (v2 - v1) / L ≤ p2 + acc t1 p1 + acc t2 p2 := by
  obtain ⟨gS, gT, hi, h1⟩ := h1
  obtain ⟨gS', gT', hi', h2⟩ := h2
  rcases h1 with ⟨rfl, -⟩ | ⟨p, z, rfl, a1, a2, a3, a4, a5, a6⟩
  · cases hp1
  rcases h2 with ⟨rfl, -⟩ | ⟨q, w, rfl, b1, b2, b3, b4, b5, b6⟩
  · cases hp2
  cases hp1
  cases hp2
  have hz : z ≤ w := by
    by_contra hlt
    have := hst w z _ _ _ _ b3 (not_le.mp hlt).le a4 (hi' w b3 b4).1 (hi' w b3 b4).2 (hi z a3 a4).1 (hi z a3 a4).2
    linarith
  rw [abs_le] at a6 b6
  unfold acc
  refine ⟨by linarith [a6.1, b6.2], fun L hL h => ?_⟩
  have := h z w _ _ _ _ a3 hz b4 (hi z a3 a4).1 (hi z a3 a4).2 (hi' w b3 b4).1 (hi' w b3 b4).2
  have h3 : (v2 - v1) / L ≤ w - z := by rw [div_le_iff₀ hL]; linarith
  linarith [a6.1, b6.2]

/-- On a stably stratified cast the surface exists iff the isovalue is between the values at the two ends. -/
theorem Solved.exists_iff {kind : PPKind} {A B : ℝ} (hAB : A ≤ B) {f : ℝ → ℝ → ℝ → ℝ} (hst : Stable kind c A B f) {v tol : ℝ}
    {r : Fl ℝ × Fl ℝ × Fl ℝ} (h : Solved kind c A B (fun s t p => f s t p - v) tol r) {s0 t0 s1 t1 : ℝ}
    (hs0 : interpAt kind (fin A) c.P c.S = some (fin s0)) (ht0 : interpAt kind (fin A) c.P c.T = some (fin t0))
    (hs1 : interpAt kind (fin B) c.P c.S = some (fin s1)) (ht1 : interpAt kind (fin B) c.P c.T = some (fin t1)) :
    (isNaN r.2.2 = false ↔ f s0 t0 A ≤ v ∧ v ≤ f s1 t1 B) ∧ (isNaN r.2.2 = true → r = (Fl.nan, Fl.nan, Fl.nan)) := by
  obtain ⟨gS, gT, hi, h⟩ := h
  have eA := hi A le_rfl hAB
  have eB := hi B hAB le_rfl
  rw [hs0, ht0, Option.some.injEq, Option.some.injEq, Fl.fin.injEq, Fl.fin.injEq] at eA
  rw [hs1, ht1, Option.some.injEq, Option.some.injEq, Fl.fin.injEq, Fl.fin.injEq] at eB
  rcases h with ⟨rfl, h⟩ | ⟨p, z, rfl, a1, a2, a3, a4, a5, a6⟩
  · refine ⟨⟨fun h => (by cases h), fun hv => ?_⟩, fun _ => rfl⟩
    exfalso
    rw [← eA.1, ← eA.2, ← eB.1, ← eB.2] at h
    rcases mul_pos_iff.mp h with h | h <;> linarith [h.1, h.2, hv.1, hv.2]
  · refine ⟨⟨fun _ => ?_, fun _ => rfl⟩, fun h => (by cases h)⟩
    have hz := hi z a3 a4
    have h1 := hst A z _ _ _ _ le_rfl a3 a4 hs0 ht0 hz.1 hz.2
    have h2 := hst z B _ _ _ _ a3 a4 le_rfl hz.1 hz.2 hs1 ht1
    constructor <;> linarith

/-- The interpolants at the ends of a cast are the data there. -/
theorem ends (kind : PPKind) (G : GoodCast c k K a s t) :
    a k ≤ a (K - 1) ∧ interpAt kind (fin (a k)) c.P c.S = some (fin (s k)) ∧ interpAt kind (fin (a k)) c.P c.T = some (fin (t k)) ∧
    interpAt kind (fin (a (K - 1))) c.P c.S = some (fin (s (K - 1))) ∧ interpAt kind (fin (a (K - 1))) c.P c.T = some (fin (t (K - 1))) := by
  have htwo := G.S.two
  have hAB := G.S.a_le
  obtain ⟨_, g, _, q, _, _, w, _⟩ := G.S.curve kind
  obtain ⟨_, g', _, q', _, _, w', _⟩ := G.T.curve kind
  refine ⟨?_, ?_, ?_, ?_, ?_⟩
  · exact hAB
  · rw [(q _ (le_refl _) hAB).2, w k (le_refl _) (by omega)]
  · rw [(q' _ (le_refl _) hAB).2, w' k (le_refl _) (by omega)]
  · rw [(q _ hAB (le_refl _)).2, w (K - 1) (by omega) (by omega)]
  · rw [(q' _ hAB (le_refl _)).2, w' (K - 1) (by omega) (by omega)]

/-- **C131.** Potential density surfaces of a cast on which potential density increases with pressure: the surface of isovalue `v` exists on the cast
iff `v` is between the potential densities of the first and the last bottle; of two surfaces the one with the smaller isovalue is not deeper, up to the
accuracy of the solver. -/
theorem potential_order (kind : PPKind) (E : EosOn eos e smin) (G : GoodCast c k K a s t) (hs : ∀ i, k ≤ i → i < K → smin ≤ s i)
    {tol refP : ℝ} (htol : 0 < tol) (n : ℕ) (hn : 2 * (a (K - 1) - a k) / tol ≤ n)
    (hst : Stable kind c (a k) (a (K - 1)) fun s t _ => e s t refP) :
    ∃ r : ℝ → Fl ℝ × Fl ℝ × Fl ℝ,
      (∀ v, vertsolve1 (n + 13) (fin tol) kind (fun P Sp Tp => zeroPotential eos P Sp Tp (fin refP) (fin v)) c = .ret (r v)) ∧
      (∀ v, (isNaN (r v).2.2 = false ↔ e (s k) (t k) refP ≤ v ∧ v ≤ e (s (K - 1)) (t (K - 1)) refP) ∧
        (isNaN (r v).2.2 = true → r v = (Fl.nan, Fl.nan, Fl.nan))) ∧
      ∀ v1 v2 p1 p2, v1 ≤ v2 → (r v1).2.2 = fin p1 → (r v2).2.2 = fin p2 → p1 ≤ p2 + acc tol p1 + acc tol p2 := by
  have h := fun v => potential_spec (refP := refP) (isoval := v) kind E G hs htol n hn
  choose r h1 h2 using h
  obtain ⟨e1, e2, e3, e4, e5⟩ := ends kind G
  refine ⟨r, h1, fun v => (h2 v).exists_iff (f := fun s t _ => e s t refP) e1 hst e2 e3 e4 e5,
    fun v1 v2 p1 p2 hv a b => ?_⟩
  rcases eq_or_lt_of_le hv with rfl | hv
  · rw [a] at b
    cases b
    have : 0 ≤ acc tol p1 := by unfold acc; positivity
    linarith
  · exact (Solved.order (f := fun s t _ => e s t refP) hst hv (h2 v1) (h2 v2) a b).1

/-- **C131.** The same for specific volume (or density) anomaly surfaces. -/
theorem anomaly_order (kind : PPKind) (E : EosOn eos e smin) (G : GoodCast c k K a s t) (hs : ∀ i, k ≤ i → i < K → smin ≤ s i)
    {tol refS refT : ℝ} (hr : smin ≤ refS) (htol : 0 < tol) (n : ℕ) (hn : 2 * (a (K - 1) - a k) / tol ≤ n)
    (hst : Stable kind c (a k) (a (K - 1)) fun s t p => e s t p - e refS refT p) :
    ∃ r : ℝ → Fl ℝ × Fl ℝ × Fl ℝ,
      (∀ v, vertsolve1 (n + 13) (fin tol) kind (fun P Sp Tp => zeroAnomaly eos P Sp Tp (fin refS, fin refT) (fin v)) c = .ret (r v)) ∧
      (∀ v, (isNaN (r v).2.2 = false ↔ e (s k) (t k) (a k) - e refS refT (a k) ≤ v ∧
          v ≤ e (s (K - 1)) (t (K - 1)) (a (K - 1)) - e refS refT (a (K - 1))) ∧
        (isNaN (r v).2.2 = true → r v = (Fl.nan, Fl.nan, Fl.nan))) ∧
      ∀ v1 v2 p1 p2, v1 ≤ v2 → (r v1).2.2 = fin p1 → (r v2).2.2 = fin p2 → p1 ≤ p2 + acc tol p1 + acc tol p2 := by
  have h := fun v => anomaly_spec (refS := refS) (refT := refT) (isoval := v) kind E G hs hr htol n hn
  choose r h1 h2 using h
  obtain ⟨e1, e2, e3, e4, e5⟩ := ends kind G
  refine ⟨r, h1, fun v => (h2 v).exists_iff (f := fun s t p => e s t p - e refS refT p) e1 hst e2 e3 e4 e5,
    fun v1 v2 p1 p2 hv a b => ?_⟩
  rcases eq_or_lt_of_le hv with rfl | hv
  · rw [a] at b
    cases b
    have : 0 ≤ acc tol p1 := by unfold acc; positivity
    linarith
  · exact (Solved.order (f := fun s t p => e s t p - e refS refT p) hst hv (h2 v1) (h2 v2) a b).1

/-! ## Monotonic data -/

/-- Within one interval the interpolants (linear and PCHIP) are monotonic in the direction of the data. -/
theorem piece_mono (kind : PPKind) {X Y : Arr (Fl ℝ)} {a y : ℕ → ℝ} (C : Col X Y k K a y) :
    ∀ i, k ≤ i → i + 1 < K → ∀ x x', a i ≤ x → x ≤ x' → x' ≤ a (i + 1) →
      ∃ v v', interpAt kind (fin x) X Y = some (fin v) ∧ interpAt kind (fin x') X Y = some (fin v') ∧
        (y i ≤ y (i + 1) → y i ≤ v ∧ v ≤ v' ∧ v' ≤ y (i + 1)) ∧
        (y (i + 1) ≤ y i → y (i + 1) ≤ v' ∧ v' ≤ v ∧ v ≤ y i) := by
  intro i h1 h2 x x' hx hxx hx'
  have h3 := C.two
  have B := C.block
  cases kind with
  | linear =>
    have BB : Block X Y k K a y := ⟨C.size.symm, C.vr.1, C.two, C.hX, C.hY, C.inc⟩
    have q := (linear_chord BB h1 h2 hx (hxx.trans hx')).2.1
    have q' := (linear_chord BB h1 h2 (hx.trans hxx) hx').2.1
    refine ⟨_, _, q, q', ?_, ?_⟩
    all_goals
      intro hy
      have hp : 0 < a (i + 1) - a i := by linarith [C.inc i h1 h2]
      set δ := (y (i + 1) - y i) / (a (i + 1) - a i) with hδ
      have e : (a (i + 1) - a i) * δ = y (i + 1) - y i := by rw [hδ]; field_simp
    · have : 0 ≤ δ := div_nonneg (by linarith) hp.le
      refine ⟨by nlinarith, by nlinarith, by nlinarith⟩
    · have : δ ≤ 0 := div_nonpos_of_nonpos_of_nonneg (by linarith) hp.le
      refine ⟨by nlinarith, by nlinarith, by nlinarith⟩
  | pchip =>
    obtain ⟨T, V, hT⟩ := C.tablePchip
    obtain ⟨T', hT', h⟩ := pchip_shape B
    have hTT : T = T' := by
      have h4 : pchipCoeffs1Nonan (X.slice k K) (Y.slice k K) = some T := hT.made
      rw [pchipNonan_eq, hT'] at h4
      · exact (Option.some.inj h4).symm
      · show 0 < K - k; omega
      · rw [B.hX 0 (by omega) (by omega), B.hY 0 (by omega) (by omega)]; simp
      · intro i h1 h3
        rw [B.hX i (by omega) h3, B.hY i (by omega) h3]; simp
    subst hTT
    obtain ⟨v, v', e1, e2, e3, e4⟩ := h (i - k) (Nat.zero_le _) (by omega) x x'
      (by rwa [show k + (i - k) = i by omega]) hxx (by rwa [show k + (i - k + 1) = i + 1 by omega])
    rw [show k + (i - k) = i by omega, show k + (i - k + 1) = i + 1 by omega] at e3 e4
    exact ⟨v, v', by rw [hT.pub, e1], by rw [hT.pub, e2], e3, e4⟩

/-- Interpolants of data that do not decrease with pressure do not decrease with pressure. -/
theorem interp_mono (kind : PPKind) {X Y : Arr (Fl ℝ)} {a y : ℕ → ℝ} (C : Col X Y k K a y)
    (hy : ∀ i, k ≤ i → i + 1 < K → y i ≤ y (i + 1)) {x x' v v' : ℝ} (hx : a k ≤ x) (hxx : x ≤ x') (hx' : x' ≤ a (K - 1))
    (hv : interpAt kind (fin x) X Y = some (fin v)) (hv' : interpAt kind (fin x') X Y = some (fin v')) : v ≤ v' := by
  have BB : Block X Y k K a y := ⟨C.size.symm, C.vr.1, C.two, C.hX, C.hY, C.inc⟩
  obtain ⟨i, i1, i2, i3, i4⟩ := BB.locate hx (hxx.trans hx')
  obtain ⟨j, j1, j2, j3, j4⟩ := BB.locate (hx.trans hxx) hx'
  have key : ∀ n, ∀ i, k ≤ i → i + n < K → y i ≤ y (i + n) := by
    intro n
    induction n with
    | zero => intro i _ _; exact le_rfl
    | succ n ih => intro i h1 h2; exact (ih i h1 (by omega)).trans (hy (i + n) (by omega) (by omega))
  by_cases hle : x' ≤ a (i + 1)
  · obtain ⟨w, w', e1, e2, e3, _⟩ := piece_mono kind C i i1 i2 x x' i3 hxx hle
    rw [hv] at e1; rw [hv'] at e2
    cases e1; cases e2
    exact (e3 (hy i i1 i2)).2.1
  · push Not at hle
    have hij : i + 1 ≤ j := by
      by_contra hc
      exact absurd (hle.trans_le j4) (not_lt.mpr (BB.mono (j + 1) (i + 1) (by omega) (by omega) i2))
    obtain ⟨w, w', e1, e2, e3, _⟩ := piece_mono kind C i i1 i2 x x i3 le_rfl i4
    obtain ⟨u, u', f1, f2, f3, _⟩ := piece_mono kind C j j1 j2 x' x' j3 le_rfl j4
    rw [hv] at e2; rw [hv'] at f1
    cases e2; cases f1
    have := key (j - (i + 1)) (i + 1) (by omega) (by omega)
    rw [show i + 1 + (j - (i + 1)) = j by omega] at this
    exact ((e3 (hy i i1 i2)).2.2.trans this).trans (f3 (hy j j1 j2)).1

/-- Interpolants of data that do not increase with pressure do not increase with pressure. -/
theorem interp_anti (kind : PPKind) {X Y : Arr (Fl ℝ)} {a y : ℕ → ℝ} (C : Col X Y k K a y)
    (hy : ∀ i, k ≤ i → i + 1 < K → y (i + 1) ≤ y i) {x x' v v' : ℝ} (hx : a k ≤ x) (hxx : x ≤ x') (hx' : x' ≤ a (K - 1))
    (hv : interpAt kind (fin x) X Y = some (fin v)) (hv' : interpAt kind (fin x') X Y = some (fin v')) : v' ≤ v := by
  have BB : Block X Y k K a y := ⟨C.size.symm, C.vr.1, C.two, C.hX, C.hY, C.inc⟩
  obtain ⟨i, i1, i2, i3, i4⟩ := BB.locate hx (hxx.trans hx')
  obtain ⟨j, j1, j2, j3, j4⟩ := BB.locate (hx.trans hxx) hx'
  have key : ∀ n, ∀ i, k ≤ i → i + n < K → y (i + n) ≤ y i := by
    intro n
    induction n with
    | zero => intro i _ _; exact le_rfl
    | succ n ih => intro i h1 h2; exact (hy (i + n) (by omega) (by omega)).trans (ih i h1 (by omega))
  by_cases hle : x' ≤ a (i + 1)
  · obtain ⟨w, w', e1, e2, _, e3⟩ := piece_mono kind C i i1 i2 x x' i3 hxx hle
    rw [hv] at e1; rw [hv'] at e2
    cases e1; cases e2
    exact (e3 (hy i i1 i2)).2.1
  · push Not at hle
    have hij : i + 1 ≤ j := by
      by_contra hc
      exact absurd (hle.trans_le j4) (not_lt.mpr (BB.mono (j + 1) (i + 1) (by omega) (by omega) i2))
    obtain ⟨w, w', e1, e2, _, e3⟩ := piece_mono kind C i i1 i2 x x i3 le_rfl i4
    obtain ⟨u, u', f1, f2, _, f3⟩ := piece_mono kind C j j1 j2 x' x' j3 le_rfl j4
    rw [hv] at e2; rw [hv'] at f1
    cases e2; cases f1
    have := key (j - (i + 1)) (i + 1) (by omega) (by omega)
    rw [show i + 1 + (j - (i + 1)) = j by omega] at this
    exact ((f3 (hy j j1 j2)).2.2.trans this).trans (e3 (hy i i1 i2)).1

/-- **C131.** A cast whose salinity does not decrease and whose temperature does not increase from one bottle to the next is stably stratified
between the bottles too, with either interpolant, for every `f` that does not decrease with salinity and does not increase with temperature: the
hypothesis of `potential_order` need not be checked between bottles. -/
theorem stable_of_monotone (kind : PPKind) (G : GoodCast c k K a s t) (hS : ∀ i, k ≤ i → i + 1 < K → s i ≤ s (i + 1))
    (hT : ∀ i, k ≤ i → i + 1 < K → t (i + 1) ≤ t i) {f : ℝ → ℝ → ℝ → ℝ}
    (hf : ∀ s t p s' t' p', s ≤ s' → t' ≤ t → p ≤ p' → f s t p ≤ f s' t' p') : Stable kind c (a k) (a (K - 1)) f :=
  fun _ _ _ _ _ _ h1 h2 h3 a1 a2 a3 a4 =>
    hf _ _ _ _ _ _ (interp_mono kind G.S hS h1 h2 h3 a1 a3) (interp_anti kind G.T hT h1 h2 h3 a2 a4) h2

example : ∃ r : ℝ → Fl ℝ × Fl ℝ × Fl ℝ,
    (∀ v, vertsolve1 (600 + 13) (fin (1/100)) .pchip (fun P Sp Tp => zeroPotential (fun s t _ => s - t) P Sp Tp (fin 0) (fin v)) exCast
      = .ret (r v)) ∧
    (∀ v, isNaN (r v).2.2 = false ↔ 30 ≤ v ∧ v ≤ 34) ∧
    ∀ v1 v2 p1 p2, v1 ≤ v2 → (r v1).2.2 = fin p1 → (r v2).2.2 = fin p2 → p1 ≤ p2 + acc (1/100) p1 + acc (1/100) p2 := by
  obtain ⟨r, h1, h2, h3⟩ := potential_order .pchip exEos exGood (fun i _ _ => by split_ifs <;> norm_num) (refP := 0) (tol := 1/100)
    (by norm_num) 600 (by norm_num) (stable_of_monotone .pchip exGood (fun i h1 h2 => by
      have : i = 1 ∨ i = 2 := by omega
      rcases this with rfl | rfl <;> norm_num) (fun i h1 h2 => by
      have : i = 1 ∨ i = 2 := by omega
      rcases this with rfl | rfl <;> norm_num) (fun s t p s' t' p' _ _ _ => by linarith))
  refine ⟨r, h1, fun v => ?_, h3⟩
  rw [(h2 v).1]
  norm_num


/-! ## Neutral links can be retraced -/

/-- Specification: `(s, t)` are the interpolated salinity and temperature of `c` at pressure `x`. -/
def At (kind : PPKind) (c : Cast (Fl ℝ)) (x s t : ℝ) : Prop :=
  interpAt kind (fin x) c.P c.S = some (fin s) ∧ interpAt kind (fin x) c.P c.T = some (fin t)

/-- Specification: the difference of density between `x` on cast 1 and `y` on cast 2, both brought to the midpoint pressure, increases at least
by `m` per unit of `x` and changes at most by `L` per unit of `y`. -/
structure Sloped (e : ℝ → ℝ → ℝ → ℝ) (kind : PPKind) (c1 c2 : Cast (Fl ℝ)) (A1 B1 A2 B2 m L : ℝ) : Prop where
  lower : ∀ x x' y s t s' t' σ τ, A1 ≤ x → x ≤ x' → x' ≤ B1 → A2 ≤ y → y ≤ B2 → At kind c1 x s t → At kind c1 x' s' t' → At kind c2 y σ τ →
    m * (x' - x) ≤ (e s' t' ((x' + y) / 2) - e σ τ ((x' + y) / 2)) - (e s t ((x + y) / 2) - e σ τ ((x + y) / 2))
  upper : ∀ x y y' s t σ τ σ' τ', A1 ≤ x → x ≤ B1 → A2 ≤ y → y ≤ B2 → A2 ≤ y' → y' ≤ B2 → At kind c1 x s t → At kind c2 y σ τ → At kind c2 y' σ' τ' →
    |(e s t ((x + y') / 2) - e σ' τ' ((x + y') / 2)) - (e s t ((x + y) / 2) - e σ τ ((x + y) / 2))| ≤ L * |y' - y|

/-- **C132.** A neutral link can be retraced.  Go from the point `p₁` of cast 1 to cast 2 and find `p₂`; start at a point `q₂` of cast 2 within `η` of
`p₂` and go back to cast 1.  The result, if it is not NaN, is within `acc + (L/m) (acc + η)` of `p₁`; and it is not NaN if `p₁` is at least
`(L/m) (acc + η)` away from both ends of cast 1. -/
theorem ntp_retrace (kind : PPKind) (E : EosOn eos e smin) {c1 c2 : Cast (Fl ℝ)} {k1 K1 k2 K2 : ℕ} {a1 s1 t1 a2 s2 t2 : ℕ → ℝ}
    (G1 : GoodCast c1 k1 K1 a1 s1 t1) (G2 : GoodCast c2 k2 K2 a2 s2 t2)
    (hs1 : ∀ i, k1 ≤ i → i < K1 → smin ≤ s1 i) (hs2 : ∀ i, k2 ≤ i → i < K2 → smin ≤ s2 i)
    {tol m L η : ℝ} (htol : 0 < tol) (hm : 0 < m) (hL : 0 ≤ L)
    (n : ℕ) (hn1 : 2 * (a1 (K1 - 1) - a1 k1) / tol ≤ n) (hn2 : 2 * (a2 (K2 - 1) - a2 k2) / tol ≤ n)
    (hD : Sloped e kind c1 c2 (a1 k1) (a1 (K1 - 1)) (a2 k2) (a2 (K2 - 1)) m L)
    {p1 σ1 τ1 p2 q2 σ2 τ2 : ℝ} {x y : Fl ℝ} (h1 : a1 k1 ≤ p1) (h1' : p1 ≤ a1 (K1 - 1)) (hp1 : At kind c1 p1 σ1 τ1)
    (hgo : ntpBottleToCast (n + 13) (fin tol) eos kind (fin σ1) (fin τ1) (fin p1) c2 = .ret (x, y, fin p2))
    (h2 : a2 k2 ≤ q2) (h2' : q2 ≤ a2 (K2 - 1)) (hq2 : At kind c2 q2 σ2 τ2) (hη : |q2 - p2| ≤ η) :
    ∃ r, ntpBottleToCast (n + 13) (fin tol) eos kind (fin σ2) (fin τ2) (fin q2) c1 = .ret r ∧
      (∀ q1, r.2.2 = fin q1 → |q1 - p1| ≤ acc tol q1 + L / m * (acc tol p2 + η)) ∧
      (a1 k1 + L / m * (acc tol p2 + η) ≤ p1 → p1 + L / m * (acc tol p2 + η) ≤ a1 (K1 - 1) → ∃ q1, r.2.2 = fin q1) := by
  have hsm : ∀ {c : Cast (Fl ℝ)} {k K : ℕ} {a s t : ℕ → ℝ}, GoodCast c k K a s t → (∀ i, k ≤ i → i < K → smin ≤ s i) →
      ∀ x s' t', a k ≤ x → x ≤ a (K - 1) → At kind c x s' t' → smin ≤ s' := by
    intro c k K a s t G hs x s' t' hx hx' h
    obtain ⟨Sp, Tp, gS, gT, -, -, h3, -, -, -⟩ := G.curves kind hs
    have := (h3 x hx hx').2
    rw [h.1] at this
    have e1 := this.1
    cases e1
    exact this.2.2
  obtain ⟨gS2, gT2, hi2, g2⟩ := ntp_spec kind E G2 hs2 (sB := σ1) (tB := τ1) (pB := p1) (hsm G1 hs1 p1 _ _ h1 h1' hp1) htol n hn2
  obtain ⟨gS1, gT1, hi1, g1⟩ := ntp_spec kind E G1 hs1 (sB := σ2) (tB := τ2) (pB := q2) (hsm G2 hs2 q2 _ _ h2 h2' hq2) htol n hn1
  have hAB := G1.S.a_le
  rcases g2 with ⟨g, -⟩ | ⟨p, z, g, b1, b2, b3, b4, b5, b6⟩
  · rw [hgo] at g; cases g
  rw [hgo] at g
  cases g
  -- the difference at `p₁`, `q₂`
  have u := hD.upper p1 z q2 _ _ _ _ _ _ h1 h1' b3 b4 h2 h2' hp1 (hi2 z b3 b4) hq2
  have hu : |e σ1 τ1 ((p1 + q2) / 2) - e σ2 τ2 ((p1 + q2) / 2)| ≤ L * (acc tol p2 + η) := by
    rw [b5, sub_self, sub_zero] at u
    refine u.trans (mul_le_mul_of_nonneg_left ?_ hL)
    unfold acc
    rw [abs_le] at *
    constructor <;> linarith [b6.1, b6.2, hη.1, hη.2]
  set R := L * (acc tol p2 + η) with hR
  have hRm : L / m * (acc tol p2 + η) = R / m := by rw [hR]; ring
  rw [abs_le] at hu
  rcases g1 with ⟨g, hs⟩ | ⟨q, w, g, d1, d2, d3, d4, d5, d6⟩
  · refine ⟨_, g, fun q1 h => (by cases h), fun hA hB => ?_⟩
    exfalso
    rw [hRm] at hA hB
    have l1 := hD.lower _ p1 q2 _ _ _ _ _ _ le_rfl h1 h1' h2 h2' (hi1 _ le_rfl hAB) hp1 hq2
    have l2 := hD.lower p1 _ q2 _ _ _ _ _ _ h1 h1' le_rfl h2 h2' hp1 (hi1 _ hAB le_rfl) hq2
    have hA' : R ≤ m * (p1 - a1 k1) := by
      have : R / m ≤ p1 - a1 k1 := by linarith
      rwa [div_le_iff₀ hm, mul_comm] at this
    have hB' : R ≤ m * (a1 (K1 - 1) - p1) := by
      have : R / m ≤ a1 (K1 - 1) - p1 := by linarith
      rwa [div_le_iff₀ hm, mul_comm] at this
    rw [add_comm q2, add_comm q2] at hs
    refine absurd hs (not_lt.mpr (mul_nonpos_iff.mpr (Or.inl ⟨?_, ?_⟩))) <;> linarith [hu.1, hu.2]
  · refine ⟨_, g, fun q1 h => ?_, fun _ _ => ⟨q, rfl⟩⟩
    cases h
    rw [add_comm q2] at d5
    have hw : |w - p1| ≤ R / m := by
      rw [abs_le]
      rcases le_total w p1 with hle | hle
      · have := hD.lower w p1 q2 _ _ _ _ _ _ d3 hle h1' h2 h2' (hi1 w d3 d4) hp1 hq2
        rw [d5] at this
        have : p1 - w ≤ R / m := by rw [le_div_iff₀ hm]; linarith [hu.2]
        constructor <;> linarith
      · have := hD.lower p1 w q2 _ _ _ _ _ _ h1 hle d4 h2 h2' hp1 (hi1 w d3 d4) hq2
        rw [d5] at this
        have : w - p1 ≤ R / m := by rw [le_div_iff₀ hm]; linarith [hu.1]
        constructor <;> linarith
    rw [hRm]
    unfold acc
    rw [abs_le] at *
    constructor <;> linarith [hw.1, hw.2, d6.1, d6.2]


/-! ## Trajectories can be retraced -/

/-- Distance after `j` links back, from a distance `η`: each link has error `ε` and amplifies distances by `ρ`. -/
def retErr (ε ρ : ℝ) : ℕ → ℝ → ℝ
  | 0, η => η
  | j + 1, η => retErr ε ρ j (ε + ρ * (ε + η))

/-- Specification: a sequence of well formed casts whose neighbours are `Sloped`; `ε` bounds the accuracy of the solver on all of them. -/
structure Section (eos : Fl ℝ → Fl ℝ → Fl ℝ → Fl ℝ) (e : ℝ → ℝ → ℝ → ℝ) (smin : ℝ) (kind : PPKind) (tol m L ε : ℝ) (n N : ℕ)
    (c : ℕ → Cast (Fl ℝ)) (A B : ℕ → ℝ) : Prop where
  good : ∀ i, i ≤ N → ∃ k K a s t, GoodCast (c i) k K a s t ∧ (∀ j, k ≤ j → j < K → smin ≤ s j) ∧ a k = A i ∧ a (K - 1) = B i
  fuel : ∀ i, i ≤ N → 2 * (B i - A i) / tol ≤ n
  sloped : ∀ i, i < N → Sloped e kind (c i) (c (i + 1)) (A i) (B i) (A (i + 1)) (B (i + 1)) m L
  acc : ∀ i, i ≤ N → ∀ x, A i ≤ x → x ≤ B i → acc tol x ≤ ε

theorem curves_at (kind : PPKind) (G : GoodCast c k K a s t) (hs : ∀ i, k ≤ i → i < K → smin ≤ s i) {x : ℝ} (hx : a k ≤ x) (hx' : x ≤ a (K - 1)) :
    ∃ σ τ, At kind c x σ τ ∧ trajStart kind (fin x) c = .ret (fin σ, fin τ, fin x) := by
  obtain ⟨Sp, Tp, gS, gT, h1, h2, h3, -, -, -⟩ := G.curves kind hs
  refine ⟨gS x, gT x, ⟨(h3 x hx hx').2.1, (h3 x hx hx').2.2.1⟩, ?_⟩
  have htwo := G.S.two
  unfold trajStart
  simp only [G.S.vr.2, h1, h2, (h3 x hx hx').1]
  rw [if_neg]
  show ¬ K - k = 0
  omega

theorem link_at (kind : PPKind) (E : EosOn eos e smin) (G : GoodCast c k K a s t) (hs : ∀ i, k ≤ i → i < K → smin ≤ s i) {sB tB pB tol : ℝ}
    (hsB : smin ≤ sB) (htol : 0 < tol) (n : ℕ) (hn : 2 * (a (K - 1) - a k) / tol ≤ n) {x y : Fl ℝ} {p : ℝ}
    (h : ntpBottleToCast (n + 13) (fin tol) eos kind (fin sB) (fin tB) (fin pB) c = .ret (x, y, fin p)) :
    ∃ σ τ, x = fin σ ∧ y = fin τ ∧ At kind c p σ τ ∧ a k ≤ p ∧ p ≤ a (K - 1) := by
  obtain ⟨gS, gT, hi, g⟩ := ntp_spec kind E G hs (sB := sB) (tB := tB) (pB := pB) hsB htol n hn
  rcases g with ⟨g, -⟩ | ⟨p', z, g, b1, b2, -⟩
  · rw [h] at g; cases g
  rw [h] at g
  cases g
  exact ⟨_, _, rfl, rfl, hi p b1 b2, b1, b2⟩

theorem at_smin (kind : PPKind) (G : GoodCast c k K a s t) (hs : ∀ i, k ≤ i → i < K → smin ≤ s i) {x s' t' : ℝ} (hx : a k ≤ x) (hx' : x ≤ a (K - 1))
    (h : At kind c x s' t') : smin ≤ s' := by
  obtain ⟨Sp, Tp, gS, gT, -, -, h3, -, -, -⟩ := G.curves kind hs
  have := (h3 x hx hx').2
  rw [h.1] at this
  have e1 := this.1
  cases e1
  exact this.2.2

theorem trajLoop_retrace {kind : PPKind} {tol m L ε : ℝ} {n : ℕ} {c : ℕ → Cast (Fl ℝ)} {A B : ℕ → ℝ} (E : EosOn eos e smin)
    (htol : 0 < tol) (hm : 0 < m) (hL : 0 ≤ L) (p σ τ : ℕ → ℝ) :
    ∀ (N : ℕ), Section eos e smin kind tol m L ε n N c A B →
    (∀ i, i ≤ N → A i ≤ p i ∧ p i ≤ B i ∧ At kind (c i) (p i) (σ i) (τ i)) →
    (∀ i, i < N → ntpBottleToCast (n + 13) (fin tol) eos kind (fin (σ i)) (fin (τ i)) (fin (p i)) (c (i + 1)) =
      .ret (fin (σ (i + 1)), fin (τ (i + 1)), fin (p (i + 1)))) →
    ∀ (η q σ' τ' : ℝ), A N ≤ q → q ≤ B N → At kind (c N) q σ' τ' → |q - p N| ≤ η →
    (∀ i, i < N → A i + L / m * (ε + retErr ε (L / m) (N - 1 - i) η) ≤ p i ∧ p i + L / m * (ε + retErr ε (L / m) (N - 1 - i) η) ≤ B i) →
    ∃ r : List (Fl ℝ × Fl ℝ × Fl ℝ), trajLoop (n + 13) (fin tol) eos kind (fin σ', fin τ', fin q) ((List.range N).reverse.map c) = .ret r ∧ r.length = N ∧
      ∀ i, i < N → ∃ x y q', r[N - 1 - i]? = some (x, y, fin q') ∧ |q' - p i| ≤ retErr ε (L / m) (N - i) η := by
  intro N
  induction N with
  | zero => intro _ _ _ η q σ' τ' _ _ _ _ _; exact ⟨[], rfl, rfl, fun i hi => absurd hi (by omega)⟩
  | succ N ih =>
    intro hS hp hl η q σ' τ' hq1 hq2 hat hη hmar
    obtain ⟨k1, K1, a1, s1, t1, G1, hs1, e1, e1'⟩ := hS.good N (by omega)
    obtain ⟨k2, K2, a2, s2, t2, G2, hs2, e2, e2'⟩ := hS.good (N + 1) le_rfl
    have hf1 := hS.fuel N (by omega)
    have hf2 := hS.fuel (N + 1) le_rfl
    have hsl := hS.sloped N (by omega)
    rw [← e1, ← e1'] at hf1
    rw [← e2, ← e2'] at hf2
    have hpN := hp N (by omega)
    have hpN1 := hp (N + 1) le_rfl
    obtain ⟨r, hr, hr1, hr2⟩ := ntp_retrace kind E G1 G2 hs1 hs2 htol hm hL n hf1 hf2 (by rw [e1, e1', e2, e2']; exact hsl)
      (by rw [e1]; exact hpN.1) (by rw [e1']; exact hpN.2.1) hpN.2.2 (hl N (by omega)) (by rw [e2]; exact hq1) (by rw [e2']; exact hq2) hat hη
    have hη0 : 0 ≤ η := (abs_nonneg _).trans hη
    have ha2 := hS.acc (N + 1) le_rfl (p (N + 1)) hpN1.1 hpN1.2.1
    have hLm : 0 ≤ L / m := div_nonneg hL hm.le
    have hle : L / m * (acc tol (p (N + 1)) + η) ≤ L / m * (ε + η) := mul_le_mul_of_nonneg_left (by linarith) hLm
    have hmN := hmar N (by omega)
    rw [show N + 1 - 1 - N = 0 by omega] at hmN
    simp only [retErr] at hmN
    obtain ⟨q1, hq1'⟩ := hr2 (by rw [e1]; linarith [hmN.1]) (by rw [e1']; linarith [hmN.2])
    obtain ⟨x, y, z⟩ := r
    simp only at hq1'
    subst hq1'
    have hd := hr1 q1 rfl
    have hsB : smin ≤ σ' := at_smin kind G2 hs2 (by rw [e2]; exact hq1) (by rw [e2']; exact hq2) hat
    obtain ⟨σ1, τ1, rfl, rfl, hat1, b1, b2⟩ := link_at kind E G1 hs1 hsB htol n hf1 hr
    rw [e1] at b1
    rw [e1'] at b2
    have ha1 := hS.acc N (by omega) q1 b1 b2
    have hd' : |q1 - p N| ≤ ε + L / m * (ε + η) := hd.trans (by linarith)
    have hS' : Section eos e smin kind tol m L ε n N c A B :=
      ⟨fun i hi => hS.good i (by omega), fun i hi => hS.fuel i (by omega), fun i hi => hS.sloped i (by omega), fun i hi => hS.acc i (by omega)⟩
    obtain ⟨rs, hrs, hlen, hall⟩ := ih hS' (fun i hi => hp i (by omega)) (fun i hi => hl i (by omega)) (ε + L / m * (ε + η)) q1 σ1 τ1 b1 b2 hat1 hd'
      (fun i hi => by
        have := hmar i (by omega)
        rw [show N + 1 - 1 - i = (N - 1 - i) + 1 by omega] at this
        exact this)
    refine ⟨(fin σ1, fin τ1, fin q1) :: rs, ?_, by simp [hlen], fun i hi => ?_⟩
    · rw [List.range_succ, List.reverse_append, List.reverse_singleton, List.singleton_append, List.map_cons]
      simp only [trajLoop, hr, Outcome.bind, isNaN_fin, hrs]
      rfl
    · rcases Nat.lt_succ_iff_lt_or_eq.mp hi with h | rfl
      · obtain ⟨x, y, q', h1, h2⟩ := hall i h
        refine ⟨x, y, q', ?_, ?_⟩
        · rw [show N + 1 - 1 - i = (N - 1 - i) + 1 by omega]; simpa using h1
        · rw [show N + 1 - i = (N - i) + 1 by omega]; exact h2
      · refine ⟨_, _, q1, by rw [show i + 1 - 1 - i = 0 by omega]; rfl, ?_⟩
        rw [show i + 1 - i = 0 + 1 by omega]
        exact hd'

theorem linked_links {link : Fl ℝ × Fl ℝ × Fl ℝ → Cast (Fl ℝ) → Fl ℝ × Fl ℝ × Fl ℝ → Prop} (c : ℕ → Cast (Fl ℝ)) :
    ∀ (l : List ℕ) (b : Fl ℝ × Fl ℝ × Fl ℝ) (rest : List (Fl ℝ × Fl ℝ × Fl ℝ)), Linked link b (l.map c) rest →
      (∀ x ∈ b :: rest, isNaN x.2.2 = false) → rest.length = l.length ∧
      ∀ i (h : i < l.length), ∃ x y, (b :: rest)[i]? = some x ∧ rest[i]? = some y ∧ link x (c l[i]) y := by
  intro l
  induction l with
  | nil => intro b rest h _; cases h; exact ⟨rfl, fun i hi => absurd hi (by simp)⟩
  | cons a l ih =>
    intro b rest h hn
    obtain ⟨b', out', rfl, -, h1, h2⟩ := h
    obtain ⟨h3, h4⟩ := ih b' out' h2 (fun x hx => hn x (List.mem_cons_of_mem _ hx))
    refine ⟨by simp [h3], fun i hi => ?_⟩
    cases i with
    | zero => exact ⟨b, b', rfl, rfl, h1 (hn b (by simp))⟩
    | succ i =>
      obtain ⟨x, y, e1, e2, e3⟩ := h4 i (by simpa using hi)
      exact ⟨x, y, by simpa using e1, by simpa using e2, by simpa using e3⟩

/-- **C132.** A neutral trajectory can be retraced.  Follow `neutral_trajectory` from pressure `p0` of the first of `N + 1` casts, and suppose that it
reaches the last one, at the pressures `p`; then follow it back, from the last pressure through the casts in reverse order.  If each `p i` is far enough
from the ends of its cast, the way back reaches the first cast too, and at every cast it is within the stated distance of the way there; no distance at
all would be left with an exact solver (`ε = 0`). -/
theorem trajectory_retrace {kind : PPKind} {tol m L ε : ℝ} {n N : ℕ} {c : ℕ → Cast (Fl ℝ)} {A B : ℕ → ℝ} (E : EosOn eos e smin)
    (htol : 0 < tol) (hm : 0 < m) (hL : 0 ≤ L) (hS : Section eos e smin kind tol m L ε n N c A B) {p0 : ℝ} (h0 : A 0 ≤ p0) (h0' : p0 ≤ B 0)
    {out : List (Fl ℝ × Fl ℝ × Fl ℝ)} (hout : neutralTrajectory (n + 13) (fin tol) eos kind (fin p0) ((List.range (N + 1)).map c) = .ret out)
    {p : ℕ → ℝ} (hp : ∀ i, i ≤ N → ∃ x y, out[i]? = some (x, y, fin (p i)))
    (hmar : ∀ i, i < N → A i + L / m * (ε + retErr ε (L / m) (N - 1 - i) 0) ≤ p i ∧ p i + L / m * (ε + retErr ε (L / m) (N - 1 - i) 0) ≤ B i) :
    ∃ back : List (Fl ℝ × Fl ℝ × Fl ℝ),
      neutralTrajectory (n + 13) (fin tol) eos kind (fin (p N)) ((List.range (N + 1)).reverse.map c) = .ret back ∧ back.length = N + 1 ∧
      ∀ i, i ≤ N → ∃ x y q, back[N - i]? = some (x, y, fin q) ∧ |q - p i| ≤ retErr ε (L / m) (N - i) 0 := by
  have hran : (List.range (N + 1)).map c = c 0 :: ((List.range N).map (· + 1)).map c := by
    rw [List.range_succ_eq_map]; rfl
  rw [hran] at hout
  obtain ⟨s0, t0, rest, rfl, hlk⟩ := trajectory_spec (by rfl) hout
  have hout' := hout
  unfold neutralTrajectory at hout'
  obtain ⟨b0, hst0, -⟩ := bind_ret hout'
  have hlen : rest.length = N := by
    have := hlk.length
    simpa using this
  have hfin : ∀ x ∈ (s0, t0, fin p0) :: rest, isNaN x.2.2 = false := by
    intro x hx
    obtain ⟨i, hi, rfl⟩ := List.mem_iff_getElem.mp hx
    obtain ⟨u, v, h⟩ := hp i (by simp [hlen] at hi; omega)
    rw [List.getElem?_eq_getElem hi] at h
    rw [Option.some.inj h]
    rfl
  obtain ⟨-, hlinks⟩ := linked_links c _ _ _ hlk hfin
  -- each point of the way there is on its cast
  have hpt : ∀ i, i ≤ N → ∃ σ τ, ((s0, t0, fin p0) :: rest)[i]? = some (fin σ, fin τ, fin (p i)) ∧ A i ≤ p i ∧ p i ≤ B i ∧ At kind (c i) (p i) σ τ := by
    intro i
    induction i with
    | zero =>
      intro _
      obtain ⟨k, K, a, s, t, G, hs, e1, e2⟩ := hS.good 0 (Nat.zero_le _)
      obtain ⟨σ, τ, hat, hst⟩ := curves_at (x := p0) kind G hs (by rw [e1]; exact h0) (by rw [e2]; exact h0')
      obtain ⟨x, y, h⟩ := hp 0 (Nat.zero_le _)
      simp only [List.getElem?_cons_zero, Option.some.injEq, Prod.mk.injEq, Fl.fin.injEq] at h
      have hb : b0 = (s0, t0, fin p0) := by
        have h2 := hout
        simp only [neutralTrajectory] at h2
        rw [hst0] at h2
        simp only [Outcome.bind] at h2
        split_ifs at h2
        · cases h2; rfl
        · obtain ⟨r, -, h2⟩ := bind_ret (o := trajLoop (n + 13) (fin tol) eos kind b0 _) h2
          cases h2; rfl
      rw [hst, hb] at hst0
      cases hst0
      refine ⟨σ, τ, ?_, ?_, ?_, ?_⟩
      · rw [← h.2.2]; rfl
      all_goals rw [← h.2.2]
      exacts [h0, h0', hat]
    | succ i ih =>
      intro hi
      obtain ⟨σ, τ, g1, g2, g3, g4⟩ := ih (by omega)
      obtain ⟨x, y, e1, e2, e3⟩ := hlinks i (by simp; omega)
      rw [g1] at e1
      cases e1
      simp only [List.getElem_map, List.getElem_range] at e3
      obtain ⟨x', y', h⟩ := hp (i + 1) hi
      rw [List.getElem?_cons_succ, e2] at h
      cases h
      obtain ⟨k, K, a, s, t, G, hs, f1, f2⟩ := hS.good (i + 1) hi
      obtain ⟨k', K', a', s', t', G', hs', f1', f2'⟩ := hS.good i (by omega)
      have hf := hS.fuel (i + 1) hi
      rw [← f1, ← f2] at hf
      have hsB : smin ≤ σ := at_smin kind G' hs' (by rw [f1']; exact g2) (by rw [f2']; exact g3) g4
      obtain ⟨σ1, τ1, rfl, rfl, q1, q2, q3⟩ := link_at kind E G hs hsB htol n hf e3
      rw [f1] at q2
      rw [f2] at q3
      exact ⟨σ1, τ1, by rw [List.getElem?_cons_succ, e2], q2, q3, q1⟩
  have hpt' : ∀ i, ∃ σ τ, i ≤ N → ((s0, t0, fin p0) :: rest)[i]? = some (fin σ, fin τ, fin (p i)) ∧ A i ≤ p i ∧ p i ≤ B i ∧ At kind (c i) (p i) σ τ := by
    intro i
    by_cases hi : i ≤ N
    · obtain ⟨σ, τ, h⟩ := hpt i hi
      exact ⟨σ, τ, fun _ => h⟩
    · exact ⟨0, 0, fun h => absurd h hi⟩
  choose σ τ hpt using hpt'
  have hl : ∀ i, i < N → ntpBottleToCast (n + 13) (fin tol) eos kind (fin (σ i)) (fin (τ i)) (fin (p i)) (c (i + 1)) =
      .ret (fin (σ (i + 1)), fin (τ (i + 1)), fin (p (i + 1))) := by
    intro i hi
    obtain ⟨x, y, e1, e2, e3⟩ := hlinks i (by simpa using hi)
    rw [(hpt i hi.le).1] at e1
    cases e1
    have h := (hpt (i + 1) hi).1
    rw [List.getElem?_cons_succ, e2] at h
    cases h
    simpa using e3
  have hN := (hpt N le_rfl).2
  obtain ⟨r, hr, hrl, hra⟩ := trajLoop_retrace E htol hm hL p σ τ N hS (fun i hi => (hpt i hi).2) hl 0 (p N) (σ N) (τ N) hN.1 hN.2.1 hN.2.2
    (by simp) hmar
  refine ⟨(fin (σ N), fin (τ N), fin (p N)) :: r, ?_, by simp [hrl], fun i hi => ?_⟩
  · rw [List.range_succ, List.reverse_append, List.reverse_singleton, List.singleton_append, List.map_cons]
    obtain ⟨k, K, a, s, t, G, hs, e1, e2⟩ := hS.good N le_rfl
    obtain ⟨σ', τ', hat, hst⟩ := curves_at (x := p N) kind G hs (by rw [e1]; exact hN.1) (by rw [e2]; exact hN.2.1)
    have hσ : σ' = σ N ∧ τ' = τ N := by
      have h1 := hat.1
      have h2 := hat.2
      rw [hN.2.2.1] at h1
      rw [hN.2.2.2] at h2
      cases h1; cases h2
      exact ⟨rfl, rfl⟩
    simp only [neutralTrajectory]
    rw [hst, hσ.1, hσ.2]
    simp only [Outcome.bind, isNaN_fin, hr]
    rfl
  · rcases Nat.lt_or_eq_of_le hi with h | rfl
    · obtain ⟨x, y, q, h1, h2⟩ := hra i h
      exact ⟨x, y, q, by rw [show N - i = (N - 1 - i) + 1 by omega]; simpa using h1, h2⟩
    · exact ⟨_, _, p i, by rw [Nat.sub_self]; rfl, by rw [Nat.sub_self]; simp [retErr]⟩

/-! ### An instance -/

theorem exLinear {x s t : ℝ} (hx : 0 ≤ x) (hx' : x ≤ 3) (h : At .linear exCast x s t) : s - t = if x ≤ 1 then 30 + 2 * x else 31 + x := by
  have G := exGood
  have B1 : Block exCast.P exCast.S 1 4 _ _ := ⟨G.S.size.symm, G.S.vr.1, G.S.two, G.S.hX, G.S.hY, G.S.inc⟩
  have B2 : Block exCast.P exCast.T 1 4 _ _ := ⟨G.T.size.symm, G.T.vr.1, G.T.two, G.T.hX, G.T.hY, G.T.inc⟩
  obtain ⟨h1, h2⟩ := h
  split_ifs with hc
  · have e1 := (linear_chord B1 (i := 1) (x := x) le_rfl (by omega) (by simpa using hx) (by simpa using hc)).2.1
    have e2 := (linear_chord B2 (i := 1) (x := x) le_rfl (by omega) (by simpa using hx) (by simpa using hc)).2.1
    have h1' : linearInterp1 (fin x) exCast.P exCast.S 0 = some (fin s) := h1
    have h2' : linearInterp1 (fin x) exCast.P exCast.T 0 = some (fin t) := h2
    rw [e1] at h1'
    rw [e2] at h2'
    simp only [Option.some.injEq, Fl.fin.injEq] at h1' h2'
    rw [← h1', ← h2']
    norm_num
    ring
  · push Not at hc
    have e1 := (linear_chord B1 (i := 2) (x := x) (by omega) (by omega) (by simpa using hc.le) (by simpa using hx')).2.1
    have e2 := (linear_chord B2 (i := 2) (x := x) (by omega) (by omega) (by simpa using hc.le) (by simpa using hx')).2.1
    have h1' : linearInterp1 (fin x) exCast.P exCast.S 0 = some (fin s) := h1
    have h2' : linearInterp1 (fin x) exCast.P exCast.T 0 = some (fin t) := h2
    rw [e1] at h1'
    rw [e2] at h2'
    simp only [Option.some.injEq, Fl.fin.injEq] at h1' h2'
    rw [← h1', ← h2']
    norm_num
    ring

/-- Copies of one cast: all hypotheses on the casts hold, with slopes between 1 and 2. -/
theorem exSection (N : ℕ) : Section (fun s t _ => s - t) (fun s t _ => s - t) 0 .linear (1/100) 1 2 (1/40) 600 N (fun _ => exCast) (fun _ => 0) (fun _ => 3) := by
  refine ⟨fun i _ => ⟨1, 4, _, _, _, exGood, fun i _ _ => by split_ifs <;> norm_num, by norm_num, by norm_num⟩, fun i _ => by norm_num, fun i _ => ⟨?_, ?_⟩, ?_⟩
  · intro x x' y s t s' t' σ τ h1 h2 h3 h4 h5 g1 g2 g3
    have q1 := exLinear h1 (h2.trans h3) g1
    have q2 := exLinear (h1.trans h2) h3 g2
    simp only [q1, q2]
    split_ifs <;> linarith
  · intro x y y' s t σ τ σ' τ' h1 h2 h3 h4 h5 h6 g1 g2 g3
    have q2 := exLinear h3 h4 g2
    have q3 := exLinear h5 h6 g3
    have : (s - t - (σ' - τ')) - (s - t - (σ - τ)) = (σ - τ) - (σ' - τ') := by ring
    rw [this, q2, q3]
    rcases abs_cases (y' - y) with h | h <;> rw [h.1, abs_le] <;> split_ifs <;> constructor <;> linarith
  · intro i _ x h1 h2
    unfold acc
    rw [abs_of_nonneg h1]
    norm_num
    linarith

/-- There and back between two casts, from the pressure 3/2. -/
example : ∃ back : List (Fl ℝ × Fl ℝ × Fl ℝ), ∃ p1 x y q,
    neutralTrajectory (600 + 13) (fin (1/100)) (fun s t _ => s - t) .linear (fin p1) [exCast, exCast] = .ret back ∧
    back[1]? = some (x, y, fin q) ∧ |q - 3 / 2| ≤ 3 / 40 := by
  obtain ⟨σ, τ, hat, hst⟩ := curves_at (x := 3 / 2) .linear exGood (smin := 0) (fun i _ _ => by split_ifs <;> norm_num) (by norm_num) (by norm_num)
  have h32 := exLinear (by norm_num) (by norm_num) hat
  norm_num at h32
  obtain ⟨s', t', p1, hl, -, -⟩ := ntp_finds .linear exEos exGood (fun i _ _ => by split_ifs <;> norm_num) (sB := σ) (tB := τ) (pB := 3 / 2) (tol := 1 / 100)
    (at_smin .linear exGood (smin := 0) (fun i _ _ => by split_ifs <;> norm_num) (by norm_num) (by norm_num) hat) (by norm_num) 600 (by norm_num)
    (by rw [h32]; norm_num)
  obtain ⟨back, hb, -, hall⟩ := trajectory_retrace (N := 1) (p0 := 3 / 2) (p := fun i => if i = 0 then 3 / 2 else p1) exEos (by norm_num) one_pos (by norm_num)
    (exSection 1) (by norm_num) (by norm_num) (out := [(fin σ, fin τ, fin (3 / 2)), (fin s', fin t', fin p1)])
    (by
      show neutralTrajectory _ _ _ _ _ [exCast, exCast] = _
      simp only [neutralTrajectory, hst, Outcome.bind, trajLoop, hl, isNaN_fin]
      rfl)
    (fun i hi => by
      have : i = 0 ∨ i = 1 := by omega
      rcases this with rfl | rfl
      · exact ⟨_, _, rfl⟩
      · exact ⟨_, _, rfl⟩)
    (fun i hi => by
      have : i = 0 := by omega
      subst this
      norm_num [retErr])
  obtain ⟨x, y, q, h1, h2⟩ := hall 0 (by omega)
  refine ⟨back, p1, x, y, q, hb, h1, ?_⟩
  norm_num [retErr] at h2
  exact h2

end VertSolve
