import Verif.Props.MixedLayer
import Verif.Props.Window

/-!
# The mixed layer with PCHIP, and which bottles matter for it (C179)
-/

set_option linter.unusedSectionVars false

namespace MixedLayer
open FloatLike Interp Traj
open Fl (fin isNaN_iff)

variable {ρ : ℝ → ℝ → ℝ → ℝ} {eos : Fl ℝ → Fl ℝ → Fl ℝ → Fl ℝ} {S T P S' T' P' : Arr (Fl ℝ)} {r : ℝ} {k K j k' K' j' : ℕ} {s t p s' t' p' : ℕ → ℝ}

theorem Cast.col (g : Gives ρ eos) (hn : NanEos eos) (c : Cast ρ S T P r k K j s t p) : Col (dens eos S T (fin r) j) P k K (diff ρ r s t j) p := by
  have B := c.block g hn
  refine ⟨B.size.symm, c.two, by rw [dens_size]; exact c.le, ?_, ?_, B.hX, B.hY, B.inc⟩
  · intro i hi
    rcases c.above i hi with h | h | h
    · exact Or.inl ((isNaN_iff _).1 (dens_nan hn (Or.inl h)))
    · exact Or.inl ((isNaN_iff _).1 (dens_nan hn (Or.inr h)))
    · exact Or.inr ((isNaN_iff _).1 h)
  · intro h
    rw [dens_size] at h
    rcases c.below h with h | h | h
    · exact Or.inl ((isNaN_iff _).1 (dens_nan hn (Or.inl h)))
    · exact Or.inl ((isNaN_iff _).1 (dens_nan hn (Or.inr h)))
    · exact Or.inr ((isNaN_iff _).1 h)

/-- On-the-fly PCHIP of a column: values on a piece where the data increase. -/
theorem pchip_piece {X Y : Arr (Fl ℝ)} {a y : ℕ → ℝ} (C : Col X Y k K a y) {i : ℕ} (h1 : k ≤ i) (h2 : i + 1 < K) {x x' : ℝ} (hx : a i ≤ x) (hxx : x ≤ x') (hx' : x' ≤ a (i + 1))
    (hy : y i ≤ y (i + 1)) :
    ∃ v v', pchipInterp1 (fin x) X Y 0 = some (fin v) ∧ pchipInterp1 (fin x') X Y 0 = some (fin v') ∧ y i ≤ v ∧ v ≤ v' ∧ v' ≤ y (i + 1) := by
  obtain ⟨Tb, V, H⟩ := C.tablePchip
  obtain ⟨D, hD, hs⟩ := pchip_shape C.block
  have htwo := C.two
  have B := C.block
  have e : pchipCoeffs1Nonan (X.slice k K) (Y.slice k K) = pchipCoeffs1 (X.slice k K) (Y.slice k K) := by
    apply pchipNonan_eq
    · show 0 < K - k; omega
    · rw [B.hX 0 (by omega) (by omega), B.hY 0 (by omega) (by omega)]; simp
    · intro i h1 h3
      rw [B.hX i (by omega) h3, B.hY i (by omega) h3]; simp
  have e : Tb = D := Option.some.inj (H.made.symm.trans (e.trans hD))
  subst e
  obtain ⟨v, v', g1, g2, g3, -⟩ := hs (i - k) (by omega) (by omega) x x' (by rw [show k + (i - k) = i by omega]; exact hx) hxx
    (by rw [show k + (i - k + 1) = i + 1 by omega]; exact hx')
  rw [show k + (i - k) = i by omega, show k + (i - k + 1) = i + 1 by omega] at g3
  exact ⟨v, v', (H.pub _).trans (congrArg some g1), (H.pub _).trans (congrArg some g2), g3 hy⟩

theorem pchip_outside {X Y : Arr (Fl ℝ)} {a y : ℕ → ℝ} (B : Block X Y k K a y) {x : ℝ} (h : x < a k ∨ a (K - 1) < x) :
    pchipInterp1 (fin x) X Y 0 = some .nan := by
  unfold pchipInterp1 ppinterp1
  simp only [B.vr]
  rw [if_pos]
  · rfl
  · rcases Bool.eq_false_or_eq_true (outside X k K (Fl.fin x)) with h' | h'
    · exact h'
    · obtain ⟨h1, h2⟩ := (B.outside_iff x).mp h'
      rcases h with h | h
      · exact absurd h (not_lt.mpr h1)
      · exact absurd h (not_lt.mpr h2)

theorem mixedLayer_eq {interp : Fl ℝ → Arr (Fl ℝ) → Arr (Fl ℝ) → ℕ → Option (Fl ℝ)} {b : ℤ} (hb : bottle b S.size = some j) (thr : ℝ) :
    mixedLayer interp eos S T P (fin thr) (fin r) b = interp (fin thr) (dens eos S T (fin r) j) P 0 := by
  unfold mixedLayer
  rw [hb]

/-- **C179** The mixed layer with PCHIP, on a cast whose potential density increases downwards: NaN exactly when the threshold is outside the range of the density
differences; otherwise it lies between the two bottles whose density differences enclose the threshold, and at a bottle if its difference is the threshold. -/
theorem mixed_layer_pchip (g : Gives ρ eos) (hn : NanEos eos) (c : Cast ρ S T P r k K j s t p) {b : ℤ} (hb : bottle b S.size = some j) (thr : ℝ) :
    (mixedLayer pchipInterp1 eos S T P (fin thr) (fin r) b = some .nan ↔ thr < diff ρ r s t j k ∨ diff ρ r s t j (K - 1) < thr) ∧
    ∀ i, k ≤ i → i + 1 < K → diff ρ r s t j i ≤ thr → thr ≤ diff ρ r s t j (i + 1) →
      ∃ x, mixedLayer pchipInterp1 eos S T P (fin thr) (fin r) b = some (fin x) ∧ p i ≤ x ∧ x ≤ p (i + 1) ∧ (thr = diff ρ r s t j i → x = p i) ∧
        (thr = diff ρ r s t j (i + 1) → x = p (i + 1)) := by
  have B := c.block g hn
  have C := c.col g hn
  have h2 := c.two
  rw [mixedLayer_eq hb]
  have hm : ∀ i, k ≤ i → i + 1 < K → p i ≤ p (i + 1) := fun i h1 h2 => (c.incP i h1 h2).le
  have knot : ∀ i, k ≤ i → i < K → pchipInterp1 (fin (diff ρ r s t j i)) (dens eos S T (fin r) j) P 0 = some (fin (p i)) := by
    intro i h1 h3
    obtain ⟨Tb, V, H⟩ := C.tablePchip
    by_cases hi : i + 1 < K
    · rw [show pchipInterp1 (fin (diff ρ r s t j i)) (dens eos S T (fin r) j) P 0 = _ from H.pub _,
        H.val (i - k) _ (by omega) (by rw [show k + (i - k) = i by omega]) (by rw [show k + (i - k) = i by omega]; exact (B.inc i h1 hi).le)]
      have := H.v0 (i - k) (by omega)
      rw [show k + (i - k) = i by omega] at this
      rw [this]
    · have hlt := B.inc (i - 1) (by omega) (by omega)
      rw [show i - 1 + 1 = i by omega] at hlt
      rw [show pchipInterp1 (fin (diff ρ r s t j i)) (dens eos S T (fin r) j) P 0 = _ from H.pub _,
        H.val (i - 1 - k) _ (by omega) (by rw [show k + (i - 1 - k) = i - 1 by omega]; exact hlt.le) (by rw [show k + (i - 1 - k) + 1 = i by omega])]
      have := H.v1 (i - 1 - k) (by omega)
      rw [show k + (i - 1 - k) + 1 = i by omega] at this
      rw [this]
  have key : ∀ i, k ≤ i → i + 1 < K → diff ρ r s t j i ≤ thr → thr ≤ diff ρ r s t j (i + 1) →
      ∃ x, pchipInterp1 (fin thr) (dens eos S T (fin r) j) P 0 = some (fin x) ∧ p i ≤ x ∧ x ≤ p (i + 1) ∧ (thr = diff ρ r s t j i → x = p i) ∧
        (thr = diff ρ r s t j (i + 1) → x = p (i + 1)) := by
    intro i h1 h3 h4 h5
    obtain ⟨v, v', e1, -, e3, e4, e5⟩ := pchip_piece C h1 h3 h4 le_rfl h5 (hm i h1 h3)
    refine ⟨v, e1, e3, e4.trans e5, fun h => ?_, fun h => ?_⟩
    · rw [h, knot i h1 (by omega)] at e1
      simpa using e1.symm
    · rw [h, knot (i + 1) (by omega) h3] at e1
      simpa using e1.symm
  refine ⟨⟨fun h => ?_, pchip_outside B⟩, key⟩
  by_contra hc
  push Not at hc
  obtain ⟨i, i1, i2, i3, i4⟩ := find_piece (k := k) (a := diff ρ r s t j) (K - 1 - k) (by omega) hc.1 (by rw [show k + (K - 1 - k) = K - 1 by omega]; exact hc.2)
  obtain ⟨x, hx, -⟩ := key i i1 (by omega) i3 i4
  rw [h] at hx
  cases hx

/-- **C179** With PCHIP too, a larger threshold never gives a shallower mixed layer, and thresholds `≥ 0` never give one above the reference bottle. -/
theorem mixed_layer_pchip_mono (g : Gives ρ eos) (hn : NanEos eos) (c : Cast ρ S T P r k K j s t p) {b : ℤ} (hb : bottle b S.size = some j) {thr thr' x x' : ℝ}
    (h : mixedLayer pchipInterp1 eos S T P (fin thr) (fin r) b = some (fin x))
    (h' : mixedLayer pchipInterp1 eos S T P (fin thr') (fin r) b = some (fin x')) : (thr ≤ thr' → x ≤ x') ∧ (0 ≤ thr → p j ≤ x) := by
  have B := c.block g hn
  have C := c.col g hn
  have h2 := c.two
  have hj := c.hj
  have main : ∀ {thr thr' x x' : ℝ}, mixedLayer pchipInterp1 eos S T P (fin thr) (fin r) b = some (fin x) →
      mixedLayer pchipInterp1 eos S T P (fin thr') (fin r) b = some (fin x') → thr ≤ thr' → x ≤ x' := by
    intro thr thr' x x' h h' hle
    have r1 := (mixed_layer_pchip g hn c hb thr).1
    have r2 := (mixed_layer_pchip g hn c hb thr').1
    have q1 : diff ρ r s t j k ≤ thr ∧ thr ≤ diff ρ r s t j (K - 1) := by
      by_contra hc
      have : mixedLayer pchipInterp1 eos S T P (fin thr) (fin r) b = some .nan := r1.2 (by by_contra h; push Not at h; exact hc h)
      rw [this] at h; cases h
    have q2 : diff ρ r s t j k ≤ thr' ∧ thr' ≤ diff ρ r s t j (K - 1) := by
      by_contra hc
      have : mixedLayer pchipInterp1 eos S T P (fin thr') (fin r) b = some .nan := r2.2 (by by_contra h; push Not at h; exact hc h)
      rw [this] at h'; cases h'
    rw [mixedLayer_eq hb] at h h'
    obtain ⟨i, i1, i2, i3, i4⟩ := find_piece (k := k) (a := diff ρ r s t j) (K - 1 - k) (by omega) q1.1 (by rw [show k + (K - 1 - k) = K - 1 by omega]; exact q1.2)
    by_cases hi : thr' ≤ diff ρ r s t j (i + 1)
    · obtain ⟨v, v', e1, e2, e3, e4, e5⟩ := pchip_piece C i1 (by omega) i3 hle hi (c.incP i i1 (by omega)).le
      rw [h] at e1
      rw [h'] at e2
      cases e1
      cases e2
      exact e4
    · push Not at hi
      have hiK : i + 1 < K - 1 := by
        by_contra hc
        rw [show i + 1 = K - 1 by omega] at hi
        exact absurd q2.2 (not_le.2 hi)
      obtain ⟨i', j1, j2, j3, j4⟩ := find_piece (k := i + 1) (a := diff ρ r s t j) (K - 1 - (i + 1)) (by omega) hi.le
        (by rw [show i + 1 + (K - 1 - (i + 1)) = K - 1 by omega]; exact q2.2)
      obtain ⟨v, v', e1, -, e3, e4, e5⟩ := pchip_piece C i1 (by omega) i3 le_rfl i4 (c.incP i i1 (by omega)).le
      obtain ⟨w, w', f1, -, f3, f4, f5⟩ := pchip_piece C (i := i') (by omega) (by omega) j3 le_rfl j4 (c.incP i' (by omega) (by omega)).le
      rw [h] at e1
      rw [h'] at f1
      cases e1
      cases f1
      have := (c.flip g hn).mono (i + 1) i' (by omega) (by omega) (by omega)
      linarith
  refine ⟨main h h', fun h0 => ?_⟩
  have hd : diff ρ r s t j j = 0 := sub_self _
  have hjk : ∃ y, mixedLayer pchipInterp1 eos S T P (fin 0) (fin r) b = some (fin y) ∧ y = p j := by
    by_cases hK : j + 1 < K
    · obtain ⟨y, e1, -, -, e4, -⟩ := (mixed_layer_pchip g hn c hb 0).2 j hj.1 hK hd.le (by rw [← hd]; exact (B.inc j hj.1 hK).le)
      exact ⟨y, e1, e4 hd.symm⟩
    · have e : j - 1 + 1 = j := by omega
      have hlt := B.inc (j - 1) (by omega) (by omega)
      rw [e] at hlt
      obtain ⟨y, e1, -, -, -, e5⟩ := (mixed_layer_pchip g hn c hb 0).2 (j - 1) (by omega) (by omega) (by rw [← hd]; exact hlt.le) (by rw [e]; exact hd.ge)
      rw [e] at e5
      exact ⟨y, e1, e5 hd.symm⟩
  obtain ⟨y, e1, rfl⟩ := hjk
  exact main e1 h h0

/-- **C179** Which bottles matter: if the bottles `l, .., l + n` of one cast are the bottles `l', .., l' + n` of another, the reference bottles have the same potential
density, and the density differences of the first (PCHIP: second) of these bottles and of the last (PCHIP: last but one) enclose the threshold, then both casts have the same
mixed layer.  At the ends of both casts the additional bottle for PCHIP is not needed. -/
theorem mixed_layer_window (g : Gives ρ eos) (hn : NanEos eos) (c : Cast ρ S T P r k K j s t p) (c' : Cast ρ S' T' P' r k' K' j' s' t' p') {b b' : ℤ}
    (hb : bottle b S.size = some j) (hb' : bottle b' S'.size = some j') {l l' n : ℕ} (hl : k ≤ l) (hln : l + n < K) (hl' : k' ≤ l') (hln' : l' + n < K') (hn1 : 1 ≤ n)
    (same : ∀ i, i ≤ n → s' (l' + i) = s (l + i) ∧ t' (l' + i) = t (l + i) ∧ p' (l' + i) = p (l + i)) (ref : ρ (s' j') (t' j') r = ρ (s j) (t j) r) {thr : ℝ} :
    ((diff ρ r s t j l < thr ∨ l = k ∧ l' = k' ∧ diff ρ r s t j k ≤ thr) ∧ thr ≤ diff ρ r s t j (l + n) →
      mixedLayer linearInterp1 eos S' T' P' (fin thr) (fin r) b' = mixedLayer linearInterp1 eos S T P (fin thr) (fin r) b) ∧
    ((diff ρ r s t j (l + 1) < thr ∨ l = k ∧ l' = k' ∧ diff ρ r s t j k ≤ thr) ∧
        (1 < n ∧ thr ≤ diff ρ r s t j (l + n - 1) ∨ l + n + 1 = K ∧ l' + n + 1 = K' ∧ thr ≤ diff ρ r s t j (K - 1)) →
      mixedLayer pchipInterp1 eos S' T' P' (fin thr) (fin r) b' = mixedLayer pchipInterp1 eos S T P (fin thr) (fin r) b) := by
  rw [mixedLayer_eq hb, mixedLayer_eq hb, mixedLayer_eq hb', mixedLayer_eq hb']
  have := (c.col g hn).gcol.window (c'.col g hn).gcol hl hln hl' hln' hn1 (fun i hi => by
    obtain ⟨e1, e2, e3⟩ := same i hi
    refine ⟨?_, e3⟩
    unfold diff
    rw [e1, e2, ref]) (x := thr) 0
  exact this

/-! ## Concrete casts -/

/-- Density `1000 + |s|`. -/
noncomputable def rEos : Fl ℝ → Fl ℝ → Fl ℝ → Fl ℝ
  | .fin s, .fin _, .fin _ => .fin (1000 + |s|)
  | _, _, _ => .nan

theorem rEos_gives : Gives (fun s _ _ => 1000 + |s|) rEos := .density (fun s _ _ => by have := abs_nonneg s; linarith) (fun _ _ _ => rfl)

theorem rEos_nan : NanEos rEos := by
  intro x y z h
  rcases h with h | h <;> rw [isNaN_iff] at h <;> subst h
  · rfl
  · cases x <;> rfl

noncomputable def rArr (m : ℕ) (f : ℕ → ℝ) : Arr (Fl ℝ) := ⟨m, fun i => fin (f i)⟩

theorem rCast {m : ℕ} (hm : 2 ≤ m) {f : ℕ → ℝ} (hf : ∀ i, 0 ≤ f i) (hi : ∀ i, i + 1 < m → f i < f (i + 1)) :
    Cast (fun s _ _ => 1000 + |s|) (rArr m f) (rArr m fun _ => 0) (rArr m fun i => 10 * i) 0 0 m 1 f (fun _ => 0) (fun i => 10 * i) := by
  refine ⟨by omega, le_refl m, rfl, fun _ _ _ => rfl, fun _ _ _ => rfl, fun _ _ _ => rfl, fun i hi => absurd hi (by omega), fun h => absurd h (lt_irrefl m), by omega, ?_, ?_⟩
  · intro i _ _; push_cast; linarith
  · intro i _ h
    rw [abs_of_nonneg (hf i), abs_of_nonneg (hf (i + 1))]
    linarith [hi i h]

/-- The hypotheses are met: bottles with salinity `0, 1, 2, ..`, threshold `1/2` above bottle 1. -/
example : ∃ x, mixedLayer pchipInterp1 rEos (rArr 4 fun i => i) (rArr 4 fun _ => 0) (rArr 4 fun i => 10 * i) (fin (1 / 2)) (fin 0) 1 = some (fin x) ∧ 10 ≤ x ∧ x ≤ 20 := by
  have c := rCast (m := 4) (by omega) (f := fun i => i) (fun i => Nat.cast_nonneg i) (fun i _ => by push_cast; linarith)
  obtain ⟨x, h1, h2, h3, -⟩ := (mixed_layer_pchip rEos_gives rEos_nan c (b := 1) (by decide) (1 / 2)).2 1 (by omega) (by omega)
    (by unfold diff; norm_num) (by unfold diff; norm_num [abs_of_nonneg])
  refine ⟨x, h1, ?_, ?_⟩
  · norm_num at h2; exact h2
  · norm_num at h3; exact h3

/-- The last bottle of five, with any value, does not matter for a threshold that is reached before bottle 2. -/
example {v : ℝ} (hv : 3 < v) : mixedLayer pchipInterp1 rEos (rArr 5 fun i => if i = 4 then v else i) (rArr 5 fun _ => 0) (rArr 5 fun i => 10 * i) (fin (1 / 2)) (fin 0) 1 =
    mixedLayer pchipInterp1 rEos (rArr 4 fun i => i) (rArr 4 fun _ => 0) (rArr 4 fun i => 10 * i) (fin (1 / 2)) (fin 0) 1 := by
  have c := rCast (m := 4) (by omega) (f := fun i => i) (fun i => Nat.cast_nonneg i) (fun i _ => by push_cast; linarith)
  have c' := rCast (m := 5) (by omega) (f := fun i => if i = 4 then v else i) (fun i => by split_ifs; linarith; exact Nat.cast_nonneg i) (fun i hi => by
    have : i = 0 ∨ i = 1 ∨ i = 2 ∨ i = 3 := by omega
    rcases this with rfl | rfl | rfl | rfl <;> norm_num
    exact hv)
  refine (mixed_layer_window rEos_gives rEos_nan c c' (b := 1) (b' := 1) (by decide) (show bottle 1 5 = some 1 by decide) (l := 0) (l' := 0) (n := 3) (by omega) (by omega) (by omega) (by omega) (by omega)
    ?_ ?_).2 ⟨Or.inr ⟨rfl, rfl, ?_⟩, Or.inl ⟨by omega, ?_⟩⟩
  · intro i hi
    simp [show i ≠ 4 by omega]
  · norm_num
  · unfold diff; norm_num
  · unfold diff; norm_num

end MixedLayer
