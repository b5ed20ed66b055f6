import Verif.Model.MixedLayer
import Verif.Props.Interp

/-!
# Properties of `mixed_layer` (C61, C90 - C91)
-/

set_option linter.unusedSectionVars false

namespace MixedLayer
open FloatLike Interp
open Fl hiding nan

/-- **C91** Which `bottle_index` works: a bottle counted from the top, or from the bottom except `-1`.
(`-1`, Python's usual name for the deepest bottle, raises.) -/
theorem bottle_some_iff (b : ℤ) (nk j : ℕ) :
    bottle b nk = some j ↔ j < nk ∧ (b = j ∨ (b ≠ -1 ∧ b = (j : ℤ) - nk)) := by
  unfold bottle clip
  constructor
  · intro h
    split_ifs at h <;> simp only [Option.some.injEq] at h <;> omega
  · rintro ⟨h1, h2⟩
    rw [if_pos]
    · rw [Option.some.injEq]
      split_ifs <;> omega
    · split_ifs <;> omega

/-- **C91** `bottle_index = -1` raises for every cast. -/
theorem bottle_minus_one {F : Type*} [FloatLike F] (interp : F → Arr F → Arr F → ℕ → Option F) (eos : F → F → F → F)
    (S T P : Arr F) (thr refp : F) : mixedLayer interp eos S T P thr refp (-1) = none := by
  unfold mixedLayer
  have : bottle (-1) S.size = none := by
    cases h : bottle (-1) S.size with
    | none => rfl
    | some j => have := (bottle_some_iff _ _ _).mp h; omega
  rw [this]

variable {α : Type*} [Field α] [LinearOrder α] [IsStrictOrderedRing α]

/-- An equation of state that gives density `ρ > 1`, or its reciprocal, specific volume. -/
inductive Gives (ρ : α → α → α → α) (eos : Fl α → Fl α → Fl α → Fl α) : Prop
  | density (h1 : ∀ s t p, 1 < ρ s t p) (h : ∀ s t p, eos (.fin s) (.fin t) (.fin p) = .fin (ρ s t p))
  | specvol (h1 : ∀ s t p, 1 < ρ s t p) (h : ∀ s t p, eos (.fin s) (.fin t) (.fin p) = .fin (1 / ρ s t p))

/-- **C90** Whether the equation of state returns density or specific volume, the profile searched is the difference of
potential density from the reference bottle. -/
theorem dens_get {ρ : α → α → α → α} {eos : Fl α → Fl α → Fl α → Fl α} (g : Gives ρ eos) {S T : Arr (Fl α)} {r : α}
    {i j : ℕ} {si ti sj tj : α} (hsi : S.get i = .fin si) (hti : T.get i = .fin ti) (hsj : S.get j = .fin sj)
    (htj : T.get j = .fin tj) : (dens eos S T (.fin r) j).get i = .fin (ρ si ti r - ρ sj tj r) := by
  unfold dens
  rcases g with ⟨h1, h⟩ | ⟨h1, h⟩
  · have c : lt (lit 1) (eos (lit (69 / 2)) (lit 3) (lit 1000)) = true := by
      rw [lit_eq, lit_eq, lit_eq, lit_eq, h, lt_fin, decide_eq_true_eq]
      have := h1 ((69 / 2 : ℚ) : α) ((3 : ℚ) : α) ((1000 : ℚ) : α)
      simpa using this
    rw [if_pos c]
    simp only [hsi, hti, hsj, htj, h, fin_sub]
  · have c : lt (lit 1) (eos (lit (69 / 2)) (lit 3) (lit 1000)) = false := by
      rw [lit_eq, lit_eq, lit_eq, lit_eq, h, lt_fin, decide_eq_false_iff_not, not_lt]
      have := h1 ((69 / 2 : ℚ) : α) ((3 : ℚ) : α) ((1000 : ℚ) : α)
      rw [Rat.cast_one, div_le_one (by linarith)]
      exact this.le
    rw [c]
    have nz : ∀ s t p, (1 : α) / ρ s t p ≠ 0 := fun s t p => by
      have := h1 s t p
      exact div_ne_zero one_ne_zero (by intro h; linarith)
    simp only [hsi, hti, hsj, htj, h, Bool.false_eq_true, if_false, lit_eq, Rat.cast_one]
    rw [fin_div _ _ (nz _ _ _), fin_div _ _ (nz _ _ _), fin_sub, one_div_one_div, one_div_one_div]

/-- A cast whose valid block `k .. K` has finite salinity, temperature and strictly increasing pressure, with a
reference bottle `j` in it, and potential density strictly increasing downwards. -/
structure Cast (ρ : α → α → α → α) (S T P : Arr (Fl α)) (r : α) (k K j : ℕ) (s t p : ℕ → α) : Prop where
  two : k + 2 ≤ K
  le : K ≤ S.size
  sizeP : P.size = S.size
  hS : ∀ i, k ≤ i → i < K → S.get i = .fin (s i)
  hT : ∀ i, k ≤ i → i < K → T.get i = .fin (t i)
  hP : ∀ i, k ≤ i → i < K → P.get i = .fin (p i)
  above : ∀ i, i < k → isNaN (S.get i) = true ∨ isNaN (T.get i) = true ∨ isNaN (P.get i) = true
  below : K < S.size → isNaN (S.get K) = true ∨ isNaN (T.get K) = true ∨ isNaN (P.get K) = true
  hj : k ≤ j ∧ j < K
  incP : ∀ i, k ≤ i → i + 1 < K → p i < p (i + 1)
  incD : ∀ i, k ≤ i → i + 1 < K → ρ (s i) (t i) r < ρ (s (i + 1)) (t (i + 1)) r

variable {ρ : α → α → α → α} {eos : Fl α → Fl α → Fl α → Fl α} {S T P : Arr (Fl α)} {r : α} {k K j : ℕ} {s t p : ℕ → α}

theorem dens_size (eos : Fl α → Fl α → Fl α → Fl α) (S T : Arr (Fl α)) (r : Fl α) (j : ℕ) : (dens eos S T r j).size = S.size := by
  unfold dens
  split_ifs <;> rfl

/-- NaN in gives NaN out. -/
def NanEos (eos : Fl α → Fl α → Fl α → Fl α) : Prop :=
  ∀ x y z, isNaN x = true ∨ isNaN y = true → isNaN (eos x y z) = true

/-- NaN salinity or temperature makes the difference NaN. -/
theorem dens_nan (hn : NanEos eos) {r : Fl α} {i : ℕ} (h : isNaN (S.get i) = true ∨ isNaN (T.get i) = true) :
    isNaN ((dens eos S T r j).get i) = true := by
  have := hn _ _ r h
  rw [isNaN_iff] at this
  unfold dens
  split_ifs
  · simp only [this, nan_sub, isNaN_nan]
  · simp only [this, div_nan, nan_sub, isNaN_nan]

theorem not_finite_of_nan {x : Fl α} (h : isNaN x = true) : isFinite x = false := by
  rw [isNaN_iff] at h; rw [h]; rfl

/-- The density difference relative to bottle `j`. -/
def diff (ρ : α → α → α → α) (r : α) (s t : ℕ → α) (j i : ℕ) : α := ρ (s i) (t i) r - ρ (s j) (t j) r

theorem Cast.block (g : Gives ρ eos) (hn : NanEos eos) (c : Cast ρ S T P r k K j s t p) :
    Block (dens eos S T (.fin r) j) P k K (diff ρ r s t j) p := by
  have hg : ∀ i, k ≤ i → i < K → (dens eos S T (.fin r) j).get i = .fin (diff ρ r s t j i) := fun i h1 h2 =>
    dens_get g (c.hS i h1 h2) (c.hT i h1 h2) (c.hS j c.hj.1 c.hj.2) (c.hT j c.hj.1 c.hj.2)
  have := c.two
  have := c.le
  refine ⟨by rw [dens_size, c.sizeP], ?_, c.two, hg, c.hP, ?_⟩
  · apply validRange2_eq (by rw [dens_size]; omega) (by omega) (by rw [dens_size]; exact c.le)
    · intro i hi
      rcases c.above i hi with h | h | h
      · exact Or.inl (not_finite_of_nan (dens_nan hn (Or.inl h)))
      · exact Or.inl (not_finite_of_nan (dens_nan hn (Or.inr h)))
      · exact Or.inr (not_finite_of_nan h)
    · rw [hg k (le_refl _) (by omega), c.hP k (le_refl _) (by omega)]; exact ⟨rfl, rfl⟩
    · intro i h1 h2
      rw [hg i (by omega) (by omega), c.hP i (by omega) (by omega)]; exact ⟨rfl, rfl⟩
    · intro h
      rw [dens_size] at h
      rcases c.below h with h | h | h
      · exact Or.inl (dens_nan hn (Or.inl h))
      · exact Or.inl (dens_nan hn (Or.inr h))
      · exact Or.inr h
  · intro i h1 h2
    unfold diff
    have := c.incD i h1 h2
    linarith

/-- The same cast the other way round: the density difference as a function of pressure. -/
theorem Cast.flip (g : Gives ρ eos) (hn : NanEos eos) (c : Cast ρ S T P r k K j s t p) :
    Block P (dens eos S T (.fin r) j) k K p (diff ρ r s t j) := by
  have B := c.block g hn
  have := c.two
  have := c.le
  refine ⟨B.size.symm, ?_, c.two, c.hP, B.hX, c.incP⟩
  apply validRange2_eq (by rw [c.sizeP]; omega) (by omega) (by rw [c.sizeP]; exact c.le)
  · intro i hi
    rcases c.above i hi with h | h | h
    · exact Or.inr (not_finite_of_nan (dens_nan hn (Or.inl h)))
    · exact Or.inr (not_finite_of_nan (dens_nan hn (Or.inr h)))
    · exact Or.inl (not_finite_of_nan h)
  · rw [B.hX k (le_refl _) (by omega), c.hP k (le_refl _) (by omega)]; exact ⟨rfl, rfl⟩
  · intro i h1 h2
    rw [B.hX i (by omega) (by omega), c.hP i (by omega) (by omega)]; exact ⟨rfl, rfl⟩
  · intro h
    rw [c.sizeP] at h
    rcases c.below h with h | h | h
    · exact Or.inr (dens_nan hn (Or.inl h))
    · exact Or.inr (dens_nan hn (Or.inr h))
    · exact Or.inl h

theorem interp_outside {X Y : Arr (Fl α)} {a y : ℕ → α} (B : Block X Y k K a y) {x : α} (h : x < a k ∨ a (K - 1) < x) :
    linearInterp1 (.fin x) X Y 0 = some .nan := by
  unfold linearInterp1 ppinterp1
  simp only [B.vr]
  rw [if_pos]
  · rfl
  · rcases Bool.eq_false_or_eq_true (outside X k K (Fl.fin x)) with h' | h'
    · exact h'
    · obtain ⟨h1, h2⟩ := (B.outside_iff x).mp h'
      rcases h with h | h
      · exact absurd h (not_lt.mpr h1)
      · exact absurd h (not_lt.mpr h2)

theorem find_piece {a : ℕ → α} {x : α} : ∀ n : ℕ, 1 ≤ n → a k ≤ x → x ≤ a (k + n) →
    ∃ i, k ≤ i ∧ i < k + n ∧ a i ≤ x ∧ x ≤ a (i + 1) := by
  intro n
  induction n with
  | zero => intro h; omega
  | succ n ih =>
    intro _ h1 h2
    by_cases h : x ≤ a (k + n)
    · rcases Nat.eq_zero_or_pos n with h0 | h0
      · subst h0; exact ⟨k, le_refl _, by omega, h1, h2⟩
      · obtain ⟨i, e1, e2, e3⟩ := ih h0 h1 h
        exact ⟨i, e1, by omega, e3⟩
    · exact ⟨k + n, by omega, by omega, (not_le.mp h).le, h2⟩

/-- **C61** The mixed layer of a cast whose potential density increases downwards, with linear interpolation:
NaN exactly when the threshold is outside the range of density differences; otherwise the one pressure at which the
linearly interpolated density difference equals the threshold. -/
theorem mixed_layer_spec (g : Gives ρ eos) (hn : NanEos eos) (c : Cast ρ S T P r k K j s t p) {b : ℤ}
    (hb : bottle b S.size = some j) (thr : α) :
    (mixedLayer linearInterp1 eos S T P (.fin thr) (.fin r) b = some .nan ↔
      thr < diff ρ r s t j k ∨ diff ρ r s t j (K - 1) < thr) ∧
    (diff ρ r s t j k ≤ thr → thr ≤ diff ρ r s t j (K - 1) →
      ∃ x, mixedLayer linearInterp1 eos S T P (.fin thr) (.fin r) b = some (.fin x) ∧ p k ≤ x ∧ x ≤ p (K - 1) ∧
        linearInterp1 (.fin x) P (dens eos S T (.fin r) j) 0 = some (.fin thr)) := by
  have B := c.block g hn
  have B' := c.flip g hn
  have htwo := c.two
  have e : mixedLayer linearInterp1 eos S T P (.fin thr) (.fin r) b =
      linearInterp1 (.fin thr) (dens eos S T (.fin r) j) P 0 := by
    unfold mixedLayer; rw [hb]
  rw [e]
  have key : diff ρ r s t j k ≤ thr → thr ≤ diff ρ r s t j (K - 1) →
      ∃ x, linearInterp1 (.fin thr) (dens eos S T (.fin r) j) P 0 = some (.fin x) ∧ p k ≤ x ∧ x ≤ p (K - 1) ∧
        linearInterp1 (.fin x) P (dens eos S T (.fin r) j) 0 = some (.fin thr) := by
    intro h1 h2
    obtain ⟨i, i1, i2, i3, i4⟩ := find_piece (k := k) (a := diff ρ r s t j) (K - 1 - k) (by omega) h1
      (by rwa [show k + (K - 1 - k) = K - 1 by omega])
    have hi : i + 1 < K := by omega
    have hc := (linear_chord B i1 hi i3 i4).2.1
    have dD := B.hpos i1 hi
    have dP := B'.hpos i1 hi
    refine ⟨_, hc, ?_, ?_, ?_⟩
    · have m := B'.mono k i (le_refl _) i1 (by omega)
      have : 0 ≤ (thr - diff ρ r s t j i) * ((p (i + 1) - p i) / (diff ρ r s t j (i + 1) - diff ρ r s t j i)) :=
        mul_nonneg (by linarith) (div_nonneg dP.le dD.le)
      linarith
    · have m := B'.mono (i + 1) (K - 1) (by omega) (by omega) (by omega)
      have : (thr - diff ρ r s t j i) * ((p (i + 1) - p i) / (diff ρ r s t j (i + 1) - diff ρ r s t j i)) ≤ p (i + 1) - p i := by
        rw [← mul_div_assoc, div_le_iff₀ dD, mul_comm (p (i + 1) - p i)]
        exact mul_le_mul_of_nonneg_right (by linarith) dP.le
      linarith
    · set x := p i + (thr - diff ρ r s t j i) * ((p (i + 1) - p i) / (diff ρ r s t j (i + 1) - diff ρ r s t j i)) with hx
      have x1 : p i ≤ x := by
        have : 0 ≤ (thr - diff ρ r s t j i) * ((p (i + 1) - p i) / (diff ρ r s t j (i + 1) - diff ρ r s t j i)) :=
          mul_nonneg (by linarith) (div_nonneg dP.le dD.le)
        rw [hx]; linarith
      have x2 : x ≤ p (i + 1) := by
        have : (thr - diff ρ r s t j i) * ((p (i + 1) - p i) / (diff ρ r s t j (i + 1) - diff ρ r s t j i)) ≤ p (i + 1) - p i := by
          rw [← mul_div_assoc, div_le_iff₀ dD, mul_comm (p (i + 1) - p i)]
          exact mul_le_mul_of_nonneg_right (by linarith) dP.le
        rw [hx]; linarith
      rw [(linear_chord B' i1 hi x1 x2).2.1]
      congr 2
      rw [hx]
      have n1 := dD.ne'
      have n2 := dP.ne'
      field_simp
      ring
  refine ⟨⟨?_, interp_outside B⟩, key⟩
  intro h
  by_contra hc
  push Not at hc
  obtain ⟨x, hx, _⟩ := key hc.1 hc.2
  rw [h] at hx
  exact absurd hx (by simp)

/-- **C61** A larger threshold never gives a shallower mixed layer, and thresholds `≥ 0` never give one above the
reference bottle. -/
theorem mixed_layer_mono (g : Gives ρ eos) (hn : NanEos eos) (c : Cast ρ S T P r k K j s t p) {b : ℤ}
    (hb : bottle b S.size = some j) {thr thr' x x' : α}
    (h : mixedLayer linearInterp1 eos S T P (.fin thr) (.fin r) b = some (.fin x))
    (h' : mixedLayer linearInterp1 eos S T P (.fin thr') (.fin r) b = some (.fin x')) :
    (thr < thr' → x < x') ∧ (0 ≤ thr → p j ≤ x) := by
  have B' := c.flip g hn
  have hj := c.hj
  have htwo := c.two
  -- the interpolated density difference is non-decreasing in pressure
  have range : ∀ {u y : α}, mixedLayer linearInterp1 eos S T P (.fin u) (.fin r) b = some (.fin y) →
      ∃ y', y = y' ∧ p k ≤ y ∧ y ≤ p (K - 1) ∧ linearInterp1 (.fin y) P (dens eos S T (.fin r) j) 0 = some (.fin u) := by
    intro u y hy
    obtain ⟨s1, s2⟩ := mixed_layer_spec g hn c hb u
    have : ¬ (u < diff ρ r s t j k ∨ diff ρ r s t j (K - 1) < u) := by
      intro hh
      rw [s1.mpr hh] at hy
      exact absurd hy (by simp)
    push Not at this
    obtain ⟨y', e1, e2, e3, e4⟩ := s2 this.1 this.2
    rw [e1] at hy
    simp only [Option.some.injEq, Fl.fin.injEq] at hy
    subst hy
    exact ⟨_, rfl, e2, e3, e4⟩
  have monoD : ∀ {u v y z : α}, p k ≤ y → y ≤ z → z ≤ p (K - 1) →
      linearInterp1 (.fin y) P (dens eos S T (.fin r) j) 0 = some (.fin u) →
      linearInterp1 (.fin z) P (dens eos S T (.fin r) j) 0 = some (.fin v) → u ≤ v := by
    intro u v y z h1 h2 h3 hu hv
    obtain ⟨i, i1, i2, i3, i4⟩ := find_piece (k := k) (a := p) (K - 1 - k) (by omega) h1
      (by rw [show k + (K - 1 - k) = K - 1 by omega]; linarith)
    obtain ⟨l, l1, l2, l3, l4⟩ := find_piece (k := k) (a := p) (K - 1 - k) (by omega) (le_trans h1 h2)
      (by rwa [show k + (K - 1 - k) = K - 1 by omega])
    have B := c.block g hn
    rw [(linear_chord B' i1 (by omega) i3 i4).2.1] at hu
    rw [(linear_chord B' l1 (by omega) l3 l4).2.1] at hv
    simp only [Option.some.injEq, Fl.fin.injEq] at hu hv
    have slope : ∀ q, k ≤ q → q + 1 < K → 0 ≤ (diff ρ r s t j (q + 1) - diff ρ r s t j q) / (p (q + 1) - p q) :=
      fun q q1 q2 => div_nonneg (B.hpos q1 q2).le (B'.hpos q1 q2).le
    have full : ∀ q, k ≤ q → q + 1 < K → diff ρ r s t j q + (p (q + 1) - p q) *
        ((diff ρ r s t j (q + 1) - diff ρ r s t j q) / (p (q + 1) - p q)) = diff ρ r s t j (q + 1) := by
      intro q q1 q2
      have := (B'.hpos q1 q2).ne'
      field_simp
      ring
    have lower : diff ρ r s t j l ≤ v := by
      rw [← hv]
      have := mul_nonneg (by linarith : 0 ≤ z - p l) (slope l l1 (by omega))
      linarith
    have upper : u ≤ diff ρ r s t j (i + 1) := by
      have ff := full i i1 (by omega)
      rw [← hu]
      have := mul_le_mul_of_nonneg_right (by linarith : y - p i ≤ p (i + 1) - p i) (slope i i1 (by omega))
      linarith
    rcases lt_trichotomy i l with hil | hil | hil
    · exact le_trans upper (le_trans (B.mono (i + 1) l (by omega) hil (by omega)) lower)
    · subst hil
      rw [← hu, ← hv]
      have := mul_le_mul_of_nonneg_right (by linarith : y - p i ≤ z - p i) (slope i i1 (by omega))
      linarith
    · -- then both are the same knot
      have hk := B'.mono (l + 1) i (by omega) hil (by omega)
      have ey : y = p i := by linarith
      have el : l + 1 = i := by
        by_contra hne
        have := B'.smono (l + 1) i (by omega) (by omega) (by omega)
        linarith
      subst el
      have ez : z = p (l + 1) := by linarith
      rw [← hu, ← hv, ey, ez, full l l1 (by omega)]
      simp
  obtain ⟨_, _, a1, a2, a3⟩ := range h
  obtain ⟨_, _, b1, b2, b3⟩ := range h'
  constructor
  · intro hlt
    by_contra hc
    have := monoD b1 (not_lt.mp hc) a2 b3 a3
    linarith
  · intro h0
    by_contra hc
    have hc := not_le.mp hc
    have v := (linear_interpolates B' hj.1 hj.2).2
    rw [B'.hX j hj.1 hj.2, B'.hY j hj.1 hj.2] at v
    have := monoD a1 hc.le (B'.mono j (K - 1) hj.1 (by omega) (by omega)) a3 v
    have d0 : diff ρ r s t j j = 0 := by unfold diff; ring
    rw [d0] at this
    have t0 : thr = 0 := le_antisymm this h0
    -- threshold zero: the bottle itself
    have B := c.block g hn
    have w := (linear_interpolates B hj.1 hj.2).2
    rw [B.hX j hj.1 hj.2, B.hY j hj.1 hj.2, d0, ← t0] at w
    unfold mixedLayer at h
    rw [hb] at h
    dsimp only at h
    rw [w] at h
    simp only [Option.some.injEq, Fl.fin.injEq] at h
    linarith

/-! ### Instances and the surface inversion -/

/-- Density `1000 + s`. -/
def demoEos : Fl ℚ → Fl ℚ → Fl ℚ → Fl ℚ
  | .fin s, .fin _, .fin _ => .fin (1000 + |s|)
  | _, _, _ => .nan

def demoS : Arr (Fl ℚ) := Arr.ofList [.fin 1, .fin 2, .fin 4, .nan]
def demoT : Arr (Fl ℚ) := Arr.ofList [.fin 0, .fin 0, .fin 0, .nan]
def demoP : Arr (Fl ℚ) := Arr.ofList [.fin 0, .fin 10, .fin 20, .fin 30]

/-- The hypotheses above hold for a cast with a NaN bottle at the bottom. -/
example : Gives (fun s _ _ => 1000 + |s|) demoEos ∧ NanEos demoEos ∧
    Cast (fun s _ _ => 1000 + |s|) demoS demoT demoP 0 0 3 1 (fun i => if i = 0 then 1 else if i = 1 then 2 else 4)
      (fun _ => 0) (fun i => 10 * i) ∧ bottle 1 demoS.size = some 1 ∧
    mixedLayer linearInterp1 demoEos demoS demoT demoP (.fin 1) (.fin 0) 1 = some (.fin 15) := by
  refine ⟨.density (fun s _ _ => by have := abs_nonneg s; linarith) (fun _ _ _ => rfl), ?_, ?_, by decide +kernel, by decide +kernel⟩
  · intro x y z h
    rcases h with h | h <;> rw [isNaN_iff] at h <;> subst h
    · rfl
    · cases x <;> rfl
  · have d3 : ∀ i, i < 3 → i = 0 ∨ i = 1 ∨ i = 2 := by intro i h; omega
    refine ⟨by omega, by decide, rfl, ?_, ?_, ?_, by omega, by intro _; left; rfl, by omega, ?_, ?_⟩
    · intro i _ h; rcases d3 i h with h | h | h <;> subst h <;> decide +kernel
    · intro i _ h; rcases d3 i h with h | h | h <;> subst h <;> decide +kernel
    · intro i _ h; rcases d3 i h with h | h | h <;> subst h <;> decide +kernel
    · intro i _ h; push_cast; linarith
    · intro i _ h
      have : i = 0 ∨ i = 1 := by omega
      rcases this with h | h <;> subst h <;> decide +kernel

/-- **C90** (violated) A cast with a slightly denser top bottle has no mixed layer (NaN), although its potential density
does cross the threshold below the reference bottle. -/
theorem mixed_layer_inversion_false : ∃ S T P : Arr (Fl ℚ), S.size = 3 ∧ T.size = 3 ∧ P.size = 3 ∧
    mixedLayer linearInterp1 demoEos S T P (.fin (3 / 100)) (.fin 0) 1 = some .nan ∧
    (dens demoEos S T (.fin 0) 1).get 1 = .fin 0 ∧ (dens demoEos S T (.fin 0) 1).get 2 = .fin 1 :=
  ⟨Arr.ofList [.fin (21 / 20), .fin 1, .fin 2], Arr.ofList [.fin 0, .fin 0, .fin 0], Arr.ofList [.fin 0, .fin 10, .fin 20],
    by decide +kernel⟩

end MixedLayer
