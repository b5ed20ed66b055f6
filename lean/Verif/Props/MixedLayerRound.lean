import Verif.Props.MixedLayer
import Verif.Props.InterpRound
import Verif.Props.EosSolve
import Verif.Props.OmegaRound

/-!
# `mixed_layer` in rounded arithmetic (C171)
-/

set_option linter.unusedSectionVars false

namespace MixedLayer
open FloatLike Interp Traj
variable {rnd : ℝ → ℝ}

/-- The number used as density, given what the equation of state returned: itself, or its reciprocal when the equation of state
gives specific volume. -/
noncomputable def asDens (eos : Rfl rnd → Rfl rnd → Rfl rnd → Rfl rnd) (x : Rfl rnd) : Rfl rnd :=
  if lt (lit 1) (eos (lit (69 / 2)) (lit 3) (lit 1000)) then x else lit 1 / x

/-- What is assumed of an equation of state on a box: the density used is a number within `η` of the exact density `ρ`, which
varies by no more than `W`; NaN in gives NaN out. -/
structure DensBox (rnd : ℝ → ℝ) (b : Box) (eos : Rfl rnd → Rfl rnd → Rfl rnd → Rfl rnd) (ρ : ℝ → ℝ → ℝ → ℝ) (η W : ℝ) : Prop where
  val : ∀ s t p, b.In s t p → ∃ d, asDens eos (eos (Rfl.fin s) (Rfl.fin t) (Rfl.fin p)) = Rfl.fin d ∧ |d - ρ s t p| ≤ η
  width : ∀ s t p s' t' p', b.In s t p → b.In s' t' p' → |ρ s t p - ρ s' t' p'| ≤ W
  nan : ∀ x y z, isNaN x = true ∨ isNaN y = true → isNaN (eos x y z) = true

/-- How far a computed density difference may be from the exact one. -/
noncomputable def diffErr (η W : ℝ) : ℝ := 2 * η + (W + 2 * η) / 2 ^ 53

/-- A cast held in rounded arithmetic, whose valid block `k .. K` is in the box at the reference pressure `r`, has strictly
increasing pressure, a reference bottle `j`, and exact potential density that increases by more than `gap` from bottle to bottle. -/
structure CastR (b : Box) (ρ : ℝ → ℝ → ℝ → ℝ) (gap : ℝ) (S T P : Arr (Rfl rnd)) (r : ℝ) (k K j : ℕ) (s t p : ℕ → ℝ) : Prop where
  two : k + 2 ≤ K
  le : K ≤ S.size
  sizeP : P.size = S.size
  hS : ∀ i, k ≤ i → i < K → S.get i = Rfl.fin (s i)
  hT : ∀ i, k ≤ i → i < K → T.get i = Rfl.fin (t i)
  hP : ∀ i, k ≤ i → i < K → P.get i = Rfl.fin (p i)
  above : ∀ i, i < k → isNaN (S.get i) = true ∨ isNaN (T.get i) = true ∨ isNaN (P.get i) = true
  below : K < S.size → isNaN (S.get K) = true ∨ isNaN (T.get K) = true ∨ isNaN (P.get K) = true
  hj : k ≤ j ∧ j < K
  inside : ∀ i, k ≤ i → i < K → b.In (s i) (t i) r
  incP : ∀ i, k ≤ i → i + 1 < K → p i < p (i + 1)
  incD : ∀ i, k ≤ i → i + 1 < K → ρ (s i) (t i) r + gap < ρ (s (i + 1)) (t (i + 1)) r

variable {b : Box} {eos : Rfl rnd → Rfl rnd → Rfl rnd → Rfl rnd} {ρ : ℝ → ℝ → ℝ → ℝ} {η W : ℝ}
  {S T P : Arr (Rfl rnd)} {r : ℝ} {k K j : ℕ} {s t p : ℕ → ℝ}

theorem dens_asDens (i : ℕ) (x : Rfl rnd) : (dens eos S T x j).get i =
    asDens eos (eos (S.get i) (T.get i) x) - asDens eos (eos (S.get j) (T.get j) x) := by
  unfold dens asDens
  split_ifs <;> rfl

theorem dens_sizeR (x : Rfl rnd) : (dens eos S T x j).size = S.size := by
  unfold dens
  split_ifs <;> rfl

theorem isNaN_iffR {x : Rfl rnd} : isNaN x = true ↔ x = Rfl.qnan := by
  cases x with
  | nan => exact ⟨fun _ => rfl, fun _ => rfl⟩
  | ninf => exact ⟨fun h => absurd h Bool.false_ne_true, fun h => by cases h⟩
  | pinf => exact ⟨fun h => absurd h Bool.false_ne_true, fun h => by cases h⟩
  | fin x => exact ⟨fun h => absurd h Bool.false_ne_true, fun h => by cases h⟩

theorem div_qnan (x : Rfl rnd) : x / Rfl.qnan = Rfl.qnan := by cases x <;> rfl

theorem dens_nanR (H : DensBox rnd b eos ρ η W) {x : Rfl rnd} {i : ℕ} (h : isNaN (S.get i) = true ∨ isNaN (T.get i) = true) :
    isNaN ((dens eos S T x j).get i) = true := by
  have e := isNaN_iffR.mp (H.nan _ _ x h)
  rw [dens_asDens, e, isNaN_iffR]
  have : asDens eos (Rfl.qnan : Rfl rnd) = Rfl.qnan := by
    unfold asDens
    split_ifs
    · rfl
    · exact div_qnan _
  rw [this]
  cases asDens eos (eos (S.get j) (T.get j) x) <;> rfl

theorem not_finite_of_nanR {x : Rfl rnd} (h : isNaN x = true) : isFinite x = false := by
  rw [isNaN_iffR] at h; rw [h]; rfl

/-- The profile that is searched: numbers close to the exact density differences, still strictly increasing. -/
theorem CastR.block (R : StdRound rnd) (H : DensBox rnd b eos ρ η W) {gap : ℝ} (hgap : 2 * diffErr η W ≤ gap)
    (c : CastR b ρ gap S T P r k K j s t p) : ∃ X : ℕ → ℝ,
      BlockR (dens eos S T (Rfl.fin r) j) P k K X p ∧
      ∀ i, k ≤ i → i < K → |X i - diff ρ r s t j i| ≤ diffErr η W := by
  have key : ∀ i, ∃ x, k ≤ i → i < K → (dens eos S T (Rfl.fin r) j).get i = Rfl.fin x ∧ |x - diff ρ r s t j i| ≤ diffErr η W := by
    intro i
    by_cases h : k ≤ i ∧ i < K
    · obtain ⟨d, e1, e2⟩ := H.val _ _ _ (c.inside i h.1 h.2)
      obtain ⟨d', e1', e2'⟩ := H.val _ _ _ (c.inside j c.hj.1 c.hj.2)
      have w := H.width _ _ _ _ _ _ (c.inside i h.1 h.2) (c.inside j c.hj.1 c.hj.2)
      refine ⟨rnd (d - d'), fun _ _ => ⟨?_, ?_⟩⟩
      · rw [dens_asDens, c.hS i h.1 h.2, c.hT i h.1 h.2, c.hS j c.hj.1 c.hj.2, c.hT j c.hj.1 c.hj.2, e1, e1', Rfl.fin_sub]
      · have er := R.err (d - d')
        have h1 : |d - d' - diff ρ r s t j i| ≤ 2 * η := by
          unfold diff
          rw [abs_le] at e2 e2' ⊢
          constructor <;> linarith [e2.1, e2.2, e2'.1, e2'.2]
        have h2 : |d - d'| ≤ W + 2 * η := by
          have := abs_add_le (d - d' - diff ρ r s t j i) (diff ρ r s t j i)
          rw [sub_add_cancel] at this
          unfold diff at this h1
          linarith
        have h3 : |d - d'| / 2 ^ 53 ≤ (W + 2 * η) / 2 ^ 53 := div_le_div_of_nonneg_right h2 (by positivity)
        have := abs_add_le (rnd (d - d') - (d - d')) (d - d' - diff ρ r s t j i)
        rw [sub_add_sub_cancel] at this
        unfold diffErr
        linarith
    · exact ⟨0, fun h1 h2 => absurd ⟨h1, h2⟩ h⟩
  choose X hX using key
  have h2 := c.two
  have hle := c.le
  refine ⟨X, ⟨by rw [dens_sizeR, c.sizeP], ?_, c.two, fun i h1 h2 => (hX i h1 h2).1, c.hP, ?_⟩, fun i h1 h2 => (hX i h1 h2).2⟩
  · apply validRange2_eq (F := Rfl rnd) (by rw [dens_sizeR]; omega) (by omega) (by rw [dens_sizeR]; exact c.le)
    · intro i hi
      rcases c.above i hi with h | h | h
      · exact Or.inl (not_finite_of_nanR (dens_nanR H (Or.inl h)))
      · exact Or.inl (not_finite_of_nanR (dens_nanR H (Or.inr h)))
      · exact Or.inr (not_finite_of_nanR h)
    · rw [(hX k (le_refl _) (by omega)).1, c.hP k (le_refl _) (by omega)]; exact ⟨rfl, rfl⟩
    · intro i h1 h2
      rw [(hX i (by omega) (by omega)).1, c.hP i (by omega) (by omega)]; exact ⟨rfl, rfl⟩
    · intro h
      rw [dens_sizeR] at h
      rcases c.below h with h | h | h
      · exact Or.inl (dens_nanR H (Or.inl h))
      · exact Or.inl (dens_nanR H (Or.inr h))
      · exact Or.inr h
  · intro i h1 h2
    have a1 := (hX i h1 (by omega)).2
    have a2 := (hX (i + 1) (by omega) h2).2
    have a3 := c.incD i h1 h2
    unfold diff at a1 a2
    rw [abs_le] at a1 a2
    linarith [a1.1, a1.2, a2.1, a2.2]

theorem line_close {a d y x δ : ℝ} {a' d' y' : ℝ} (ha : a < a') (hy : y < y') (hx : a ≤ x) (hx' : x ≤ a') (h : |a - d| ≤ δ) (h' : |a' - d'| ≤ δ) :
    ∃ z, z = y + (x - a) * ((y' - y) / (a' - a)) ∧ y ≤ z ∧ z ≤ y' ∧ |d + (z - y) * ((d' - d) / (y' - y)) - x| ≤ δ := by
  have h1 : 0 < a' - a := sub_pos.mpr ha
  have h2 : 0 < y' - y := sub_pos.mpr hy
  obtain ⟨l, hl⟩ : ∃ l, l = (x - a) / (a' - a) := ⟨_, rfl⟩
  have l0 : 0 ≤ l := by rw [hl]; exact div_nonneg (by linarith) h1.le
  have l1 : l ≤ 1 := by rw [hl, div_le_one h1]; linarith
  have ex : x = a + l * (a' - a) := by rw [hl]; field_simp; ring
  have ez : y + (x - a) * ((y' - y) / (a' - a)) = y + l * (y' - y) := by rw [hl]; field_simp
  refine ⟨_, rfl, ?_, ?_, ?_⟩
  · rw [ez]; nlinarith
  · rw [ez]; nlinarith
  · rw [ez]
    have : d + (y + l * (y' - y) - y) * ((d' - d) / (y' - y)) = d + l * (d' - d) := by field_simp; ring
    rw [this, ex]
    rw [abs_le] at h h' ⊢
    constructor <;> nlinarith [h.1, h.2, h'.1, h'.2]

/-- **C171** `mixed_layer` in floating point, for a cast whose exact potential density increases by more than `2 e` from bottle to bottle, `e`
the error of a computed density difference.  The result is NaN, and then the threshold is outside the exact range of density
differences or within `e` of its ends; or it is a pressure that differs, by no more than the rounding of an interpolation, from a pressure
`z` of the cast at which the exact, linearly interpolated density difference is within `e` of the threshold.  A threshold outside
the range by more than `e` does give NaN. -/
theorem mixed_layer_rounded (R : StdRound rnd) (H : DensBox rnd b eos ρ η W) (c : CastR b ρ (2 * diffErr η W) S T P r k K j s t p) {bi : ℤ}
    (hb : bottle bi S.size = some j) (thr : ℝ) :
    ((mixedLayer linearInterp1 eos S T P (Rfl.fin thr) (Rfl.fin r) bi = some Rfl.qnan ∧
        (thr < diff ρ r s t j k + diffErr η W ∨ diff ρ r s t j (K - 1) - diffErr η W < thr)) ∨
      ∃ x z i, mixedLayer linearInterp1 eos S T P (Rfl.fin thr) (Rfl.fin r) bi = some (Rfl.fin x) ∧ k ≤ i ∧ i + 1 < K ∧
        p i ≤ z ∧ z ≤ p (i + 1) ∧ |x - z| ≤ (15 * (p (i + 1) - p i) + max |p i| |p (i + 1)|) / 2 ^ 53 ∧
        |lineThrough p (diff ρ r s t j) i z - thr| ≤ diffErr η W) ∧
    (thr < diff ρ r s t j k - diffErr η W ∨ diff ρ r s t j (K - 1) + diffErr η W < thr →
      mixedLayer linearInterp1 eos S T P (Rfl.fin thr) (Rfl.fin r) bi = some Rfl.qnan) := by
  obtain ⟨X, B, hX⟩ := c.block R H le_rfl
  have htwo := c.two
  have e : mixedLayer linearInterp1 eos S T P (Rfl.fin thr) (Rfl.fin r) bi =
      linearInterp1 (Rfl.fin thr) (dens eos S T (Rfl.fin r) j) P 0 := by
    unfold mixedLayer; rw [hb]
  rw [e]
  obtain ⟨inn, out⟩ := linear_rounded R B thr
  have hk := abs_le.mp (hX k (le_refl _) (by omega))
  have hK := abs_le.mp (hX (K - 1) (by omega) (by omega))
  constructor
  · by_cases h : X k ≤ thr ∧ thr ≤ X (K - 1)
    · right
      obtain ⟨i, v, i1, i2, i3, i4, _, hv, herr⟩ := inn h
      obtain ⟨z, z1, z2, z3, z4⟩ := line_close (Block.inc B i i1 i2) (c.incP i i1 i2) i3 i4 (hX i i1 (by omega)) (hX (i + 1) (by omega) i2)
      rw [abs_of_pos (sub_pos.mpr (c.incP i i1 i2))] at herr
      refine ⟨v, z, i, hv, i1, i2, z2, z3, ?_, z4⟩
      rw [z1]
      exact herr
    · left
      refine ⟨(out h).2, ?_⟩
      by_contra hc
      push Not at hc
      exact h ⟨by linarith [hk.2, hc.1], by linarith [hK.1, hc.2]⟩
  · intro h
    apply (out _).2
    rintro ⟨h1, h2⟩
    rcases h with h | h
    · linarith [hk.1]
    · linarith [hK.2]

end MixedLayer

section Eos
open FloatLike Eos Traj MixedLayer
variable {rnd : ℝ → ℝ}

theorem Rfl.add_qnan (x : Rfl rnd) : x + Rfl.qnan = Rfl.qnan := by cases x <;> rfl
theorem Rfl.qnan_mul (x : Rfl rnd) : Rfl.qnan * x = Rfl.qnan := by cases x <;> rfl
theorem Rfl.mul_qnan (x : Rfl rnd) : x * Rfl.qnan = Rfl.qnan := by cases x <;> rfl
theorem Rfl.qnan_add' (x : Rfl rnd) : Rfl.qnan + x = Rfl.qnan := by cases x <;> rfl
theorem Rfl.sub_qnan' (x : Rfl rnd) : x - Rfl.qnan = Rfl.qnan := by cases x <;> rfl

/-- The bottle at which `mixed_layer` tests what kind of equation of state it was given. -/
theorem MixedLayer.probe_in (R : StdRound rnd) {t0 : ℝ} (h : t0 ≤ 2) :
    (oceanBox t0).In (rnd ((69 / 2 : ℚ) : ℝ)) (rnd ((3 : ℚ) : ℝ)) (rnd ((1000 : ℚ) : ℝ)) := by
  have h1 := abs_le.mp (R.err ((69 / 2 : ℚ) : ℝ))
  have h2 := abs_le.mp (R.err ((3 : ℚ) : ℝ))
  have h3 := abs_le.mp (R.err ((1000 : ℚ) : ℝ))
  push_cast at *
  norm_num [abs_of_pos] at h1 h2 h3
  unfold oceanBox Box.In
  norm_num
  refine ⟨?_, ?_, ?_, ?_, ?_, ?_⟩ <;> linarith [h1.1, h1.2, h2.1, h2.2, h3.1, h3.2]

theorem MixedLayer.lit_one_le (R : StdRound rnd) : rnd ((1 : ℚ) : ℝ) ≤ 2 ∧ 1 / 2 ≤ rnd ((1 : ℚ) : ℝ) := by
  have h1 := abs_le.mp (R.err ((1 : ℚ) : ℝ))
  push_cast at *
  norm_num at h1
  constructor <;> linarith [h1.1, h1.2]

/-- An equation of state for density, on the box of the ocean. -/
theorem MixedLayer.of_box (R : StdRound rnd) {t0 : ℝ} (ht : t0 ≤ 2) (ht' : -2 ≤ t0) {eos : Rfl rnd → Rfl rnd → Rfl rnd → Rfl rnd} {e E : ℝ → ℝ → ℝ → ℝ} {η Ls Lt Lp : ℝ}
    (H : EosBox rnd (oceanBox t0) eos e E η Ls Lt Lp) (hη : η ≤ 1) (hd : ∀ s t p, (oceanBox t0).In s t p → 4 ≤ E s t p)
    (hn : ∀ x y z, isNaN x = true ∨ isNaN y = true → isNaN (eos x y z) = true) :
    DensBox rnd (oceanBox t0) eos E η (Ls * 42 + Lt * 42 + Lp * 10000) := by
  have c : lt (lit 1) (eos (lit (69 / 2)) (lit 3) (lit 1000)) = true := by
    have hp := probe_in R ht
    rw [Rfl.lit_eq, Rfl.lit_eq, Rfl.lit_eq, Rfl.lit_eq, H.val _ _ _ hp, Rfl.lt_fin, decide_eq_true_eq]
    have h1 := abs_le.mp (H.close _ _ _ hp)
    have h2 := hd _ _ _ hp
    have h3 := (lit_one_le R).1
    generalize e _ _ _ = x at *
    generalize E _ _ _ = y at *
    generalize rnd ((1 : ℚ) : ℝ) = z at *
    linarith [h1.1]
  refine ⟨fun s t p h => ⟨e s t p, ?_, H.close s t p h⟩, fun s t p s' t' p' h h' => ?_, hn⟩
  · unfold asDens
    rw [if_pos c]
    exact H.val s t p h
  · refine (H.lip _ _ _ _ _ _ h h').trans ?_
    obtain ⟨a1, a2, a3, a4, a5, a6⟩ := h
    obtain ⟨b1, b2, b3, b4, b5, b6⟩ := h'
    simp only [oceanBox] at *
    have l1 := mul_le_mul_of_nonneg_left (abs_le.mpr ⟨by linarith, by linarith⟩ : |s - s'| ≤ 42) H.ls
    have l2 := mul_le_mul_of_nonneg_left (abs_le.mpr ⟨by linarith, by linarith⟩ : |t - t'| ≤ 42) H.lt
    have l3 := mul_le_mul_of_nonneg_left (abs_le.mpr ⟨by linarith, by linarith⟩ : |p - p'| ≤ 10000) H.lp
    linarith

theorem Jmd95.eosR_nan (x y z : Rfl rnd) (h : isNaN x = true ∨ isNaN y = true) : isNaN (Jmd95.eosR rnd x y z) = true := by
  have hs : FloatSqrt.sqrt (Rfl.qnan : Rfl rnd) = Rfl.qnan := rfl
  have key : Jmd95.bulkLit lit (FloatSqrt.sqrt x) x y z = Rfl.qnan := by
    simp only [isNaN_iffR] at h
    rcases h with rfl | rfl
    · simp only [hs, Jmd95.bulkLit, Rfl.qnan_add', Rfl.add_qnan, Rfl.qnan_mul, Rfl.mul_qnan]
    · simp only [Jmd95.bulkLit, Rfl.qnan_add', Rfl.add_qnan, Rfl.qnan_mul, Rfl.mul_qnan]
  have sd : ∀ w : Rfl rnd, Interp.sdiv w Rfl.qnan = some Rfl.qnan := fun w => by
    unfold Interp.sdiv
    rw [div_qnan]
    rfl
  unfold Jmd95.eosR Jmd95.rho
  simp only [key, sd, Option.bind_eq_bind, Option.bind_some, Rfl.sub_qnan', Option.getD_some]
  rfl

theorem Jmdfwg06.eosR_nan (x y z : Rfl rnd) (h : isNaN x = true ∨ isNaN y = true) : isNaN (Jmdfwg06.eosR rnd x y z) = true := by
  have hs : FloatSqrt.sqrt (Rfl.qnan : Rfl rnd) = Rfl.qnan := rfl
  have key : Jmdfwg06.den Jmdfwg06.cf (FloatSqrt.sqrt x) x y z (y * y) = Rfl.qnan := by
    simp only [isNaN_iffR] at h
    rcases h with rfl | rfl
    · simp only [hs, Jmdfwg06.den, Rfl.qnan_add', Rfl.add_qnan, Rfl.qnan_mul, Rfl.mul_qnan]
    · simp only [Jmdfwg06.den, Rfl.qnan_add', Rfl.add_qnan, Rfl.qnan_mul, Rfl.mul_qnan]
  have sd : ∀ w : Rfl rnd, Interp.sdiv w Rfl.qnan = some Rfl.qnan := fun w => by
    unfold Interp.sdiv
    rw [div_qnan]
    rfl
  unfold Jmdfwg06.eosR Jmdfwg06.rho
  simp only [key, sd, Option.bind_eq_bind, Option.bind_some, Option.pure_def, Rfl.mul_qnan, Option.getD_some]
  rfl

theorem Gsw.specvol_nanR (x y z : Rfl rnd) (h : isNaN x = true ∨ isNaN y = true) : isNaN (Gsw.specvol x y z) = true := by
  have hs : FloatSqrt.sqrt (Rfl.qnan : Rfl rnd) = Rfl.qnan := rfl
  rw [isNaN_iffR]
  simp only [isNaN_iffR] at h
  rcases h with rfl | rfl
  · have hm : Gsw.max0 (Rfl.qnan : Rfl rnd) = Rfl.qnan := rfl
    simp only [Gsw.specvol, Gsw.process, hm, hs, Gsw.pSpecvol, Rfl.qnan_add', Rfl.add_qnan, Rfl.qnan_mul, Rfl.mul_qnan]
  · simp only [Gsw.specvol, Gsw.process, Gsw.pSpecvol, Rfl.qnan_add', Rfl.add_qnan, Rfl.qnan_mul, Rfl.mul_qnan]

/-- **C171** The assumptions of `mixed_layer_rounded` hold of the three equations of state on the oceanographic range: the error of a
density difference is 2.1e-12 kg/m³ for jmd95, 6.5e-12 for jmdfwg06 and 5.7e-11 for gsw (whose specific volume is inverted). -/
theorem MixedLayer.eos_dens (R : StdRound rnd) :
    (∃ η W, DensBox rnd (oceanBox (-2)) (Jmd95.eosR rnd) Jmd95.density η W ∧ diffErr η W ≤ 2.1e-12) ∧
    (∃ η W, DensBox rnd (oceanBox (-2)) (Jmdfwg06.eosR rnd) Jmdfwg06.density η W ∧ diffErr η W ≤ 6.5e-12) ∧
    ∃ η W, DensBox rnd (oceanBox (-6)) Gsw.specvol (fun s t p => 1 / Gsw.tab 0 0 0 s t p) η W ∧ diffErr η W ≤ 5.7e-11 := by
  refine ⟨?_, ?_, ?_⟩
  · obtain ⟨e, H⟩ := Jmd95.box R
    refine ⟨_, _, of_box R (by norm_num) le_rfl H (by norm_num) (fun s t p h => ?_) Jmd95.eosR_nan, by norm_num [diffErr]⟩
    have h' := Jmd95.inOcean h
    obtain ⟨h1, h2, _, _, h3, _⟩ := h'.bounds
    have hp := h'.p0
    unfold Jmd95.density
    rw [le_div_iff₀]
    · have : (0 : ℝ) ≤ p / Jmd95.K s t p := div_nonneg hp (by linarith)
      linarith
    · rw [sub_pos, div_lt_one (by linarith)]
      linarith
  · obtain ⟨e, H⟩ := Jmdfwg06.box R
    refine ⟨_, _, of_box R (by norm_num) le_rfl H (by norm_num) (fun s t p h => ?_) Jmdfwg06.eosR_nan, by norm_num [diffErr]⟩
    have h' := Jmdfwg06.inOcean h
    obtain ⟨h1, h2, _⟩ := h'.bounds
    unfold Jmdfwg06.density
    rw [le_div_iff₀ h1]
    linarith
  · obtain ⟨e, H⟩ := Gsw.box R
    have hl := lit_one_le R
    have c : lt (lit 1) (Gsw.specvol (lit (69 / 2)) (lit 3) (lit 1000) : Rfl rnd) = false := by
      have hp := probe_in R (t0 := -6) (by norm_num)
      rw [Rfl.lit_eq, Rfl.lit_eq, Rfl.lit_eq, Rfl.lit_eq, H.val _ _ _ hp, Rfl.lt_fin, decide_eq_false_iff_not, not_lt]
      have h1 := abs_le.mp (H.close _ _ _ hp)
      have h2 := (Gsw.inOcean hp).bounds.1.2
      norm_num at h1 h2
      linarith [h1.2]
    have rd : ∀ s t p, (oceanBox (-6)).In s t p → 980 ≤ 1 / Gsw.tab 0 0 0 s t p ∧ 1 / Gsw.tab 0 0 0 s t p ≤ 1112 := by
      intro s t p h
      obtain ⟨h1, h2⟩ := (Gsw.inOcean h).bounds.1
      have h0 : 0 < Gsw.tab 0 0 0 s t p := by linarith
      rw [le_div_iff₀ h0, div_le_iff₀ h0]
      norm_num at h1 h2
      constructor <;> linarith
    refine ⟨2.82e-11, 132, ⟨fun s t p h => ⟨rnd (rnd ((1 : ℚ) : ℝ) / e s t p), ?_, ?_⟩, fun s t p s' t' p' h h' => ?_, Gsw.specvol_nanR⟩, by norm_num [diffErr]⟩
    · unfold asDens
      rw [c, H.val s t p h, Rfl.lit_eq]
      refine Rfl.fin_div _ _ ?_
      have h1 := abs_le.mp (H.close _ _ _ h)
      have h2 := (Gsw.inOcean h).bounds.1.1
      norm_num at h1 h2
      linarith [h1.1]
    · have h1 := abs_le.mp (H.close _ _ _ h)
      have h2 := (Gsw.inOcean h).bounds.1.1
      obtain ⟨r1, r2⟩ := rd s t p h
      have o := abs_le.mp (R.err ((1 : ℚ) : ℝ))
      have er := R.err (rnd ((1 : ℚ) : ℝ) / e s t p)
      generalize rnd (rnd ((1 : ℚ) : ℝ) / e s t p) = y at *
      generalize rnd ((1 : ℚ) : ℝ) = u at *
      generalize Gsw.tab 0 0 0 s t p = V at *
      generalize e s t p = v at *
      norm_num at o
      norm_num at h1 h2
      have V0 : 0 < V := by linarith
      have v0 : 0.00089999 < v := by norm_num; linarith [h1.1]
      have v0' : 0 < v := by linarith
      have k1 : |u / v - 1 / V| ≤ 2.79e-11 := by
        have e1 : u / v - 1 / V = (u - 1) / v + (V - v) / (v * V) := by field_simp; ring
        rw [e1]
        refine (abs_add_le _ _).trans ?_
        have k2 : |(u - 1) / v| ≤ 1.3e-13 := by
          rw [abs_div, abs_of_pos v0', div_le_iff₀ v0']
          have : |u - 1| ≤ 1 / 2 ^ 53 := by rw [abs_le]; norm_num; constructor <;> linarith [o.1, o.2]
          norm_num at this v0 ⊢
          linarith
        have k3 : |(V - v) / (v * V)| ≤ 2.73e-11 := by
          rw [abs_div, abs_of_pos (mul_pos v0' V0), div_le_iff₀ (mul_pos v0' V0)]
          have a1 : |V - v| ≤ 2.2e-17 := by rw [abs_le]; norm_num; constructor <;> linarith [h1.1, h1.2]
          have a2 : (0.00089999 : ℝ) * 0.0009 ≤ v * V := by
            apply mul_le_mul v0.le _ (by norm_num) v0'.le
            norm_num; linarith
          norm_num at a1 a2 ⊢
          linarith
        norm_num at k2 k3 ⊢
        linarith
      have k4 : |u / v| ≤ 1113 := by
        rw [abs_le] at k1 ⊢
        obtain ⟨k1, k1'⟩ := k1
        norm_num at k1 k1' r1 r2
        constructor <;> linarith
      have k5 : |u / v| / 2 ^ 53 ≤ 1113 / 2 ^ 53 := div_le_div_of_nonneg_right k4 (by positivity)
      have := abs_add_le (y - u / v) (u / v - 1 / V)
      rw [sub_add_sub_cancel] at this
      norm_num at k1 k5 er ⊢
      norm_num at this
      linarith
    · have := rd _ _ _ h
      have := rd _ _ _ h'
      rw [abs_le]
      constructor <;> linarith

end Eos

/-! ## Examples -/

namespace MixedLayer
open FloatLike Traj Interp PolyBox

/-- Fresher above saltier water of the same temperature: jmd95 increases by more than 0.4 kg/m³ per unit of salinity. -/
theorem exGap {s s' : ℝ} (h : 0 ≤ s) (hs : s < s') (h' : s' ≤ 42) : Jmd95.density s 10 0 + 0.4 * (s' - s) < Jmd95.density s' 10 0 := by
  have hO : ∀ x, x ∈ Set.Icc (0 : ℝ) 42 → Jmd95.Ocean x 10 0 := fun x hx =>
    ⟨hx.1, hx.2, by norm_num, by norm_num, by norm_num, by norm_num⟩
  have : StrictMonoOn (fun s => Jmd95.density s 10 0 - 0.4 * s) (Set.Icc 0 42) :=
    strictMonoOn_of (f' := fun s => Jmd95.dS s 10 0 - 0.4 * 1) (S := Set.Ici 0) (fun x hx => hx.1) fun x hx =>
      ⟨(Jmd95.density_deriv_s hx.1 (hO x hx).ne.1 (hO x hx).ne.2).sub ((hasDerivWithinAt_id x _).const_mul 0.4), by
        have := (hO x hx).derivs.1.1
        norm_num at this ⊢
        linarith⟩
  have := this ⟨h, by linarith⟩ ⟨by linarith, h'⟩ hs
  simp only at this
  linarith

/-- A cast with a NaN at the top and salinities 34, 35, 36 at 100, 200, 300 dbar. -/
noncomputable def exS (rnd : ℝ → ℝ) : Arr (Rfl rnd) := ⟨4, fun i => if i = 0 then Rfl.qnan else Rfl.fin (33 + i)⟩
noncomputable def exT (rnd : ℝ → ℝ) : Arr (Rfl rnd) := ⟨4, fun _ => Rfl.fin 10⟩
noncomputable def exP (rnd : ℝ → ℝ) : Arr (Rfl rnd) := ⟨4, fun i => Rfl.fin (100 * i)⟩

theorem exCastR (rnd : ℝ → ℝ) {gap : ℝ} (hg : gap ≤ 0.4) : CastR (oceanBox (-2)) Jmd95.density gap (exS rnd) (exT rnd) (exP rnd) 0 1 4 1
    (fun i => 33 + i) (fun _ => 10) (fun i => 100 * i) := by
  refine ⟨by norm_num, le_rfl, rfl, fun i h1 _ => ?_, fun i _ _ => rfl, fun i _ _ => rfl, fun i hi => ?_, fun h => absurd h (lt_irrefl 4), by norm_num,
    fun i _ h => ?_, fun i _ _ => ?_, fun i h1 h2 => ?_⟩
  · show (if i = 0 then _ else _) = _
    rw [if_neg (by omega)]
  · left
    rw [show i = 0 by omega]
    rfl
  · have : (i : ℝ) ≤ 4 := by exact_mod_cast h.le
    have h0 : (0 : ℝ) ≤ i := Nat.cast_nonneg i
    unfold oceanBox Box.In
    norm_num
    constructor <;> linarith
  · push_cast; linarith
  · have : (i : ℝ) + 1 ≤ 4 := by exact_mod_cast h2.le
    have h0 : (0 : ℝ) ≤ i := Nat.cast_nonneg i
    have := exGap (s := 33 + i) (s' := 33 + (i + 1 : ℕ)) (by linarith) (by push_cast; linarith) (by push_cast; linarith)
    push_cast at this ⊢
    norm_num at this hg ⊢
    linarith

/-- jmd95 in IEEE arithmetic: with a threshold of 0.1 kg/m³ relative to the shallowest bottle the mixed layer is a number: NaN is
possible only for thresholds close to the ends of the range. -/
example : ∃ (x z : ℝ) (i : ℕ), mixedLayer linearInterp1 (Jmd95.eosR Rounding53.rndNear) (exS _) (exT _) (exP _) (Rfl.fin 0.1) (Rfl.fin 0) 1 = some (Rfl.fin x) ∧
    1 ≤ i ∧ i + 1 < 4 ∧ (100 : ℝ) * i ≤ z ∧ z ≤ 100 * (i + 1 : ℕ) ∧ |x - z| ≤ 1e-12 ∧
    |lineThrough (fun i : ℕ => (100 * i : ℝ)) (diff Jmd95.density 0 (fun i => 33 + i) (fun _ => 10) 1) i z - 0.1| ≤ 2.1e-12 := by
  have R : StdRound (Rounding53.rndNear (α := ℝ)) := Rounding53.rndNear_bin.toStdRound
  obtain ⟨η, W, H, he⟩ := (eos_dens R).1
  have hb : bottle 1 (exS (Rounding53.rndNear)).size = some 1 := by decide
  rcases (mixed_layer_rounded R H (exCastR _ (by norm_num at he ⊢; linarith)) hb 0.1).1 with ⟨_, h⟩ | ⟨x, z, i, h1, h2, h3, h4, h5, h6, h7⟩
  · exfalso
    have e1 : diff Jmd95.density 0 (fun i => 33 + i) (fun _ => 10) 1 1 = 0 := by unfold diff; ring
    have e2 : 0.8 < diff Jmd95.density 0 (fun i => 33 + i) (fun _ => 10) 1 (4 - 1) := by
      have := exGap (s := 33 + (1 : ℕ)) (s' := 33 + (3 : ℕ)) (by norm_num) (by norm_num) (by norm_num)
      unfold diff
      norm_num at this ⊢
      linarith
    rw [e1] at h
    norm_num at he e2 h
    rcases h with h | h <;> linarith
  · refine ⟨x, z, i, h1, h2, h3, h4, h5, h6.trans ?_, h7.trans he⟩
    have : (i : ℝ) + 1 ≤ 3 := by exact_mod_cast (by omega : i + 1 ≤ 3)
    have h0 : (0 : ℝ) ≤ i := Nat.cast_nonneg i
    push_cast
    rw [abs_of_nonneg (by positivity), abs_of_nonneg (by positivity), max_eq_right (by linarith)]
    norm_num
    linarith

end MixedLayer
