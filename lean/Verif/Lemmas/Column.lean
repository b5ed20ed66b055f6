import Verif.Props.Interp
import Verif.Props.Fzero
import Verif.Model.VertSolve

/-! # Interpolated water columns: continuity, and equality of the trimmed and the public interpolation -/

set_option linter.unusedSectionVars false

namespace Traj
open FloatLike Fzero Interp
open Fl hiding nan

variable {F : Type*} [FloatLike F]

/-- The public interpolation function of the library, `make_pp(interp, kind="1", out="interp")`
(`/repo/neutralocean/ppinterp/tools.py` lines 41-65), with `d = 0`. -/
def interpAt : PPKind → F → Arr F → Arr F → Option F
  | .linear, x, X, Y => linearInterp1 x X Y 0
  | .pchip, x, X, Y => pchipInterp1 x X Y 0

/-- One variable of a cast: data `y` at pressures `a` at the sites `k ≤ i < K`; NaN before and right after. -/
structure Col (X Y : Arr (Fl ℝ)) (k K : ℕ) (a y : ℕ → ℝ) : Prop where
  size : Y.size = X.size
  two : k + 2 ≤ K
  le : K ≤ X.size
  before : ∀ i, i < k → X.get i = Fl.nan ∨ Y.get i = Fl.nan
  after : K < X.size → X.get K = Fl.nan ∨ Y.get K = Fl.nan
  hX : ∀ i, k ≤ i → i < K → X.get i = fin (a i)
  hY : ∀ i, k ≤ i → i < K → Y.get i = fin (y i)
  inc : ∀ i, k ≤ i → i + 1 < K → a i < a (i + 1)

variable {X Y : Arr (Fl ℝ)} {k K : ℕ} {a y : ℕ → ℝ}

theorem finite_not_nan : ∀ x : Fl ℝ, isFinite x = true → isNaN x = false := by intro x; cases x <;> simp

/-- The valid range, whichever of the two arrays comes first. -/
theorem Col.vr (C : Col X Y k K a y) : validRange2 X Y = (k, K) ∧ validRange2 Y X = (k, K) := by
  have h2 := C.two
  have hle := C.le
  have hs := C.size
  constructor
  · apply validRange2_eq (by omega) (by omega) hle
    · intro i hi; rcases C.before i hi with h | h <;> rw [h] <;> simp
    · rw [C.hX k (le_refl _) (by omega), C.hY k (le_refl _) (by omega)]; simp
    · intro i h1 h2; rw [C.hX i (by omega) h2, C.hY i (by omega) h2]; simp
    · intro h; rcases C.after h with h | h <;> rw [h] <;> simp
  · apply validRange2_eq (by omega) (by omega) (by omega)
    · intro i hi; rcases C.before i hi with h | h <;> rw [h] <;> simp
    · rw [C.hX k (le_refl _) (by omega), C.hY k (le_refl _) (by omega)]; simp
    · intro i h1 h2; rw [C.hX i (by omega) h2, C.hY i (by omega) h2]; simp
    · intro h; rcases C.after (by omega) with h | h <;> rw [h] <;> simp

/-- The trimmed arrays form a block without NaNs. -/
theorem Col.block (C : Col X Y k K a y) :
    Block (X.slice k K) (Y.slice k K) 0 (K - k) (fun i => a (k + i)) (fun i => y (k + i)) := by
  have h2 := C.two
  refine ⟨rfl, ?_, by omega, ?_, ?_, ?_⟩
  · apply validRange2_eq
    · show 0 < K - k; omega
    · omega
    · exact le_refl _
    · intro i hi; omega
    · show isFinite (X.get (k + 0)) = true ∧ isFinite (Y.get (k + 0)) = true
      rw [C.hX _ (by omega) (by omega), C.hY _ (by omega) (by omega)]; simp
    · intro i h1 h3
      show isNaN (X.get (k + i)) = false ∧ isNaN (Y.get (k + i)) = false
      rw [C.hX _ (by omega) (by omega), C.hY _ (by omega) (by omega)]; simp
    · intro h; exact absurd h (lt_irrefl (K - k))
  · intro i _ h; exact C.hX _ (by omega) (by omega)
  · intro i _ h; exact C.hY _ (by omega) (by omega)
  · intro i _ h; exact C.inc (k + i) (by omega) (by omega)

theorem Col.padded (C : Col X Y k K a y) : Padded (X.slice k K) (Y.slice k K) X Y k := by
  have h2 := C.two
  have hle := C.le
  have e : k + (X.slice k K).size = K := by show k + (K - k) = K; omega
  refine ⟨rfl, C.size, by rw [e]; exact hle, fun i _ => rfl, fun i _ => rfl, ?_, ?_⟩
  · intro j hj; rcases C.before j hj with h | h <;> rw [h] <;> simp
  · rw [e]; intro h; rcases C.after h with h | h <;> rw [h] <;> simp

/-- Continuous pieces that agree make a continuous function. -/
theorem glue {a : ℕ → ℝ} {g : ℝ → ℝ} (n : ℕ) (hinc : ∀ i, i < n → a i ≤ a (i + 1))
    (h : ∀ i, i < n → ContinuousOn g (Set.Icc (a i) (a (i + 1)))) :
    a 0 ≤ a n ∧ ContinuousOn g (Set.Icc (a 0) (a n)) := by
  induction n with
  | zero => exact ⟨le_refl _, by rw [Set.Icc_self]; exact continuousOn_singleton _ _⟩
  | succ n ih =>
    obtain ⟨h1, h2⟩ := ih (fun i hi => hinc i (by omega)) (fun i hi => h i (by omega))
    refine ⟨h1.trans (hinc n (by omega)), ?_⟩
    rw [← Set.Icc_union_Icc_eq_Icc h1 (hinc n (by omega))]
    exact h2.union_of_isClosed (h n (by omega)) isClosed_Icc isClosed_Icc

theorem nan_add_or (a b : Fl ℝ) (h : isNaN a = true ∨ isNaN b = true) : isNaN (a + b) = true := by
  rcases h with h | h
  · rw [(isNaN_iff a).mp h]; simp
  · rw [(isNaN_iff b).mp h]; simp

theorem Col.a_le (C : Col X Y k K a y) : a k ≤ a (K - 1) := by
  have h2 := C.two
  have := C.block.mono 0 (K - k - 1) (le_refl _) (by omega) (by omega)
  rw [add_zero, show k + (K - k - 1) = K - 1 by omega] at this
  exact this

/-- What is known of a coefficient table `T` of a column, with the values `V i` on each piece. -/
structure Table (kind : PPKind) (X Y : Arr (Fl ℝ)) (k K : ℕ) (a y : ℕ → ℝ) (T : PPC (Fl ℝ)) (V : ℕ → ℝ → ℝ) : Prop where
  made : ppcFn kind (X.slice k K) (Y.slice k K) = some T
  last : T.lastCol.get = (Y.slice k K).get
  sz : T.size = K - k
  pub : ∀ x, interpAt kind x X Y = some (ppval1 x (X.slice k K) T 0)
  val : ∀ i x, i + 1 < K - k → a (k + i) ≤ x → x ≤ a (k + i + 1) → ppval1 (fin x) (X.slice k K) T 0 = fin (V i x)
  cont : ∀ i, Continuous (V i)
  v0 : ∀ i, i + 1 < K - k → V i (a (k + i)) = y (k + i)
  v1 : ∀ i, i + 1 < K - k → V i (a (k + i + 1)) = y (k + i + 1)
  btw : ∀ i x, i + 1 < K - k → a (k + i) ≤ x → x ≤ a (k + i + 1) →
          min (y (k + i)) (y (k + i + 1)) ≤ V i x ∧ V i x ≤ max (y (k + i)) (y (k + i + 1))

theorem Col.none (C : Col X Y k K a y) :
    (∀ i, i < (X.slice k K).size → isFinite ((X.slice k K).get i) = false ∨ isFinite ((Y.slice k K).get i) = false) →
      ∀ i, i < X.size → isFinite (X.get i) = false ∨ isFinite (Y.get i) = false := by
  have h2 := C.two
  have B := C.block
  intro h
  have := h 0 (by show 0 < K - k; omega)
  rw [B.hX 0 (by omega) (by omega), B.hY 0 (by omega) (by omega)] at this
  simp at this

theorem Col.tableLinear (C : Col X Y k K a y) : ∃ T V, Table .linear X Y k K a y T V := by
  have h2 := C.two
  have hle := C.le
  have B := C.block
  have hfn := finite_not_nan
  have hnone := C.none
  refine ⟨linearCoeffs1 (X.slice k K) (Y.slice k K),
    fun i x => y (k + i) + (x - a (k + i)) * ((y (k + i + 1) - y (k + i)) / (a (k + i + 1) - a (k + i))),
    rfl, by rw [linearCoeffs1_lastCol], rfl, ?_, ?_, ?_, ?_, ?_, ?_⟩
  · intro x
    have e := linear_padding hfn C.padded hnone x 0
    show linearInterp1 x X Y 0 = _
    rw [e]
    have : ∃ v, linearInterp1 x (X.slice k K) (Y.slice k K) 0 = some v := by
      cases x with
      | fin z =>
        by_cases hz : a k ≤ z ∧ z ≤ a (K - 1)
        · have ho := (B.outside_iff z).mpr ⟨hz.1, by
            show z ≤ a (k + (K - k - 1)); rw [show k + (K - k - 1) = K - 1 by omega]; exact hz.2⟩
          obtain ⟨e1, e2, e3, e4, _⟩ := pieceIndex_bracket B.hX B.mono ho
          exact ⟨_, (linear_chord B e1 (by omega) e3 e4).2.1⟩
        · refine ⟨Fl.nan, ?_⟩
          unfold linearInterp1 ppinterp1
          simp only [B.vr]
          have ho : outside (X.slice k K) 0 (K - k) (fin z) = true := by
            rcases Bool.eq_false_or_eq_true (outside (X.slice k K) 0 (K - k) (fin z)) with h | h
            · exact h
            · exfalso
              obtain ⟨e1, e2⟩ := (B.outside_iff z).mp h
              rw [show k + (K - k - 1) = K - 1 by omega] at e2
              exact hz ⟨e1, e2⟩
          rw [if_pos ho]; rfl
      | nan =>
        refine ⟨Fl.nan, ?_⟩
        unfold linearInterp1 ppinterp1 outside
        simp
      | ninf =>
        refine ⟨Fl.nan, ?_⟩
        unfold linearInterp1 ppinterp1 outside
        simp only [B.vr]
        rw [B.hX 0 (le_refl _) (by omega)]
        simp
      | pinf =>
        refine ⟨Fl.nan, ?_⟩
        unfold linearInterp1 ppinterp1 outside
        simp only [B.vr]
        rw [B.hX (K - k - 1) (by omega) (by omega)]
        have : lt (fin (a (k + (K - k - 1)))) Fl.pinf = true := rfl
        rw [this]; simp
    obtain ⟨v, hv⟩ := this
    rw [hv, linear_onthefly_eq_table (X := X.slice k K) (Y := Y.slice k K) rfl x 0 hv]
  · intro i x h1 hx hx'
    exact (linear_chord B (Nat.zero_le i) h1 hx hx').1
  · intro i; fun_prop
  · intro i h1; simp
  · intro i h1
    have := C.inc (k + i) (by omega) (by omega)
    have : a (k + i + 1) - a (k + i) ≠ 0 := by linarith
    field_simp
    ring
  · intro i x h1 hx hx'
    obtain ⟨v, hv, e1, e2⟩ := linear_between B (Nat.zero_le i) h1 hx hx'
    have := (linear_chord B (Nat.zero_le i) h1 hx hx').1
    rw [hv] at this
    have := Fl.fin.inj this
    subst this
    exact ⟨e1, e2⟩

theorem Col.tablePchip (C : Col X Y k K a y) : ∃ T V, Table .pchip X Y k K a y T V := by
  have h2 := C.two
  have hle := C.le
  have B := C.block
  have hfn := finite_not_nan
  have hnone := C.none
  obtain ⟨T, d, hT, hok, hrow⟩ := B.pchip
  have hT' : pchipCoeffs1Nonan (X.slice k K) (Y.slice k K) = some T := by
    rw [pchipNonan_eq, hT]
    · show 0 < K - k; omega
    · rw [B.hX 0 (by omega) (by omega), B.hY 0 (by omega) (by omega)]; simp
    · intro i h1 h3
      rw [B.hX i (by omega) h3, B.hY i (by omega) h3]; simp
  refine ⟨T, fun i x => hermV (a (k + i + 1) - a (k + i)) (chord (fun i => a (k + i)) (fun i => y (k + i)) i) (d i) (d (i + 1)) (y (k + i)) (x - a (k + i)),
    hT', (pchipAux_spec hT).2, (pchipAux_spec hT).1, ?_, ?_, ?_, ?_, ?_, ?_⟩
  · intro x
    have e := pchip_padding hfn nan_add_or C.padded hnone x 0
    show pchipInterp1 x X Y 0 = _
    rw [e]
    refine pchip_onthefly_eq_table (X := X.slice k K) (Y := Y.slice k K) ?_ ?_ rfl hT x 0
    · intro a b
      cases a <;> cases b <;> first | rfl | (simp [add_comm])
    · refine ⟨?_, ?_, ?_⟩
      · intro i hi; rw [B.hX i (by omega) hi]; simp
      · intro i hi; rw [B.hY i (by omega) hi]; simp
      · intro i hi; rw [B.hX i (by omega) hi, B.hY i (by omega) hi]; simp
  · intro i x h1 hx hx'
    exact (B.pchip_val hT hrow (Nat.zero_le i) h1 hx hx').1
  · intro i
    unfold hermV hermC
    simp only [List.foldl]
    fun_prop
  · intro i h1
    rw [sub_self, hermV_zero]
  · intro i h1
    have := C.inc (k + i) (by omega) (by omega)
    have h0 : a (k + i + 1) - a (k + i) ≠ 0 := by linarith
    rw [hermV_end h0]
    unfold chord
    show y (k + i) + (a (k + i + 1) - a (k + i)) * ((y (k + i + 1) - y (k + i)) / (a (k + i + 1) - a (k + i))) = _
    field_simp
    ring
  · intro i x h1 hx hx'
    obtain ⟨T', hT'', hsh⟩ := pchip_shape B
    rw [hT] at hT''
    cases hT''
    obtain ⟨v, v', hv, hv', u1, u2⟩ := hsh i (Nat.zero_le i) h1 x x hx (le_refl _) hx'
    have := (B.pchip_val hT hrow (Nat.zero_le i) h1 hx hx').1
    rw [hv] at this
    have := Fl.fin.inj this
    rw [hv] at hv'
    have := Fl.fin.inj hv'
    subst this
    subst v
    show min (y (k + i)) (y (k + i + 1)) ≤ _ ∧ _ ≤ max (y (k + i)) (y (k + i + 1))
    rcases le_total (y (k + i)) (y (k + i + 1)) with h | h
    · rw [min_eq_left h, max_eq_right h]
      exact ⟨(u1 h).1, (u1 h).2.2⟩
    · rw [min_eq_right h, max_eq_left h]
      exact ⟨(u2 h).1, (u2 h).2.2⟩

/-- Everything about the interpolant that `traj.py` and `_vertsolve.py` build from the trimmed data: it exists (no
division by zero), agrees with the public interpolation of the untrimmed data, is NaN outside the data, continuous,
passes through the data and stays between neighbouring data. -/
theorem Col.curve (kind : PPKind) (C : Col X Y k K a y) :
    ∃ (T : PPC (Fl ℝ)) (g : ℝ → ℝ), ppcFn kind (X.slice k K) (Y.slice k K) = some T ∧
      (∀ x, a k ≤ x → x ≤ a (K - 1) → ppval1Nonan (fin x) (X.slice k K) T 0 = fin (g x) ∧
        interpAt kind (fin x) X Y = some (fin (g x))) ∧
      (∀ x, x < a k ∨ a (K - 1) < x → ppval1Nonan (fin x) (X.slice k K) T 0 = Fl.nan ∧
        interpAt kind (fin x) X Y = some Fl.nan) ∧
      ContinuousOn g (Set.Icc (a k) (a (K - 1))) ∧
      (∀ i, k ≤ i → i < K → g (a i) = y i) ∧
      (∀ i, k ≤ i → i + 1 < K → ∀ x, a i ≤ x → x ≤ a (i + 1) →
        min (y i) (y (i + 1)) ≤ g x ∧ g x ≤ max (y i) (y (i + 1))) := by
  have h2 := C.two
  have hle := C.le
  have B := C.block
  have hfn := finite_not_nan
  obtain ⟨T, V, hT, hlast, hsz, hpub', hV, hVc, hV0, hV1, hVb⟩ : ∃ T V, Table kind X Y k K a y T V := by
    cases kind
    · exact C.tableLinear
    · exact C.tablePchip
  have hvr := B.vr_table hlast
  have hnn : ∀ x, ppval1Nonan x (X.slice k K) T 0 = ppval1 x (X.slice k K) T 0 := by
    intro x
    have := ppval1Nonan_trim (X := X.slice k K) (C := T) x 0 (by rw [hvr]; show 0 + 2 ≤ K - k; omega)
    rw [hvr] at this
    rw [← this]
    congr 1
    · simp [Arr.slice]
    · cases T; simp only at hsz; subst hsz; simp [PPC.slice]
  let un : Fl ℝ → ℝ := fun z => match z with | fin r => r | _ => 0
  let g : ℝ → ℝ := fun x => un (ppval1 (fin x) (X.slice k K) T 0)
  have hgV : ∀ i x, i + 1 < K - k → a (k + i) ≤ x → x ≤ a (k + i + 1) → g x = V i x := by
    intro i x h1 hx hx'
    show un _ = _
    rw [hV i x h1 hx hx']
  have hpiece : ∀ x, a k ≤ x → x ≤ a (K - 1) → ∃ i, i + 1 < K - k ∧ a (k + i) ≤ x ∧ x ≤ a (k + i + 1) := by
    intro x hx hx'
    have ho := (B.outside_iff x).mpr ⟨hx, by
      show x ≤ a (k + (K - k - 1)); rw [show k + (K - k - 1) = K - 1 by omega]; exact hx'⟩
    obtain ⟨e1, e2, e3, e4, _⟩ := pieceIndex_bracket B.hX B.mono ho
    exact ⟨_, by omega, e3, e4⟩
  refine ⟨T, g, hT, ?_, ?_, ?_, ?_, ?_⟩
  · intro x hx hx'
    obtain ⟨i, h1, h3, h4⟩ := hpiece x hx hx'
    rw [hnn, hpub', hV i x h1 h3 h4, hgV i x h1 h3 h4]
    exact ⟨rfl, rfl⟩
  · intro x hx
    have := (ppval1_spec B hlast 0).2.1 x (by
      show x < a (k + 0) ∨ a (k + (K - k - 1)) < x
      rw [show k + (K - k - 1) = K - 1 by omega]; exact hx)
    rw [hnn, hpub', this]
    exact ⟨rfl, rfl⟩
  · have := (glue (a := fun i => a (k + i)) (g := g) (K - k - 1) (fun i hi => (C.inc (k + i) (by omega) (by omega)).le)
      (fun i hi => (hVc i).continuousOn.congr (fun x hx => hgV i x (by omega) hx.1 hx.2))).2
    rw [add_zero, show k + (K - k - 1) = K - 1 by omega] at this
    exact this
  · intro i h1 h3
    by_cases hc : i + 1 < K
    · have e := C.inc i h1 hc
      have := hgV (i - k) (a i) (by omega) (by rw [show k + (i - k) = i by omega]) (by rw [show k + (i - k) = i by omega]; exact e.le)
      have h0 := hV0 (i - k) (by omega)
      rw [show k + (i - k) = i by omega] at h0
      rw [this, h0]
    · have e := C.inc (i - 1) (by omega) (by omega)
      rw [show i - 1 + 1 = i by omega] at e
      have := hgV (i - 1 - k) (a i) (by omega) (by rw [show k + (i - 1 - k) = i - 1 by omega]; exact e.le)
        (by rw [show k + (i - 1 - k) + 1 = i by omega])
      have h0 := hV1 (i - 1 - k) (by omega)
      rw [show k + (i - 1 - k) + 1 = i by omega] at h0
      rw [this, h0]
  · intro i h1 h3 x hx hx'
    have h := hgV (i - k) x (by omega) (by rw [show k + (i - k) = i by omega]; exact hx) (by rw [show k + (i - k) = i by omega]; exact hx')
    have hb := hVb (i - k) x (by omega) (by rw [show k + (i - k) = i by omega]; exact hx) (by rw [show k + (i - k) = i by omega]; exact hx')
    rw [show k + (i - k) = i by omega] at hb
    rw [h]; exact hb

end Traj
