import Verif.Props.NoCross
import Verif.Props.RefineCast
import Verif.Props.PchipSlopes
import Verif.Props.OmegaOrder
import Verif.Props.EosSolve
import Verif.Props.PchipLip
import Verif.Props.EosLip
set_option linter.unusedSectionVars false

/-!
# Errors of the data change surfaces and trajectories by a bounded amount (C163)
-/

namespace VertSolve
open FloatLike Fzero Interp Traj Same
open Fl hiding nan

variable {c c' : Cast (Fl ℝ)} {k K : ℕ} {a s t : ℕ → ℝ} {eos : Fl ℝ → Fl ℝ → Fl ℝ → Fl ℝ} {e : ℝ → ℝ → ℝ → ℝ} {smin : ℝ}

/-- Specification: at each pressure of the data the water of the two casts, brought to a pressure from `lo` to `hi`, differs in density by at most `κ`. -/
def Close (e : ℝ → ℝ → ℝ → ℝ) (kind : PPKind) (c c' : Cast (Fl ℝ)) (A B lo hi κ : ℝ) : Prop :=
  ∀ x s t s' t' p, A ≤ x → x ≤ B → At kind c x s t → At kind c' x s' t' → lo ≤ p → p ≤ hi → |e s' t' p - e s t p| ≤ κ

/-! ## Interpolation -/

/-- Linear interpolation of data which differ by at most `δ` differs by at most `δ`. -/
theorem linear_near {X Y X' Y' : Arr (Fl ℝ)} {y y' : ℕ → ℝ} (C : Col X Y k K a y) (C' : Col X' Y' k K a y') {δ : ℝ}
    (h : ∀ i, k ≤ i → i < K → |y' i - y i| ≤ δ) {x v v' : ℝ} (hx : a k ≤ x) (hx' : x ≤ a (K - 1))
    (hv : interpAt .linear (fin x) X Y = some (fin v)) (hv' : interpAt .linear (fin x) X' Y' = some (fin v')) : |v' - v| ≤ δ := by
  have BB : Block X Y k K a y := ⟨C.size.symm, C.vr.1, C.two, C.hX, C.hY, C.inc⟩
  obtain ⟨i, i1, i2, i3, i4⟩ := BB.locate hx hx'
  rw [Col_chord C i1 i2 i3 i4] at hv
  rw [Col_chord C' i1 i2 i3 i4] at hv'
  simp only [Option.some.injEq, Fl.fin.injEq] at hv hv'
  have hd : 0 < a (i + 1) - a i := by linarith [C.inc i i1 i2]
  have h0 := h i i1 (by omega)
  have h1 := h (i + 1) (by omega) i2
  have e1 : v' - v = ((a (i + 1) - x) * (y' i - y i) + (x - a i) * (y' (i + 1) - y (i + 1))) / (a (i + 1) - a i) := by
    rw [← hv, ← hv']
    unfold chordAt
    field_simp
    ring
  rw [e1, abs_div, abs_of_pos hd, div_le_iff₀ hd]
  calc _ ≤ |(a (i + 1) - x) * (y' i - y i)| + |(x - a i) * (y' (i + 1) - y (i + 1))| := abs_add_le _ _
    _ = (a (i + 1) - x) * |y' i - y i| + (x - a i) * |y' (i + 1) - y (i + 1)| := by
      rw [abs_mul, abs_mul, abs_of_nonneg (by linarith : 0 ≤ a (i + 1) - x), abs_of_nonneg (by linarith : 0 ≤ x - a i)]
    _ ≤ (a (i + 1) - x) * δ + (x - a i) * δ :=
      add_le_add (mul_le_mul_of_nonneg_left h0 (by linarith)) (mul_le_mul_of_nonneg_left h1 (by linarith))
    _ = δ * (a (i + 1) - a i) := by ring

/-- Interpolated values are in the range of the data. -/
theorem interp_range (kind : PPKind) {X Y : Arr (Fl ℝ)} {y : ℕ → ℝ} (C : Col X Y k K a y) {l u : ℝ}
    (h : ∀ i, k ≤ i → i < K → l ≤ y i ∧ y i ≤ u) {x v : ℝ} (hx : a k ≤ x) (hx' : x ≤ a (K - 1))
    (hv : interpAt kind (fin x) X Y = some (fin v)) : l ≤ v ∧ v ≤ u := by
  have BB : Block X Y k K a y := ⟨C.size.symm, C.vr.1, C.two, C.hX, C.hY, C.inc⟩
  obtain ⟨i, i1, i2, i3, i4⟩ := BB.locate hx hx'
  obtain ⟨w, w', h1, -, h3, h4⟩ := piece_mono kind C i i1 i2 x x i3 le_rfl i4
  rw [hv] at h1
  simp only [Option.some.injEq, Fl.fin.injEq] at h1
  subst h1
  have b0 := h i i1 (by omega)
  have b1 := h (i + 1) (by omega) i2
  rcases le_total (y i) (y (i + 1)) with hy | hy
  · obtain ⟨g1, g2, g3⟩ := h3 hy
    constructor <;> linarith [b0.1, b1.2]
  · obtain ⟨g1, g2, g3⟩ := h4 hy
    constructor <;> linarith [b0.2, b1.1]

/-- Two casts with the same pressures whose salinities differ by at most `δs` and temperatures by at most `δt`; the density depends on salinity and temperature with
constants `Ls`, `Lt`. -/
theorem close_linear (G : GoodCast c k K a s t) {s' t' : ℕ → ℝ} (G' : GoodCast c' k K a s' t') {δs δt Ls Lt s0 s1 t0 t1 lo hi : ℝ}
    (hS : ∀ i, k ≤ i → i < K → |s' i - s i| ≤ δs) (hT : ∀ i, k ≤ i → i < K → |t' i - t i| ≤ δt)
    (hbS : ∀ i, k ≤ i → i < K → (s0 ≤ s i ∧ s i ≤ s1) ∧ s0 ≤ s' i ∧ s' i ≤ s1) (hbT : ∀ i, k ≤ i → i < K → (t0 ≤ t i ∧ t i ≤ t1) ∧ t0 ≤ t' i ∧ t' i ≤ t1)
    (hLs : 0 ≤ Ls) (hLt : 0 ≤ Lt) (hlip : ∀ σ τ σ' τ' p, s0 ≤ σ → σ ≤ s1 → s0 ≤ σ' → σ' ≤ s1 → t0 ≤ τ → τ ≤ t1 → t0 ≤ τ' → τ' ≤ t1 → lo ≤ p → p ≤ hi →
      |e σ' τ' p - e σ τ p| ≤ Ls * |σ' - σ| + Lt * |τ' - τ|) :
    Close e .linear c c' (a k) (a (K - 1)) lo hi (Ls * δs + Lt * δt) := by
  intro x σ τ σ' τ' p hx hx' h h' hp hp'
  have a1 := interp_range .linear G.S (fun i h1 h2 => (hbS i h1 h2).1) hx hx' h.1
  have a2 := interp_range .linear G'.S (fun i h1 h2 => (hbS i h1 h2).2) hx hx' h'.1
  have a3 := interp_range .linear G.T (fun i h1 h2 => (hbT i h1 h2).1) hx hx' h.2
  have a4 := interp_range .linear G'.T (fun i h1 h2 => (hbT i h1 h2).2) hx hx' h'.2
  have b1 := linear_near G.S G'.S hS hx hx' h.1 h'.1
  have b2 := linear_near G.T G'.T hT hx hx' h.2 h'.2
  exact (hlip _ _ _ _ _ a1.1 a1.2 a2.1 a2.2 a3.1 a3.2 a4.1 a4.2 hp hp').trans
    (add_le_add (mul_le_mul_of_nonneg_left b1 hLs) (mul_le_mul_of_nonneg_left b2 hLt))

/-- As `close_linear`, with PCHIP: the bound is larger by the factor `1 + 3 H / (2 h)` of C164, where the spacings of the pressures are from `h` to `H`. -/
theorem close_pchip (G : GoodCast c k K a s t) {s' t' : ℕ → ℝ} (G' : GoodCast c' k K a s' t') {δs δt Ls Lt s0 s1 t0 t1 lo hi h H : ℝ}
    (hS : ∀ i, k ≤ i → i < K → |s' i - s i| ≤ δs) (hT : ∀ i, k ≤ i → i < K → |t' i - t i| ≤ δt)
    (hh : 0 < h) (hsp : ∀ i, k ≤ i → i + 1 < K → h ≤ a (i + 1) - a i ∧ a (i + 1) - a i ≤ H)
    (hbS : ∀ i, k ≤ i → i < K → (s0 ≤ s i ∧ s i ≤ s1) ∧ s0 ≤ s' i ∧ s' i ≤ s1) (hbT : ∀ i, k ≤ i → i < K → (t0 ≤ t i ∧ t i ≤ t1) ∧ t0 ≤ t' i ∧ t' i ≤ t1)
    (hLs : 0 ≤ Ls) (hLt : 0 ≤ Lt) (hlip : ∀ σ τ σ' τ' p, s0 ≤ σ → σ ≤ s1 → s0 ≤ σ' → σ' ≤ s1 → t0 ≤ τ → τ ≤ t1 → t0 ≤ τ' → τ' ≤ t1 → lo ≤ p → p ≤ hi →
      |e σ' τ' p - e σ τ p| ≤ Ls * |σ' - σ| + Lt * |τ' - τ|) :
    Close e .pchip c c' (a k) (a (K - 1)) lo hi ((1 + 3 / 2 * (H / h)) * (Ls * δs + Lt * δt)) := by
  intro x σ τ σ' τ' p hx hx' h1 h1' hp hp'
  have a1 := interp_range .pchip G.S (fun i h1 h2 => (hbS i h1 h2).1) hx hx' h1.1
  have a2 := interp_range .pchip G'.S (fun i h1 h2 => (hbS i h1 h2).2) hx hx' h1'.1
  have a3 := interp_range .pchip G.T (fun i h1 h2 => (hbT i h1 h2).1) hx hx' h1.2
  have a4 := interp_range .pchip G'.T (fun i h1 h2 => (hbT i h1 h2).2) hx hx' h1'.2
  have b1 := pchip_near G.S G'.S hh hsp hS hx hx' h1.1 h1'.1
  have b2 := pchip_near G.T G'.T hh hsp hT hx hx' h1.2 h1'.2
  refine (hlip _ _ _ _ _ a1.1 a1.2 a2.1 a2.2 a3.1 a3.2 a4.1 a4.2 hp hp').trans
    ((add_le_add (mul_le_mul_of_nonneg_left b1 hLs) (mul_le_mul_of_nonneg_left b2 hLt)).trans (le_of_eq (by ring)))

/-- JMD95: casts with salinities from 0 to 42 and temperatures from -2 to 40, at pressures from 0 to 10000. -/
theorem jmd95_close (kind : PPKind) (G : GoodCast c k K a s t) {s' t' : ℕ → ℝ} (G' : GoodCast c' k K a s' t') {δs δt h H : ℝ} (hh : 0 < h)
    (hsp : ∀ i, k ≤ i → i + 1 < K → h ≤ a (i + 1) - a i ∧ a (i + 1) - a i ≤ H)
    (hS : ∀ i, k ≤ i → i < K → |s' i - s i| ≤ δs) (hT : ∀ i, k ≤ i → i < K → |t' i - t i| ≤ δt)
    (hbS : ∀ i, k ≤ i → i < K → (0 ≤ s i ∧ s i ≤ 42) ∧ 0 ≤ s' i ∧ s' i ≤ 42) (hbT : ∀ i, k ≤ i → i < K → (-2 ≤ t i ∧ t i ≤ 40) ∧ -2 ≤ t' i ∧ t' i ≤ 40) :
    Close Jmd95.density kind c c' (a k) (a (K - 1)) 0 10000 ((if kind = .linear then 1 else 1 + 3 / 2 * (H / h)) * (0.89 * δs + 1.25 * δt)) := by
  have hlip : ∀ σ τ σ' τ' p, (0 : ℝ) ≤ σ → σ ≤ 42 → 0 ≤ σ' → σ' ≤ 42 → -2 ≤ τ → τ ≤ 40 → -2 ≤ τ' → τ' ≤ 40 → 0 ≤ p → p ≤ 10000 →
      |Jmd95.density σ' τ' p - Jmd95.density σ τ p| ≤ 0.89 * |σ' - σ| + 1.25 * |τ' - τ| := by
    intro σ τ σ' τ' p h1 h2 h3 h4 h5 h6 h7 h8 h9 h10
    have := Jmd95.Ocean.lip ⟨h3, h4, h7, h8, h9, h10⟩ ⟨h1, h2, h5, h6, h9, h10⟩
    rwa [sub_self, abs_zero, mul_zero, add_zero] at this
  cases kind with
  | linear =>
    rw [if_pos rfl, one_mul]
    exact close_linear G G' hS hT hbS hbT (by norm_num) (by norm_num) hlip
  | pchip =>
    rw [if_neg (by decide)]
    exact close_pchip G G' hS hT hh hsp hbS hbT (by norm_num) (by norm_num) hlip

/-- JMDFWG06: casts with salinities from 0 to 42 and temperatures from -2 to 40, at pressures from 0 to 10000. -/
theorem jmdfwg06_close (kind : PPKind) (G : GoodCast c k K a s t) {s' t' : ℕ → ℝ} (G' : GoodCast c' k K a s' t') {δs δt h H : ℝ} (hh : 0 < h)
    (hsp : ∀ i, k ≤ i → i + 1 < K → h ≤ a (i + 1) - a i ∧ a (i + 1) - a i ≤ H)
    (hS : ∀ i, k ≤ i → i < K → |s' i - s i| ≤ δs) (hT : ∀ i, k ≤ i → i < K → |t' i - t i| ≤ δt)
    (hbS : ∀ i, k ≤ i → i < K → (0 ≤ s i ∧ s i ≤ 42) ∧ 0 ≤ s' i ∧ s' i ≤ 42) (hbT : ∀ i, k ≤ i → i < K → (-2 ≤ t i ∧ t i ≤ 40) ∧ -2 ≤ t' i ∧ t' i ≤ 40) :
    Close Jmdfwg06.density kind c c' (a k) (a (K - 1)) 0 10000 ((if kind = .linear then 1 else 1 + 3 / 2 * (H / h)) * (1.51 * δs + 1.16 * δt)) := by
  have hlip : ∀ σ τ σ' τ' p, (0 : ℝ) ≤ σ → σ ≤ 42 → 0 ≤ σ' → σ' ≤ 42 → -2 ≤ τ → τ ≤ 40 → -2 ≤ τ' → τ' ≤ 40 → 0 ≤ p → p ≤ 10000 →
      |Jmdfwg06.density σ' τ' p - Jmdfwg06.density σ τ p| ≤ 1.51 * |σ' - σ| + 1.16 * |τ' - τ| := by
    intro σ τ σ' τ' p h1 h2 h3 h4 h5 h6 h7 h8 h9 h10
    have := Jmdfwg06.Ocean.lip ⟨h3, h4, h7, h8, h9, h10⟩ ⟨h1, h2, h5, h6, h9, h10⟩
    rwa [sub_self, abs_zero, mul_zero, add_zero] at this
  cases kind with
  | linear =>
    rw [if_pos rfl, one_mul]
    exact close_linear G G' hS hT hbS hbT (by norm_num) (by norm_num) hlip
  | pchip =>
    rw [if_neg (by decide)]
    exact close_pchip G G' hS hT hh hsp hbS hbT (by norm_num) (by norm_num) hlip

/-! ## Surfaces -/

/-- One vertical solve on two casts: the results differ by at most the difference of the data and of the isovalues over the stratification; and the second exists if the first is
as far as this from both ends. -/
theorem Solved.perturbed {kind : PPKind} {A B m κ v v' tol tol' : ℝ} {f f' : ℝ → ℝ → ℝ → ℝ} (hm : 0 < m)
    (hst : ∀ x y s t s' t', A ≤ x → x ≤ y → y ≤ B → At kind c x s t → At kind c y s' t' → m * (y - x) ≤ f s' t' y - f s t x)
    (hc : ∀ x s t s' t', A ≤ x → x ≤ B → At kind c x s t → At kind c' x s' t' → |f' s' t' x - f s t x| ≤ κ)
    {r r' : Fl ℝ × Fl ℝ × Fl ℝ} (h : Solved kind c A B (fun s t p => f s t p - v) tol r) (h' : Solved kind c' A B (fun s t p => f' s t p - v') tol' r')
    {p : ℝ} (hp : r.2.2 = fin p) :
    (∀ p', r'.2.2 = fin p' → |p' - p| ≤ (κ + |v' - v|) / m + acc tol p + acc tol' p') ∧
    (A + (κ + |v' - v|) / m + acc tol p ≤ p → p + (κ + |v' - v|) / m + acc tol p ≤ B → ∃ p', r'.2.2 = fin p') := by
  obtain ⟨gS, gT, hi, h⟩ := h
  obtain ⟨gS', gT', hi', h'⟩ := h'
  rcases h with ⟨rfl, -⟩ | ⟨q, z, rfl, a1, a2, a3, a4, a5, a6⟩
  · cases hp
  cases hp
  have hv := abs_le.1 (le_refl |v' - v|)
  set ρ := (κ + |v' - v|) / m with hρ
  have hmρ : m * ρ = κ + |v' - v| := by rw [hρ]; field_simp
  rcases h' with ⟨rfl, hpos⟩ | ⟨q', z', rfl, b1, b2, b3, b4, b5, b6⟩
  · refine ⟨fun p' h => (by cases h), fun hA hB => ?_⟩
    exfalso
    unfold acc at hA hB
    rw [abs_le] at a6
    have hAB : A ≤ B := a3.trans a4
    have l1 := hst A z _ _ _ _ le_rfl a3 a4 (hi A le_rfl hAB) (hi z a3 a4)
    have l2 := hst z B _ _ _ _ a3 a4 le_rfl (hi z a3 a4) (hi B hAB le_rfl)
    have c1 := abs_le.1 (hc A _ _ _ _ le_rfl hAB (hi A le_rfl hAB) (hi' A le_rfl hAB))
    have c2 := abs_le.1 (hc B _ _ _ _ hAB le_rfl (hi B hAB le_rfl) (hi' B hAB le_rfl))
    have m1 : m * ρ ≤ m * (z - A) := mul_le_mul_of_nonneg_left (by linarith [a6.1]) hm.le
    have m2 : m * ρ ≤ m * (B - z) := mul_le_mul_of_nonneg_left (by linarith [a6.2]) hm.le
    refine absurd hpos (not_lt.2 (mul_nonpos_iff.2 (.inr ⟨?_, ?_⟩))) <;> linarith [c1.1, c1.2, c2.1, c2.2, hv.1, hv.2]
  · refine ⟨fun p' h => ?_, fun _ _ => ⟨_, rfl⟩⟩
    cases h
    have c1 := abs_le.1 (hc z' _ _ _ _ b3 b4 (hi z' b3 b4) (hi' z' b3 b4))
    rw [abs_le] at a6 b6
    have key : |z' - z| ≤ ρ := by
      rw [abs_le]
      rcases le_total z z' with hz | hz
      · have l := hst z z' _ _ _ _ a3 hz b4 (hi z a3 a4) (hi z' b3 b4)
        have : m * (z' - z) ≤ m * ρ := by linarith [c1.1, c1.2, hv.1, hv.2]
        have := le_of_mul_le_mul_left this hm
        constructor <;> linarith
      · have l := hst z' z _ _ _ _ b3 hz a4 (hi z' b3 b4) (hi z a3 a4)
        have : m * (z - z') ≤ m * ρ := by linarith [c1.1, c1.2, hv.1, hv.2]
        have := le_of_mul_le_mul_left this hm
        constructor <;> linarith
    rw [abs_le] at key ⊢
    unfold acc
    constructor <;> linarith [a6.1, a6.2, b6.1, b6.2, key.1, key.2]

/-- **C163** Potential density surfaces of two casts. -/
theorem potential_perturbed (kind : PPKind) (E : EosOn eos e smin) (G : GoodCast c k K a s t) {s' t' : ℕ → ℝ} (G' : GoodCast c' k K a s' t')
    (hs : ∀ i, k ≤ i → i < K → smin ≤ s i) (hs' : ∀ i, k ≤ i → i < K → smin ≤ s' i) {tol refP m κ v v' : ℝ} (htol : 0 < tol) (hm : 0 < m)
    (n : ℕ) (hn : 2 * (a (K - 1) - a k) / tol ≤ n)
    (hst : ∀ x y σ τ σ' τ', a k ≤ x → x ≤ y → y ≤ a (K - 1) → At kind c x σ τ → At kind c y σ' τ' → m * (y - x) ≤ e σ' τ' refP - e σ τ refP)
    (hc : Close e kind c c' (a k) (a (K - 1)) refP refP κ) :
    ∃ r r', vertsolve1 (n + 13) (fin tol) kind (fun P Sp Tp => zeroPotential eos P Sp Tp (fin refP) (fin v)) c = .ret r ∧
      vertsolve1 (n + 13) (fin tol) kind (fun P Sp Tp => zeroPotential eos P Sp Tp (fin refP) (fin v')) c' = .ret r' ∧
      ∀ p, r.2.2 = fin p → (∀ p', r'.2.2 = fin p' → |p' - p| ≤ (κ + |v' - v|) / m + acc tol p + acc tol p') ∧
        (a k + (κ + |v' - v|) / m + acc tol p ≤ p → p + (κ + |v' - v|) / m + acc tol p ≤ a (K - 1) → ∃ p', r'.2.2 = fin p') := by
  obtain ⟨r, h1, h2⟩ := potential_spec (refP := refP) (isoval := v) kind E G hs htol n hn
  obtain ⟨r', h1', h2'⟩ := potential_spec (refP := refP) (isoval := v') kind E G' hs' htol n hn
  exact ⟨r, r', h1, h1', fun p hp => Solved.perturbed (f := fun s t _ => e s t refP) (f' := fun s t _ => e s t refP) hm hst
    (fun x s t s' t' hx hx' h h' => hc x s t s' t' refP hx hx' h h' le_rfl le_rfl) h2 h2' hp⟩

/-- **C163** Anomaly surfaces of two casts. -/
theorem anomaly_perturbed (kind : PPKind) (E : EosOn eos e smin) (G : GoodCast c k K a s t) {s' t' : ℕ → ℝ} (G' : GoodCast c' k K a s' t')
    (hs : ∀ i, k ≤ i → i < K → smin ≤ s i) (hs' : ∀ i, k ≤ i → i < K → smin ≤ s' i) {tol refS refT m κ v v' : ℝ} (hr : smin ≤ refS) (htol : 0 < tol) (hm : 0 < m)
    (n : ℕ) (hn : 2 * (a (K - 1) - a k) / tol ≤ n)
    (hst : ∀ x y σ τ σ' τ', a k ≤ x → x ≤ y → y ≤ a (K - 1) → At kind c x σ τ → At kind c y σ' τ' →
      m * (y - x) ≤ (e σ' τ' y - e refS refT y) - (e σ τ x - e refS refT x))
    (hc : Close e kind c c' (a k) (a (K - 1)) (a k) (a (K - 1)) κ) :
    ∃ r r', vertsolve1 (n + 13) (fin tol) kind (fun P Sp Tp => zeroAnomaly eos P Sp Tp (fin refS, fin refT) (fin v)) c = .ret r ∧
      vertsolve1 (n + 13) (fin tol) kind (fun P Sp Tp => zeroAnomaly eos P Sp Tp (fin refS, fin refT) (fin v')) c' = .ret r' ∧
      ∀ p, r.2.2 = fin p → (∀ p', r'.2.2 = fin p' → |p' - p| ≤ (κ + |v' - v|) / m + acc tol p + acc tol p') ∧
        (a k + (κ + |v' - v|) / m + acc tol p ≤ p → p + (κ + |v' - v|) / m + acc tol p ≤ a (K - 1) → ∃ p', r'.2.2 = fin p') := by
  obtain ⟨r, h1, h2⟩ := anomaly_spec (refS := refS) (refT := refT) (isoval := v) kind E G hs hr htol n hn
  obtain ⟨r', h1', h2'⟩ := anomaly_spec (refS := refS) (refT := refT) (isoval := v') kind E G' hs' hr htol n hn
  refine ⟨r, r', h1, h1', fun p hp => Solved.perturbed (f := fun s t p => e s t p - e refS refT p) (f' := fun s t p => e s t p - e refS refT p) hm hst
    (fun x s t s' t' hx hx' h h' => ?_) h2 h2' hp⟩
  rw [sub_sub_sub_cancel_right]
  exact hc x s t s' t' x hx hx' h h' hx hx'

/-! ## Links and trajectories -/

/-- **C163** A neutral link of the casts `c1`, `c2` from `p` to `q`, and one of the casts `c1'`, `c2'` from `p'`. -/
theorem ntp_perturbed (kind : PPKind) (E : EosOn eos e smin) {c1 c2 c1' c2' : Cast (Fl ℝ)} {A1 B1 lo hi : ℝ} {a2 s2 t2 : ℕ → ℝ}
    {k2 K2 : ℕ} (G2 : GoodCast c2 k2 K2 a2 s2 t2) (hs2 : ∀ i, k2 ≤ i → i < K2 → smin ≤ s2 i)
    {k2' K2' : ℕ} {a2' s2' t2' : ℕ → ℝ} (G2' : GoodCast c2' k2' K2' a2' s2' t2') (hs2' : ∀ i, k2' ≤ i → i < K2' → smin ≤ s2' i)
    (hA : a2' k2' = a2 k2) (hB : a2' (K2' - 1) = a2 (K2 - 1))
    {tol m L κ1 κ2 : ℝ} (htol : 0 < tol) (hm : 0 < m) (n : ℕ) (hn : 2 * (a2 (K2 - 1) - a2 k2) / tol ≤ n)
    (hD : Sloped e kind c2 c1 (a2 k2) (a2 (K2 - 1)) A1 B1 m L)
    (h1 : Close e kind c1 c1' A1 B1 lo hi κ1) (h2 : Close e kind c2 c2' (a2 k2) (a2 (K2 - 1)) lo hi κ2)
    (hlo : lo ≤ A1 ∧ lo ≤ a2 k2) (hhi : B1 ≤ hi ∧ a2 (K2 - 1) ≤ hi)
    {p σ τ p' σ' τ' u w q : ℝ} {x y : Fl ℝ} (hp1 : A1 ≤ p) (hp2 : p ≤ B1) (hp1' : A1 ≤ p') (hp2' : p' ≤ B1) (hp : At kind c1 p σ τ) (hp' : At kind c1' p' σ' τ')
    (hu : At kind c1 p' u w) (hσ : smin ≤ σ) (hσ' : smin ≤ σ')
    (hl : ntpBottleToCast (n + 13) (fin tol) eos kind (fin σ) (fin τ) (fin p) c2 = .ret (x, y, fin q)) :
    ∃ r, ntpBottleToCast (n + 13) (fin tol) eos kind (fin σ') (fin τ') (fin p') c2' = .ret r ∧
      (∀ q', r.2.2 = fin q' → |q' - q| ≤ (κ1 + κ2 + L * |p' - p|) / m + acc tol q + acc tol q') ∧
      (a2 k2 + (κ1 + κ2 + L * |p' - p|) / m + acc tol q ≤ q → q + (κ1 + κ2 + L * |p' - p|) / m + acc tol q ≤ a2 (K2 - 1) → ∃ q', r.2.2 = fin q') := by
  obtain ⟨gS, gT, hi, g⟩ := ntp_spec kind E G2 hs2 (sB := σ) (tB := τ) (pB := p) hσ htol n hn
  obtain ⟨gS', gT', hi', g'⟩ := ntp_spec kind E G2' hs2' (sB := σ') (tB := τ') (pB := p') hσ' htol n (by rw [hA, hB]; exact hn)
  rw [hA, hB] at g' hi'
  rcases g with ⟨g, -⟩ | ⟨q1, z, g, b1, b2, b3, b4, b5, b6⟩
  · rw [hl] at g; cases g
  rw [hl] at g
  cases g
  set ρ := (κ1 + κ2 + L * |p' - p|) / m with hρ
  have hmρ : m * ρ = κ1 + κ2 + L * |p' - p| := by rw [hρ]; field_simp
  -- the difference of the perturbed casts, at `y`, differs from that of the given casts at `y` and `p`
  have near : ∀ y, a2 k2 ≤ y → y ≤ a2 (K2 - 1) →
      |(e (gS' y) (gT' y) ((p' + y) / 2) - e σ' τ' ((p' + y) / 2)) - (e (gS y) (gT y) ((y + p) / 2) - e σ τ ((y + p) / 2))| ≤ m * ρ := by
    intro y hy hy'
    have d1 := abs_le.1 (h1 p' u w σ' τ' ((p' + y) / 2) hp1' hp2' hu hp' (by linarith [hlo.1, hlo.2]) (by linarith [hhi.1, hhi.2]))
    have d2 := abs_le.1 (h2 y _ _ _ _ ((p' + y) / 2) hy hy' (hi y hy hy') (hi' y hy hy') (by linarith [hlo.1, hlo.2]) (by linarith [hhi.1, hhi.2]))
    have d3 := abs_le.1 (hD.upper y p p' _ _ _ _ _ _ hy hy' hp1 hp2 hp1' hp2' (hi y hy hy') hp hu)
    rw [add_comm y p'] at d3
    rw [hmρ, abs_le]
    constructor <;> linarith [d1.1, d1.2, d2.1, d2.2, d3.1, d3.2]
  have hz : e (gS z) (gT z) ((z + p) / 2) - e σ τ ((z + p) / 2) = 0 := by rw [add_comm z p, b5, sub_self]
  have hAB : a2 k2 ≤ a2 (K2 - 1) := b3.trans b4
  rcases g' with ⟨g', hpos⟩ | ⟨q', z', g', d1, d2, d3, d4, d5, d6⟩
  · refine ⟨_, g', fun q' h => (by cases h), fun hA hB => ?_⟩
    exfalso
    unfold acc at hA hB
    rw [abs_le] at b6
    have l1 := hD.lower _ z p _ _ _ _ _ _ le_rfl b3 b4 hp1 hp2 (hi _ le_rfl hAB) (hi z b3 b4) hp
    have l2 := hD.lower z _ p _ _ _ _ _ _ b3 b4 le_rfl hp1 hp2 (hi z b3 b4) (hi _ hAB le_rfl) hp
    rw [hz] at l1 l2
    have n1 := abs_le.1 (near _ le_rfl hAB)
    have n2 := abs_le.1 (near _ hAB le_rfl)
    have m1 : m * ρ ≤ m * (z - a2 k2) := mul_le_mul_of_nonneg_left (by linarith [b6.1]) hm.le
    have m2 : m * ρ ≤ m * (a2 (K2 - 1) - z) := mul_le_mul_of_nonneg_left (by linarith [b6.2]) hm.le
    refine absurd hpos (not_lt.2 (mul_nonpos_iff.2 (.inl ⟨?_, ?_⟩))) <;> linarith [n1.1, n1.2, n2.1, n2.2]
  · refine ⟨_, g', fun q'' h => ?_, fun _ _ => ⟨_, rfl⟩⟩
    cases h
    have n1 := abs_le.1 (near z' d3 d4)
    rw [d5, sub_self] at n1
    rw [abs_le] at b6 d6
    have key : |z' - z| ≤ ρ := by
      rw [abs_le]
      rcases le_total z z' with hh | hh
      · have l := hD.lower z z' p _ _ _ _ _ _ b3 hh d4 hp1 hp2 (hi z b3 b4) (hi z' d3 d4) hp
        rw [hz] at l
        have : m * (z' - z) ≤ m * ρ := by linarith [n1.1, n1.2]
        have := le_of_mul_le_mul_left this hm
        constructor <;> linarith
      · have l := hD.lower z' z p _ _ _ _ _ _ d3 hh b4 hp1 hp2 (hi z' d3 d4) (hi z b3 b4) hp
        rw [hz] at l
        have : m * (z - z') ≤ m * ρ := by linarith [n1.1, n1.2]
        have := le_of_mul_le_mul_left this hm
        constructor <;> linarith
    rw [abs_le] at key ⊢
    unfold acc
    constructor <;> linarith [b6.1, b6.2, d6.1, d6.2, key.1, key.2]

/-- Distance after `j` links, from `d`: each link adds `γ` and amplifies distances by `ρ`. -/
def drift (γ ρ : ℝ) : ℕ → ℝ → ℝ
  | 0, d => d
  | j + 1, d => drift γ ρ j (ρ * d + γ)

theorem drift_mono {γ ρ : ℝ} (hρ : 0 ≤ ρ) : ∀ j {d d' : ℝ}, d ≤ d' → drift γ ρ j d ≤ drift γ ρ j d'
  | 0, _, _, h => h
  | j + 1, _, _, h => drift_mono hρ j (by have := mul_le_mul_of_nonneg_left h hρ; linarith)

theorem trajLoop_perturbed {kind : PPKind} {tol m L ε κ lo hi : ℝ} {n N : ℕ} {c c' : ℕ → Cast (Fl ℝ)} {A B : ℕ → ℝ} (E : EosOn eos e smin)
    (htol : 0 < tol) (hm : 0 < m) (hL : 0 ≤ L) (hS : Section eos e smin kind tol m L ε n N c A B)
    (hgood : ∀ i, i ≤ N → ∃ k K a s t, GoodCast (c' i) k K a s t ∧ (∀ j, k ≤ j → j < K → smin ≤ s j) ∧ a k = A i ∧ a (K - 1) = B i)
    (hback : ∀ i, i < N → Sloped e kind (c (i + 1)) (c i) (A (i + 1)) (B (i + 1)) (A i) (B i) m L)
    (hclose : ∀ i, i ≤ N → Close e kind (c i) (c' i) (A i) (B i) lo hi κ) (hlo : ∀ i, i ≤ N → lo ≤ A i ∧ B i ≤ hi)
    {p σ τ : ℕ → ℝ} (hp : ∀ i, i ≤ N → A i ≤ p i ∧ p i ≤ B i ∧ At kind (c i) (p i) (σ i) (τ i))
    (hl : ∀ i, i < N → ntpBottleToCast (n + 13) (fin tol) eos kind (fin (σ i)) (fin (τ i)) (fin (p i)) (c (i + 1)) =
      .ret (fin (σ (i + 1)), fin (τ (i + 1)), fin (p (i + 1)))) :
    ∀ (M i : ℕ), i + M = N → ∀ (d q σ' τ' : ℝ), A i ≤ q → q ≤ B i → At kind (c' i) q σ' τ' → |q - p i| ≤ d →
    (∀ j, j < M → A (i + 1 + j) + drift (2 * κ / m + 2 * ε) (L / m) (j + 1) d ≤ p (i + 1 + j) ∧ p (i + 1 + j) + drift (2 * κ / m + 2 * ε) (L / m) (j + 1) d ≤ B (i + 1 + j)) →
    ∃ r : List (Fl ℝ × Fl ℝ × Fl ℝ), trajLoop (n + 13) (fin tol) eos kind (fin σ', fin τ', fin q) ((List.range M).map fun j => c' (i + 1 + j)) = .ret r ∧ r.length = M ∧
      ∀ j, j < M → ∃ x y q', r[j]? = some (x, y, fin q') ∧ |q' - p (i + 1 + j)| ≤ drift (2 * κ / m + 2 * ε) (L / m) (j + 1) d := by
  intro M
  induction M with
  | zero => intro i _ d q σ' τ' _ _ _ _ _; exact ⟨[], rfl, rfl, fun j hj => absurd hj (by omega)⟩
  | succ M ih =>
    intro i hi d q σ' τ' hq1 hq2 hat hd hmar
    obtain ⟨k1, K1, a1, s1, t1, G1, hs1, e1, e1'⟩ := hS.good i (by omega)
    obtain ⟨k1', K1', a1', s1', t1', G1', hs1', f1, f1'⟩ := hgood i (by omega)
    obtain ⟨k2, K2, a2, s2, t2, G2, hs2, e2, e2'⟩ := hS.good (i + 1) (by omega)
    obtain ⟨k2', K2', a2', s2', t2', G2', hs2', f2, f2'⟩ := hgood (i + 1) (by omega)
    have hf := hS.fuel (i + 1) (by omega)
    have hD := hback i (by omega)
    have hc2 := hclose (i + 1) (by omega)
    rw [← e2, ← e2'] at hf hD hc2
    obtain ⟨p1, p2, p3⟩ := hp i (by omega)
    obtain ⟨p1', p2', p3'⟩ := hp (i + 1) (by omega)
    obtain ⟨u, w, hu, -⟩ := curves_at (x := q) kind G1 hs1 (by rw [e1]; exact hq1) (by rw [e1']; exact hq2)
    have hσ : smin ≤ σ i := at_smin kind G1 hs1 (by rw [e1]; exact p1) (by rw [e1']; exact p2) p3
    have hσ' : smin ≤ σ' := at_smin kind G1' hs1' (by rw [f1]; exact hq1) (by rw [f1']; exact hq2) hat
    obtain ⟨r, hr, hr1, hr2⟩ := ntp_perturbed kind E G2 hs2 G2' hs2' (by rw [e2, f2]) (by rw [e2', f2']) htol hm n hf hD (hclose i (by omega)) hc2
      ⟨(hlo i (by omega)).1, by rw [e2]; exact (hlo (i + 1) (by omega)).1⟩ ⟨(hlo i (by omega)).2, by rw [e2']; exact (hlo (i + 1) (by omega)).2⟩
      p1 p2 hq1 hq2 p3 hat hu hσ hσ' (hl i (by omega))
    have hε := hS.acc (i + 1) (by omega) _ p1' p2'
    have hε0 : 0 ≤ acc tol (p (i + 1)) := by unfold acc; positivity
    have hLm : 0 ≤ L / m := div_nonneg hL hm.le
    have hle : (κ + κ + L * |q - p i|) / m ≤ L / m * d + 2 * κ / m := by
      have : (κ + κ + L * |q - p i|) / m = L / m * |q - p i| + 2 * κ / m := by field_simp; ring
      rw [this]
      have := mul_le_mul_of_nonneg_left hd hLm
      linarith
    have hmar0 := hmar 0 (by omega)
    simp only [drift, Nat.add_zero] at hmar0
    obtain ⟨q1, hq1'⟩ := hr2 (by rw [e2]; linarith [hmar0.1]) (by rw [e2']; linarith [hmar0.2])
    obtain ⟨x, y, z⟩ := r
    simp only at hq1'
    subst hq1'
    have hdd := hr1 q1 rfl
    obtain ⟨σ1, τ1, rfl, rfl, hat1, b1, b2⟩ := link_at kind E G2' hs2' hσ' htol n (by rw [f2, f2', ← e2, ← e2']; exact hf) hr
    rw [f2] at b1
    rw [f2'] at b2
    have hε1 := hS.acc (i + 1) (by omega) _ b1 b2
    have hd' : |q1 - p (i + 1)| ≤ L / m * d + (2 * κ / m + 2 * ε) := by linarith
    obtain ⟨rs, hrs, hlen, hall⟩ := ih (i + 1) (by omega) _ q1 σ1 τ1 b1 b2 hat1 hd' (fun j hj => by
      have := hmar (j + 1) (by omega)
      rw [show i + 1 + (j + 1) = i + 1 + 1 + j by omega] at this
      exact this)
    have hlist : (List.range (M + 1)).map (fun j => c' (i + 1 + j)) = c' (i + 1) :: (List.range M).map fun j => c' (i + 1 + 1 + j) := by
      rw [List.range_succ_eq_map, List.map_cons, List.map_map]
      congr 1
      apply List.map_congr_left
      intro j _
      show c' (i + 1 + (j + 1)) = _
      rw [show i + 1 + (j + 1) = i + 1 + 1 + j by omega]
    refine ⟨(fin σ1, fin τ1, fin q1) :: rs, ?_, by simp [hlen], fun j hj => ?_⟩
    · rw [hlist]
      simp only [trajLoop, hr, Outcome.bind, isNaN_fin, hrs]
      rfl
    · cases j with
      | zero => exact ⟨_, _, q1, rfl, hd'⟩
      | succ j =>
        obtain ⟨x, y, q', g1, g2⟩ := hall j (by omega)
        refine ⟨x, y, q', by simpa using g1, ?_⟩
        rw [show i + 1 + (j + 1) = i + 1 + 1 + j by omega]
        exact g2

/-- **C163** A neutral trajectory over `N + 1` casts, at the pressures `p`, and the trajectory over casts whose water differs by at most `κ` in density, from another pressure: if each
`p i` is far enough from the ends of its cast the second trajectory exists on all casts too, and at cast `i` it is within `drift i` of the first. -/
theorem trajectory_perturbed {kind : PPKind} {tol m L ε κ lo hi : ℝ} {n N : ℕ} {c c' : ℕ → Cast (Fl ℝ)} {A B : ℕ → ℝ} (E : EosOn eos e smin)
    (htol : 0 < tol) (hm : 0 < m) (hL : 0 ≤ L) (hS : Section eos e smin kind tol m L ε n N c A B)
    (hgood : ∀ i, i ≤ N → ∃ k K a s t, GoodCast (c' i) k K a s t ∧ (∀ j, k ≤ j → j < K → smin ≤ s j) ∧ a k = A i ∧ a (K - 1) = B i)
    (hback : ∀ i, i < N → Sloped e kind (c (i + 1)) (c i) (A (i + 1)) (B (i + 1)) (A i) (B i) m L)
    (hclose : ∀ i, i ≤ N → Close e kind (c i) (c' i) (A i) (B i) lo hi κ) (hlo : ∀ i, i ≤ N → lo ≤ A i ∧ B i ≤ hi)
    {p0 p0' : ℝ} (h0 : A 0 ≤ p0) (h0' : p0 ≤ B 0) (h1 : A 0 ≤ p0') (h1' : p0' ≤ B 0)
    {out : List (Fl ℝ × Fl ℝ × Fl ℝ)} (hout : neutralTrajectory (n + 13) (fin tol) eos kind (fin p0) ((List.range (N + 1)).map c) = .ret out)
    {p : ℕ → ℝ} (hp : ∀ i, i ≤ N → ∃ x y, out[i]? = some (x, y, fin (p i)))
    (hmar : ∀ i, 1 ≤ i → i ≤ N → A i + drift (2 * κ / m + 2 * ε) (L / m) i |p0' - p0| ≤ p i ∧ p i + drift (2 * κ / m + 2 * ε) (L / m) i |p0' - p0| ≤ B i) :
    ∃ out' : List (Fl ℝ × Fl ℝ × Fl ℝ), neutralTrajectory (n + 13) (fin tol) eos kind (fin p0') ((List.range (N + 1)).map c') = .ret out' ∧ out'.length = N + 1 ∧
      ∀ i, i ≤ N → ∃ x y q, out'[i]? = some (x, y, fin q) ∧ |q - p i| ≤ drift (2 * κ / m + 2 * ε) (L / m) i |p0' - p0| := by
  obtain ⟨e0, σ, τ, hpt, hl⟩ := trajectory_points E htol hS h0 h0' hout hp
  obtain ⟨k, K, a, s, t, G, hs, f1, f2⟩ := hgood 0 (Nat.zero_le _)
  obtain ⟨σ0, τ0, hat, hst⟩ := curves_at (x := p0') kind G hs (by rw [f1]; exact h1) (by rw [f2]; exact h1')
  obtain ⟨r, r1, r2, r3⟩ := trajLoop_perturbed E htol hm hL hS hgood hback hclose hlo hpt hl N 0 (by omega) |p0' - p0| p0' σ0 τ0 h1 h1' hat (by rw [e0])
    (fun j hj => by
      have := hmar (0 + 1 + j) (by omega) (by omega)
      rwa [show drift (2 * κ / m + 2 * ε) (L / m) (0 + 1 + j) = drift (2 * κ / m + 2 * ε) (L / m) (j + 1) by rw [show 0 + 1 + j = j + 1 by omega]] at this)
  have hlist : (List.range (N + 1)).map c' = c' 0 :: (List.range N).map fun j => c' (0 + 1 + j) := by
    rw [List.range_succ_eq_map, List.map_cons, List.map_map]
    congr 1
    apply List.map_congr_left
    intro j _
    show c' (j + 1) = _
    rw [show 0 + 1 + j = j + 1 by omega]
  refine ⟨(fin σ0, fin τ0, fin p0') :: r, ?_, by simp [r2], fun i hi => ?_⟩
  · rw [hlist]
    simp only [neutralTrajectory, hst, Outcome.bind, isNaN_fin, r1]
    rfl
  · cases i with
    | zero => exact ⟨_, _, p0', rfl, by rw [e0]; exact le_rfl⟩
    | succ i =>
      obtain ⟨x, y, q, g1, g2⟩ := r3 i (by omega)
      rw [show 0 + 1 + i = i + 1 by omega] at g2
      exact ⟨x, y, q, by simpa using g1, g2⟩

/-! ## Examples -/

/-- `exCast` with salinities that differ by 0.01 at the top and at the bottom -/
noncomputable def pertCast : Cast (Fl ℝ) :=
  ⟨Arr.ofList [Fl.nan, fin (35 + 1 / 100), fin 36, fin (37 - 1 / 100), Fl.nan], exCast.T, exCast.P⟩

theorem pertGood : GoodCast pertCast 1 4 (fun i => if i = 1 then 0 else if i = 2 then 1 else 3)
    (fun i => if i = 1 then 35 + 1 / 100 else if i = 2 then 36 else 37 - 1 / 100) (fun i => if i = 1 then 5 else if i = 2 then 4 else 3) := by
  refine ⟨⟨rfl, by omega, by decide, ?_, fun _ => Or.inr rfl, ?_, ?_, exGood.S.inc⟩, exGood.T⟩
  · intro i hi
    have : i = 0 := by omega
    subst this; exact Or.inr rfl
  · intro i h1 h2
    have : i = 1 ∨ i = 2 ∨ i = 3 := by omega
    rcases this with rfl | rfl | rfl <;> rfl
  · intro i h1 h2
    have : i = 1 ∨ i = 2 ∨ i = 3 := by omega
    rcases this with rfl | rfl | rfl <;> rfl

theorem pertClose (lo hi : ℝ) : Close (fun s t _ => s - t) .linear exCast pertCast 0 3 lo hi (1 / 100) := by
  have := close_linear (e := fun s t _ => s - t) (δs := 1 / 100) (δt := 0) (Ls := 1) (Lt := 1) (s0 := 0) (s1 := 40) (t0 := 0) (t1 := 40) (lo := lo) (hi := hi) exGood pertGood
    (fun i h1 h2 => by split_ifs <;> norm_num) (fun i h1 h2 => by simp) (fun i h1 h2 => by split_ifs <;> norm_num)
    (fun i h1 h2 => by split_ifs <;> norm_num) zero_le_one zero_le_one (fun σ τ σ' τ' p _ _ _ _ _ _ _ _ _ _ => by
      rw [one_mul, one_mul, show σ' - τ' - (σ - τ) = (σ' - σ) - (τ' - τ) by ring]
      exact abs_sub _ _)
  norm_num at this ⊢
  exact this

example (lo hi : ℝ) : Close (fun s t _ => s - t) .pchip exCast pertCast 0 3 lo hi (4 / 100) := by
  have := close_pchip (e := fun s t _ => s - t) (δs := 1 / 100) (δt := 0) (Ls := 1) (Lt := 1) (s0 := 0) (s1 := 40) (t0 := 0) (t1 := 40) (lo := lo) (hi := hi) (h := 1) (H := 2)
    exGood pertGood (fun i h1 h2 => by split_ifs <;> norm_num) (fun i h1 h2 => by simp) one_pos
    (fun i h1 h2 => by
      have : i = 1 ∨ i = 2 := by omega
      rcases this with rfl | rfl <;> norm_num)
    (fun i h1 h2 => by split_ifs <;> norm_num)
    (fun i h1 h2 => by split_ifs <;> norm_num) zero_le_one zero_le_one (fun σ τ σ' τ' p _ _ _ _ _ _ _ _ _ _ => by
      rw [one_mul, one_mul, show σ' - τ' - (σ - τ) = (σ' - σ) - (τ' - τ) by ring]
      exact abs_sub _ _)
  norm_num at this ⊢
  exact this

/-- With JMD95 and PCHIP the two casts differ by at most 0.0356 kg m⁻³. -/
example : Close Jmd95.density .pchip exCast pertCast 0 3 0 10000 ((1 + 3 / 2 * (2 / 1)) * (0.89 * (1 / 100) + 1.25 * 0)) := by
  have := jmd95_close .pchip (δs := 1 / 100) (δt := 0) (h := 1) (H := 2) exGood pertGood one_pos (fun i h1 h2 => by
      have : i = 1 ∨ i = 2 := by omega
      rcases this with rfl | rfl <;> norm_num)
    (fun i h1 h2 => by split_ifs <;> norm_num) (fun i h1 h2 => by simp) (fun i h1 h2 => by split_ifs <;> norm_num) (fun i h1 h2 => by split_ifs <;> norm_num)
  norm_num at this ⊢
  exact this

example : Close Jmdfwg06.density .linear exCast pertCast 0 3 0 10000 (1.51 * (1 / 100) + 1.16 * 0) := by
  have := jmdfwg06_close .linear (δs := 1 / 100) (δt := 0) (h := 1) (H := 2) exGood pertGood one_pos (fun i h1 h2 => by
      have : i = 1 ∨ i = 2 := by omega
      rcases this with rfl | rfl <;> norm_num)
    (fun i h1 h2 => by split_ifs <;> norm_num) (fun i h1 h2 => by simp) (fun i h1 h2 => by split_ifs <;> norm_num) (fun i h1 h2 => by split_ifs <;> norm_num)
  norm_num at this ⊢
  exact this

/-- PCHIP of the two salinities. -/
example {x v v' : ℝ} (h0 : 0 ≤ x) (h3 : x ≤ 3) (hv : interpAt .pchip (fin x) exCast.P exCast.S = some (fin v)) (hv' : interpAt .pchip (fin x) pertCast.P pertCast.S = some (fin v')) :
    |v' - v| ≤ (1 + 3 / 2 * (2 / 1)) * (1 / 100) :=
  pchip_near exGood.S pertGood.S one_pos (fun i h1 h2 => by
      have : i = 1 ∨ i = 2 := by omega
      rcases this with rfl | rfl <;> norm_num) (fun i h1 h2 => by split_ifs <;> norm_num) (by norm_num; exact h0) (by norm_num; exact h3) hv hv'

theorem exStrat {x y σ τ σ' τ' : ℝ} (h1 : 0 ≤ x) (h2 : x ≤ y) (h3 : y ≤ 3) (g1 : At .linear exCast x σ τ) (g2 : At .linear exCast y σ' τ') :
    1 * (y - x) ≤ σ' - τ' - (σ - τ) := by
  have q1 := exLinear h1 (h2.trans h3) g1
  have q2 := exLinear (h1.trans h2) h3 g2
  rw [q1, q2]
  split_ifs <;> linarith

/-- Potential density and anomaly surfaces of the two casts. -/
example (v v' : ℝ) : ∃ r r', vertsolve1 (600 + 13) (fin (1 / 100)) .linear (fun P Sp Tp => zeroPotential (fun s t _ => s - t) P Sp Tp (fin 0) (fin v)) exCast = .ret r ∧
    vertsolve1 (600 + 13) (fin (1 / 100)) .linear (fun P Sp Tp => zeroPotential (fun s t _ => s - t) P Sp Tp (fin 0) (fin v')) pertCast = .ret r' ∧
    ∀ p, r.2.2 = fin p → ∀ p', r'.2.2 = fin p' → |p' - p| ≤ (1 / 100 + |v' - v|) / 1 + acc (1 / 100) p + acc (1 / 100) p' := by
  obtain ⟨r, r', h1, h2, h3⟩ := potential_perturbed (v := v) (v' := v') (refP := 0) (tol := 1 / 100) (m := 1) (κ := 1 / 100) .linear exEos exGood pertGood
    (fun i _ _ => by split_ifs <;> norm_num) (fun i _ _ => by split_ifs <;> norm_num) (by norm_num) one_pos 600 (by norm_num)
    (fun x y σ τ σ' τ' h1 h2 h3 g1 g2 => exStrat (by norm_num at h1; exact h1) h2 (by norm_num at h3; exact h3) g1 g2) (by have := pertClose 0 0; norm_num at this ⊢; exact this)
  exact ⟨r, r', h1, h2, fun p hp => (h3 p hp).1⟩

example (v v' : ℝ) : ∃ r r', vertsolve1 (600 + 13) (fin (1 / 100)) .linear (fun P Sp Tp => zeroAnomaly (fun s t _ => s - t) P Sp Tp (fin 35, fin 5) (fin v)) exCast = .ret r ∧
    vertsolve1 (600 + 13) (fin (1 / 100)) .linear (fun P Sp Tp => zeroAnomaly (fun s t _ => s - t) P Sp Tp (fin 35, fin 5) (fin v')) pertCast = .ret r' ∧
    ∀ p, r.2.2 = fin p → ∀ p', r'.2.2 = fin p' → |p' - p| ≤ (1 / 100 + |v' - v|) / 1 + acc (1 / 100) p + acc (1 / 100) p' := by
  obtain ⟨r, r', h1, h2, h3⟩ := anomaly_perturbed (v := v) (v' := v') (refS := 35) (refT := 5) (tol := 1 / 100) (m := 1) (κ := 1 / 100) .linear exEos exGood pertGood
    (fun i _ _ => by split_ifs <;> norm_num) (fun i _ _ => by split_ifs <;> norm_num) (by norm_num) (by norm_num) one_pos 600 (by norm_num)
    (fun x y σ τ σ' τ' h1 h2 h3 g1 g2 => by
      rw [sub_sub_sub_cancel_right]
      exact exStrat (by norm_num at h1; exact h1) h2 (by norm_num at h3; exact h3) g1 g2) (by have := pertClose 0 3; norm_num at this ⊢; exact this)
  exact ⟨r, r', h1, h2, fun p hp => (h3 p hp).1⟩

/-- Trajectories over two casts, from pressure 1 over the given ones and from 101/100 over the perturbed ones. -/
example : ∃ out' : List (Fl ℝ × Fl ℝ × Fl ℝ), ∃ out x y p x' y' q,
    neutralTrajectory (600 + 13) (fin (1/100)) (fun s t _ => s - t) .linear (fin 1) ((List.range (1 + 1)).map fun _ => exCast) = .ret out ∧
    neutralTrajectory (600 + 13) (fin (1/100)) (fun s t _ => s - t) .linear (fin (101 / 100)) ((List.range (1 + 1)).map fun _ => pertCast) = .ret out' ∧
    out[1]? = some (x, y, fin p) ∧ out'[1]? = some (x', y', fin q) ∧ |q - p| ≤ 9 / 100 := by
  obtain ⟨out, p, ho, hp⟩ := exTrajectory (x := 1) (by norm_num) (by norm_num)
  have h1 : |p - 1| ≤ 3 / 50 := by
    obtain ⟨e0, σ, τ, hpt, hl⟩ := trajectory_points exEos (by norm_num) (exSection 1) (by norm_num) (by norm_num) ho hp
    have hs := hl 0 one_pos
    obtain ⟨gS, gT, hi, g⟩ := ntp_spec .linear exEos exGood (fun i _ _ => by split_ifs <;> norm_num) (sB := σ 0) (tB := τ 0) (pB := 1) (tol := 1 / 100)
      (at_smin .linear exGood (smin := 0) (fun i _ _ => by split_ifs <;> norm_num) (by norm_num) (by norm_num) (hpt 0 (by omega)).2.2) (by norm_num) 600 (by norm_num)
    rcases g with ⟨g, -⟩ | ⟨q1, z, g, b1, b2, b3, b4, b5, b6⟩
    · exact absurd (hs.symm.trans g) (by simp)
    · have := hs.symm.trans g
      simp only [Fzero.Outcome.ret.injEq, Prod.mk.injEq, Fl.fin.injEq] at this
      obtain rfl : p = q1 := by simpa using this.2.2
      norm_num at b3 b4 b1 b2 hi
      have q1 := exLinear b3 b4 (hi z b3 b4)
      have q0 := exLinear (by norm_num) (by norm_num) (hpt 0 (by omega)).2.2
      norm_num at q0
      have hz : z = 1 := by
        rw [← b5, q0] at q1
        split_ifs at q1 <;> linarith
      rw [hz] at b6
      rw [abs_sub_comm]
      refine b6.trans ?_
      rw [abs_of_nonneg b1]
      norm_num
      linarith
  rw [abs_le] at h1
  obtain ⟨out', ho', -, h⟩ := trajectory_perturbed (N := 1) (κ := 1 / 100) (lo := 0) (hi := 3) (p0' := 101 / 100) exEos (by norm_num) one_pos two_pos.le (exSection 1)
    (c' := fun _ => pertCast) (fun i _ => ⟨1, 4, _, _, _, pertGood, fun i _ _ => by split_ifs <;> norm_num, by norm_num, by norm_num⟩)
    (fun i hi => (exSection (i + 1)).sloped i (by omega)) (fun _ _ => pertClose 0 3) (fun _ _ => ⟨le_rfl, le_rfl⟩)
    (by norm_num) (by norm_num) (by norm_num) (by norm_num) ho hp (fun i hi1 hi2 => by
      obtain rfl : i = 1 := by omega
      norm_num [drift]
      constructor <;> linarith [h1.1, h1.2])
  obtain ⟨x, y, e1⟩ := hp 1 le_rfl
  obtain ⟨x', y', q, e2, e3⟩ := h 1 le_rfl
  norm_num [drift] at e3
  exact ⟨out', out, x, y, p, x', y', q, ho, ho', by simpa using e1, e2, by linarith⟩

end VertSolve

namespace Omega
open FloatLike Lib Traj Bfs VertSolve Interp
open Fl hiding nan

/-- **C163** Whole omega surfaces, for a density without thermobaricity: two oceans, whose water differs at each point by at most `κ` in density, with any grids, initial surfaces and
formulations, but the same pinning point.  Where both surfaces exist they differ by at most twice this, and the errors of the matrix solvers, over the stratification. -/
theorem omegaSurf_perturbed {o o' : Opts (Fl ℝ)} {dims dims' : Option (List String)} {coord coord' : String → Option (List ℚ)} {S T S' T' : Nd (Fl ℝ)} {P P' : PArg (Fl ℝ)}
    {v v' : ℕ} {pr pr' : List ℕ → ℕ → Fl ℝ} {L L' : List Link} {pc pc' : PinCast} {m0 : List ℕ} {p0 : ℝ} {e : ℝ → ℝ → ℝ → ℝ} {smin tol tol' : ℝ} {n n' : ℕ}
    {b b' : List ℕ → ℕ → ℝ} {f : ℝ → ℝ → ℝ} (hk : o'.kind = o.kind) (C : Call o dims coord S T P v pr L pc m0 p0 e smin tol n b)
    (C' : Call o' dims' coord' S' T' P' v' pr' L' pc' m0 p0 e smin tol' n' b') (hsh : S'.shape.eraseIdx v' = S.shape.eraseIdx v)
    (hN : NoThermobaricity o.eosST e smin f) (hN' : NoThermobaricity o'.eosST e smin f) {β β' μ κ : ℝ} (hμ : 0 < μ)
    (hβ : ∀ q m, 0 ≤ b q m ∧ b q m ≤ β) (hβ' : ∀ q m, 0 ≤ b' q m ∧ b' q m ≤ β')
    (hst : ∀ m, Valid (S.shape.eraseIdx v) m → ∀ z z' σ τ σ' τ', z ≤ z' → On o.kind (castAt S T pr v m) σ τ z → On o.kind (castAt S T pr v m) σ' τ' z' →
      μ * (z' - z) ≤ f σ' τ' - f σ τ)
    (hc : ∀ m, Valid (S.shape.eraseIdx v) m → ∀ z σ' τ', On o.kind (castAt S' T' pr' v' m) σ' τ' z →
      ∃ σ τ, On o.kind (castAt S T pr v m) σ τ z ∧ |f σ' τ' - f σ τ| ≤ κ)
    {init init' : PArgInit (Fl ℝ)} (hI : Starts (S.shape.eraseIdx v) m0 p0 init) (hI' : Starts (S.shape.eraseIdx v) m0 p0 init')
    (hpass : 1 ≤ o.iterMax) (hpass' : 1 ≤ o'.iterMax) :
    ∃ out st out' st', omegaSurf o dims coord S T P (gridOf L) pc init = .ok (S.shape.eraseIdx v, out, st) ∧
      omegaSurf o' dims' coord' S' T' P' (gridOf L') pc' init' = .ok (S.shape.eraseIdx v, out', st') ∧
      ∀ m, Valid (S.shape.eraseIdx v) m → ∀ p p', (out m).2.2 = fin p → (out' m).2.2 = fin p' →
        |p' - p| ≤ (2 * κ + β + β') / μ + acc tol p + acc tol' p' := by
  obtain ⟨out, st, s0, t0, h1, h2, -, h4⟩ := omegaSurf_isopycnal C hN hβ hI hpass
  obtain ⟨out', st', s0', t0', h1', h2', -, h4'⟩ := omegaSurf_isopycnal C' hN' hβ' (by rw [hsh]; exact hI') hpass'
  rw [hk] at h2' h4'
  rw [hsh] at h1' h4'
  refine ⟨out, st, out', st', h1, h1', fun m hm p p' hp hp' => ?_⟩
  have hpin : |f s0' t0' - f s0 t0| ≤ κ := by
    obtain ⟨σ, τ, g1, g2⟩ := hc m0 C.valid _ _ _ h2'
    have e1 := g1.1.symm.trans h2.1
    have e2 := g1.2.symm.trans h2.2
    simp only [Option.some.injEq, Fl.fin.injEq] at e1 e2
    rwa [e1, e2] at g2
  rcases h4 m hm with h | ⟨s, t, q, z, sz, tz, k1, -, k3, k4, k5⟩ | ⟨h, -⟩
  · rw [h] at hp; cases hp
  · rw [k1] at hp
    cases hp
    rcases h4' m hm with h | ⟨s', t', q', z', sz', tz', j1, -, j3, j4, j5⟩ | ⟨h, -⟩
    · rw [h] at hp'; cases hp'
    · rw [j1] at hp'
      cases hp'
      obtain ⟨σ, τ, g1, g2⟩ := hc m hm _ _ _ j3
      rw [abs_le] at k4 j4 k5 j5 g2 hpin
      have hmul : μ * ((2 * κ + β + β') / μ) = 2 * κ + β + β' := by field_simp
      have key : |z' - z| ≤ (2 * κ + β + β') / μ := by
        rw [abs_le]
        rcases le_total z z' with hz | hz
        · have l := hst m hm _ _ _ _ _ _ hz k3 g1
          have : μ * (z' - z) ≤ μ * ((2 * κ + β + β') / μ) := by rw [hmul]; linarith [k4.1, k4.2, j4.1, j4.2, g2.1, g2.2, hpin.1, hpin.2]
          have := le_of_mul_le_mul_left this hμ
          constructor <;> linarith
        · have l := hst m hm _ _ _ _ _ _ hz g1 k3
          have : μ * (z - z') ≤ μ * ((2 * κ + β + β') / μ) := by rw [hmul]; linarith [k4.1, k4.2, j4.1, j4.2, g2.1, g2.2, hpin.1, hpin.2]
          have := le_of_mul_le_mul_left this hμ
          constructor <;> linarith
      rw [abs_le] at key ⊢
      constructor <;> linarith [k5.1, k5.2, j5.1, j5.2, key.1, key.2]
    · rw [h] at hp'; cases hp'
  · rw [h] at hp; cases hp

/-! ## Example -/

/-- salinities of `pertCast` -/
noncomputable def pertS : Nd (Fl ℝ) := ⟨[5, 1, 3], fun i => if i.getD 2 0 = 2 then Fl.nan else pertCast.S.get (i.getD 0 0)⟩

theorem pert_cast {m : List ℕ} (hm : Valid [1, 3] m) : ∃ j, m = [0, j] ∧
    castAt pertS apiT (fun _ k => exCast.P.get k) 0 m = ⟨⟨5, fun k => if j = 2 then Fl.nan else pertCast.S.get k⟩,
      ⟨5, fun k => if j = 2 then Fl.nan else exCast.T.get k⟩, exCast.P⟩ := by
  obtain ⟨j, hj, -⟩ := api_cast hm
  exact ⟨j, hj, by rw [hj]; rfl⟩

theorem pert_call {f : String} {spsolve} {lsqr} {b} (hf : Formulated (apiO f spsolve lsqr) 2 b) {p : ℝ} (h0 : 0 ≤ p) (h3 : p ≤ 3) :
    Call { apiO f spsolve lsqr with kind := .linear } none (fun _ => none) pertS apiT (.small 5 exCast.P.get) 0 (fun _ k => exCast.P.get k)
      [⟨(0, 1), 1, 4⟩, ⟨(1, 2), 2, 4⟩] (.tuple [0, 1]) [0, 1] p (fun s t _ => s - t) 0 (1 / 100) 600 b := by
  have C := api_call hf
  refine ⟨⟨rfl, by decide, rfl, rfl, fun _ _ => rfl⟩, C.horiz, C.pin, C.valid, C.within, C.dist, C.solver, C.tolEq, C.tolPos, C.fuel, C.enough, C.eos, C.der, ?_, ?_, ?_, C.diags⟩
  · intro m hm
    obtain ⟨j, -, hj⟩ := pert_cast hm
    rw [hj]
    by_cases h : j = 2
    · left; simp only [h, if_true]; constructor <;> decide
    · right; simp only [h, if_false]
      exact ⟨_, _, 1, 4, _, _, _, pertGood, fun i _ _ => by split_ifs <;> norm_num, by norm_num, rfl, rfl⟩
  · obtain ⟨j, h, hj⟩ := pert_cast (m := [0, 1]) (by unfold Valid; simp)
    obtain rfl : j = 1 := by simpa using h.symm
    rw [hj]
    exact ⟨0, 3, ⟨1, 4, _, _, _, pertGood, fun i _ _ => by split_ifs <;> norm_num, by norm_num, by norm_num, by norm_num⟩, h0, h3⟩
  · intro x h; cases h

theorem land_off {z σ : ℝ} (h1 : interpAt .linear (fin z) exCast.P (⟨5, fun _ => Fl.nan⟩ : Arr (Fl ℝ)) = some (fin σ)) : False := by
  have h1 : linearInterp1 (fin z) exCast.P ⟨5, fun _ => Fl.nan⟩ 0 = some (fin σ) := h1
  unfold linearInterp1 ppinterp1 at h1
  dsimp only at h1
  split_ifs at h1
  · cases h1
  · unfold linearCoeffsI sdiv at h1
    dsimp only at h1
    split_ifs at h1
    · simp at h1
    · simp only [Option.bind_eq_bind, Option.bind_some, pure, pval, if_true, List.foldl_cons, List.foldl_nil, Option.some.injEq] at h1
      exact absurd h1 (by simp)

/-- The omega surfaces of the given ocean and of the perturbed one. -/
example : ∃ spsolve lsqr, ∃ out st out' st',
    omegaSurf { apiO "Poisson" spsolve lsqr with kind := .linear } none (fun _ => none) apiS apiT (.small 5 exCast.P.get) (gridOf [⟨(0, 1), 1, 4⟩, ⟨(1, 2), 2, 4⟩])
      (.tuple [0, 1]) (.scalar (fin 1)) = .ok ([1, 3], out, st) ∧
    omegaSurf { apiO "Poisson" spsolve lsqr with kind := .linear } none (fun _ => none) pertS apiT (.small 5 exCast.P.get) (gridOf [⟨(0, 1), 1, 4⟩, ⟨(1, 2), 2, 4⟩])
      (.tuple [0, 1]) (.scalar (fin 1)) = .ok ([1, 3], out', st') ∧
    ∀ m, Valid [1, 3] m → ∀ p p', (out m).2.2 = fin p → (out' m).2.2 = fin p' → |p' - p| ≤ (2 * (1 / 100) + 0 + 0) / 1 + acc (1 / 100) p + acc (1 / 100) p' := by
  obtain ⟨⟨spsolve, hs⟩, -⟩ := OmegaMat.exact_solvers_exist (α := ℝ)
  have hf : Formulated (apiO "Poisson" spsolve fun _ _ _ _ _ => Fl.nan) 2 fun _ _ => 0 :=
    .inl ⟨by show "Poisson".toLower = _; decide +kernel, 0, le_rfl, hs.near, by simp⟩
  have hN : NoThermobaricity (apiO "Poisson" spsolve fun _ _ _ _ _ => Fl.nan).eosST (fun s t _ => s - t) 0 (fun s t => s - t) :=
    ⟨⟨fun _ => 0, fun _ _ _ _ => by ring⟩, fun s0 t0 s1 t1 p _ _ => ⟨1, -1, rfl, by ring⟩⟩
  refine ⟨spsolve, fun _ _ _ _ _ => Fl.nan, omegaSurf_perturbed (f := fun s t => s - t) rfl (linear_call hf (p := 1) (by norm_num) (by norm_num))
    (pert_call hf (by norm_num) (by norm_num)) rfl hN hN (β := 0) (β' := 0) (μ := 1) (κ := 1 / 100) one_pos (fun _ _ => ⟨le_rfl, le_rfl⟩) (fun _ _ => ⟨le_rfl, le_rfl⟩)
    (fun m hm z z' σ τ σ' τ' hz h h' => ?_) (fun m hm z σ' τ' h => ?_) rfl rfl (by show 1 ≤ 10; norm_num) (by show 1 ≤ 10; norm_num)⟩
  · obtain ⟨j, -, hj⟩ := api_cast hm
    rw [hj] at h h'
    by_cases hj2 : j = 2
    · simp only [hj2, if_true] at h
      exact (land_off h.1).elim
    · simp only [hj2, if_false] at h h'
      obtain ⟨a, -⟩ := On.range exGood (show On .linear exCast σ τ z from h)
      obtain ⟨-, b'⟩ := On.range exGood (show On .linear exCast σ' τ' z' from h')
      norm_num at a b'
      exact exStrat a hz b' h h'
  · obtain ⟨j, rfl, hj⟩ := pert_cast hm
    obtain ⟨j', hj1, hj'⟩ := api_cast hm
    obtain rfl : j = j' := by simpa using hj1
    rw [hj] at h
    rw [hj']
    by_cases hj2 : j = 2
    · simp only [hj2, if_true] at h
      exact (land_off h.1).elim
    · simp only [hj2, if_false] at h ⊢
      obtain ⟨a, b⟩ := On.range pertGood (show On .linear pertCast σ' τ' z from h)
      obtain ⟨σ, τ, hat, -⟩ := curves_at (x := z) .linear exGood (smin := 0) (fun i _ _ => by split_ifs <;> norm_num) a b
      norm_num at a b
      exact ⟨σ, τ, hat, pertClose 0 0 z _ _ _ _ 0 a b hat h le_rfl le_rfl⟩

end Omega
