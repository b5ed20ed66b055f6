import Verif.Props.UnitsRun
import Verif.Props.OmegaTotal

/-! # Units do not matter, continued: the mixed layer; the hypotheses are met (C143) -/

set_option linter.unusedSectionVars false

namespace UnitChange
open FloatLike Fzero Interp Traj VertSolve
open Fl hiding nan
variable {α : Type*} [Field α] [LinearOrder α] [IsStrictOrderedRing α]

/-! ## Mixed layer -/

theorem aff_zero {h : α} (x : Fl α) : aff h 0 x = sc h x := by
  cases hx : sc h x with
  | nan => unfold aff; rw [hx]; rfl
  | pinf => unfold aff; rw [hx]; rfl
  | ninf => unfold aff; rw [hx]; rfl
  | fin y => unfold aff; rw [hx, fin_add, add_zero]

theorem ppinterp1_sc {k h : α} (hk : 0 < k) (hh : 0 < h) {f : Arr (Fl α) → Arr (Fl α) → ℕ → Option (List (Fl α))}
    (h1 : ∀ X Y i, f (X.map (sc k)) (Y.map (aff h 0)) i = (f X Y i).map (scRow k h 0)) (h2 : ∀ {X Y i C}, f X Y i = some C → C ≠ [])
    (x : Fl α) (X Y : Arr (Fl α)) :
    ppinterp1 f (sc k x) (X.map (sc k)) (Y.map (sc h)) 0 = (ppinterp1 f x X Y 0).map (sc h) := by
  have e0 : Y.map (sc h) = Y.map (aff h 0) := by
    unfold Arr.map
    simp only [aff_zero]
  rw [e0]
  unfold ppinterp1
  rw [validRange2_sc hk hh]
  generalize validRange2 X Y = kK
  dsimp only
  rw [outside_sc hk, pieceIndex_sc hk]
  generalize pieceIndex X kK.1 kK.2 x = i
  split_ifs
  · rfl
  · have e6 : sc k x - (X.map (sc k)).get i = sc k (x - X.get i) := sc_sub hk _ _
    rw [h1, e6]
    cases hC : f X Y i with
    | none => rfl
    | some C =>
      simp only [Option.map_some]
      rw [pval_sc hk hh _ _ (h2 hC), aff_zero]

variable {u : Change α} (hu : u.Pos)
include hu

/-- **Mixed layer**: with an equation of state that gives density (above 1 in both units, see C128 and C140 for this test), the mixed layer pressure in
other units, with the threshold a difference of densities, is the same. -/
theorem mixedLayer_units {eos eos'} (he : u.Eos eos eos') (kind : PPKind) (S T P : Arr (Fl α)) (thr refp : Fl α) (b : ℤ)
    (hd : lt (lit 1) (eos (lit (69 / 2)) (lit 3) (lit 1000)) = true) (hd' : lt (lit 1) (eos' (lit (69 / 2)) (lit 3) (lit 1000)) = true) :
    MixedLayer.mixedLayer (match kind with | .linear => linearInterp1 | .pchip => pchipInterp1) eos' (S.map u.S) (T.map u.T) (P.map u.P) (u.drho thr) (u.P refp) b =
      (MixedLayer.mixedLayer (match kind with | .linear => linearInterp1 | .pchip => pchipInterp1) eos S T P thr refp b).map u.P := by
  unfold MixedLayer.mixedLayer
  show (match MixedLayer.bottle b S.size with | none => _ | some j => _) = _
  cases MixedLayer.bottle b S.size with
  | none => rfl
  | some j =>
    have e : MixedLayer.dens eos' (S.map u.S) (T.map u.T) (u.P refp) j = (MixedLayer.dens eos S T refp j).map (sc u.k) := by
      unfold MixedLayer.dens
      rw [if_pos hd, if_pos hd']
      unfold Arr.map
      dsimp only
      simp only [show ∀ i, eos' (u.S (S.get i)) (u.T (T.get i)) (u.P refp) = u.rho (eos (S.get i) (T.get i) refp) from fun i => he _ _ _, rho_sub hu]
      rfl
    dsimp only
    rw [e]
    cases kind with
    | linear => exact ppinterp1_sc hu.k hu.h (fun X Y i => linearCoeffsI_sc hu.k hu.h X Y i) linearCoeffsI_row _ _ _
    | pchip => exact ppinterp1_sc hu.k hu.h (fun X Y i => pchipCoeffsI_sc hu.k hu.h X Y i) pchipCoeffsI_row _ _ _

/-! ## The hypotheses are met -/

omit hu in
/-- Exact solvers that are homogeneous exist: square systems. -/
theorem hom_solver_exists : ∃ f : ℕ → (ℕ → ℕ → Fl α) → (ℕ → Fl α) → ℕ → Fl α, OmegaMat.ExactSolve f ∧ HomSolve f := by
  classical
  let Q : ℕ → (ℕ → ℕ → Fl α) → (ℕ → Fl α) → (ℕ → α) → Prop := fun N L D x => ∃ (L0 : ℕ → ℕ → α) (D0 : ℕ → α), (L = fun r c => fin (L0 r c)) ∧
    (D = fun r => fin (D0 r)) ∧ (∀ r < N, ∑ c ∈ Finset.range N, L0 r c * x c = D0 r) ∧
      ∀ y : ℕ → α, (∀ r < N, ∑ c ∈ Finset.range N, L0 r c * y c = D0 r) → ∀ r < N, y r = x r
  have uniq : ∀ {N L D x y}, Q N L D x → Q N L D y → ∀ r < N, y r = x r := by
    rintro N L D x y ⟨L0, D0, rfl, rfl, h1, h2⟩ ⟨L1, D1, e1, e2, h3, -⟩ r hr
    have e1 : L0 = L1 := by
      funext r c
      exact Fl.fin.inj (congrFun (congrFun e1 r) c)
    have e2 : D0 = D1 := by
      funext r
      exact Fl.fin.inj (congrFun e2 r)
    subst e1 e2
    exact h2 y h3 r hr
  have scale : ∀ {k : α}, 0 < k → ∀ {N L D x}, Q N L D x → Q N L (fun i => sc k (D i)) fun i => k * x i := by
    rintro k hk N L D x ⟨L0, D0, rfl, rfl, h1, h2⟩
    refine ⟨L0, fun r => k * D0 r, rfl, rfl, ?_, ?_⟩
    · intro r hr
      dsimp only
      rw [← h1 r hr, Finset.mul_sum]
      exact Finset.sum_congr rfl fun c _ => by ring
    · intro y hy r hr
      have := h2 (fun i => k⁻¹ * y i) (fun r hr => by
        have := hy r hr
        calc ∑ c ∈ Finset.range N, L0 r c * (k⁻¹ * y c) = k⁻¹ * ∑ c ∈ Finset.range N, L0 r c * y c := by
              rw [Finset.mul_sum]
              exact Finset.sum_congr rfl fun c _ => by ring
          _ = D0 r := by rw [this, ← mul_assoc, inv_mul_cancel₀ hk.ne', one_mul]) r hr
      dsimp only
      rw [← this, ← mul_assoc, mul_inv_cancel₀ hk.ne', one_mul]
  refine ⟨fun N L D r => if h : (∃ x, Q N L D x) ∧ r < N then fin (h.1.choose r) else Fl.nan, ?_, ?_⟩
  · intro N L D x h1 h2 r hr
    have hQ : Q N (fun r c => fin (L r c)) (fun i => fin (D i)) x := ⟨L, D, rfl, rfl, h1, h2⟩
    have h : (∃ x, Q N (fun r c => fin (L r c)) (fun i => fin (D i)) x) ∧ r < N := ⟨⟨x, hQ⟩, hr⟩
    dsimp only
    rw [dif_pos h]
    congr 1
    exact uniq hQ h.1.choose_spec r hr
  · intro k hk N L D
    funext r
    dsimp only
    by_cases h : (∃ x, Q N L D x) ∧ r < N
    · have h' : (∃ x, Q N L (fun i => sc k (D i)) x) ∧ r < N := ⟨⟨_, scale hk h.1.choose_spec⟩, h.2⟩
      rw [dif_pos h, dif_pos h', sc_fin]
      congr 1
      exact uniq (scale hk h.1.choose_spec) h'.1.choose_spec r h.2
    · have h' : ¬ ((∃ x, Q N L (fun i => sc k (D i)) x) ∧ r < N) := by
        rintro ⟨⟨x, hx⟩, hr⟩
        have := scale (inv_pos.2 hk) hx
        have e : (fun i => sc k⁻¹ (sc k (D i))) = D := by
          funext i
          rw [sc_sc (inv_pos.2 hk) hk, inv_mul_cancel₀ hk.ne', sc_one]
        rw [e] at this
        exact h ⟨⟨_, this⟩, hr⟩
      rw [dif_neg h, dif_neg h']
      rfl

omit hu in
/-- Exact least squares solvers that are homogeneous exist. -/
theorem hom_lsqr_exists : ∃ f : ℕ → ℕ → (ℕ → ℕ → Fl α) → (ℕ → Fl α) → ℕ → Fl α, OmegaMat.ExactLsqr f ∧ HomLsqr f := by
  classical
  let Q : ℕ → ℕ → (ℕ → ℕ → Fl α) → (ℕ → Fl α) → (ℕ → α) → Prop := fun R C L D x => ∃ (L0 : ℕ → ℕ → α) (D0 : ℕ → α), (L = fun r c => fin (L0 r c)) ∧
    (D = fun r => fin (D0 r)) ∧ (∀ y, OmegaMat.rss R C L0 D0 x ≤ OmegaMat.rss R C L0 D0 y) ∧
      ∀ y, OmegaMat.rss R C L0 D0 y = OmegaMat.rss R C L0 D0 x → ∀ c < C, y c = x c
  have uniq : ∀ {R C L D x y}, Q R C L D x → Q R C L D y → ∀ r < C, y r = x r := by
    rintro R C L D x y ⟨L0, D0, rfl, rfl, h1, h2⟩ ⟨L1, D1, e1, e2, h3, -⟩ r hr
    have e1 : L0 = L1 := by
      funext r c
      exact Fl.fin.inj (congrFun (congrFun e1 r) c)
    have e2 : D0 = D1 := by
      funext r
      exact Fl.fin.inj (congrFun e2 r)
    subst e1 e2
    exact h2 y (le_antisymm (h3 x) (h1 y)) r hr
  have rs : ∀ (k : α) (R C : ℕ) (M : ℕ → ℕ → α) (b y : ℕ → α), OmegaMat.rss R C M (fun i => k * b i) (fun i => k * y i) = k ^ 2 * OmegaMat.rss R C M b y := by
    intro k R C M b y
    unfold OmegaMat.rss
    rw [Finset.mul_sum]
    apply Finset.sum_congr rfl
    intro i _
    rw [← mul_pow, mul_sub, Finset.mul_sum]
    congr 2
    exact Finset.sum_congr rfl fun c _ => by ring
  have scale : ∀ {k : α}, 0 < k → ∀ {R C L D x}, Q R C L D x → Q R C L (fun i => sc k (D i)) fun i => k * x i := by
    rintro k hk R C L D x ⟨L0, D0, rfl, rfl, h1, h2⟩
    have hy : ∀ y : ℕ → α, y = fun i => k * (k⁻¹ * y i) := by
      intro y
      funext i
      rw [← mul_assoc, mul_inv_cancel₀ hk.ne', one_mul]
    refine ⟨L0, fun r => k * D0 r, rfl, rfl, ?_, ?_⟩
    · intro y
      rw [hy y, rs, rs]
      exact mul_le_mul_of_nonneg_left (h1 _) (sq_nonneg k)
    · intro y e c hc
      rw [hy y, rs, rs] at e
      have := h2 (fun i => k⁻¹ * y i) (mul_left_cancel₀ (pow_ne_zero 2 hk.ne') e) c hc
      dsimp only
      rw [← this, ← mul_assoc, mul_inv_cancel₀ hk.ne', one_mul]
  refine ⟨fun R C L D r => if h : (∃ x, Q R C L D x) ∧ r < C then fin (h.1.choose r) else Fl.nan, ?_, ?_⟩
  · intro R C L D x h1 h2 r hr
    have hQ : Q R C (fun r c => fin (L r c)) (fun i => fin (D i)) x := ⟨L, D, rfl, rfl, h1, h2⟩
    have h : (∃ x, Q R C (fun r c => fin (L r c)) (fun i => fin (D i)) x) ∧ r < C := ⟨⟨x, hQ⟩, hr⟩
    dsimp only
    rw [dif_pos h]
    congr 1
    exact uniq hQ h.1.choose_spec r hr
  · intro k hk R C L D
    funext r
    dsimp only
    by_cases h : (∃ x, Q R C L D x) ∧ r < C
    · have h' : (∃ x, Q R C L (fun i => sc k (D i)) x) ∧ r < C := ⟨⟨_, scale hk h.1.choose_spec⟩, h.2⟩
      rw [dif_pos h, dif_pos h', sc_fin]
      congr 1
      exact uniq (scale hk h.1.choose_spec) h'.1.choose_spec r h.2
    · have h' : ¬ ((∃ x, Q R C L (fun i => sc k (D i)) x) ∧ r < C) := by
        rintro ⟨⟨x, hx⟩, hr⟩
        have := scale (inv_pos.2 hk) hx
        have e : (fun i => sc k⁻¹ (sc k (D i))) = D := by
          funext i
          rw [sc_sc (inv_pos.2 hk) hk, inv_mul_cancel₀ hk.ne', sc_one]
        rw [e] at this
        exact h ⟨⟨_, this⟩, hr⟩
      rw [dif_neg h, dif_neg h']
      rfl

omit hu in
theorem homSqrt_flSqrt : HomSqrt Eos.flSqrt := by
  intro k hk x
  have hkk := mul_pos hk hk
  cases x with
  | nan => rfl
  | ninf => rw [sc_ninf hkk]; rfl
  | pinf => rw [sc_pinf hkk]; exact (sc_pinf hk).symm
  | fin x =>
    show (if k * k * x < 0 then Fl.nan else fin (Real.sqrt (k * k * x))) = sc k (if x < 0 then Fl.nan else fin (Real.sqrt x))
    by_cases hx : x < 0
    · rw [if_pos hx, if_pos (mul_neg_of_pos_of_neg hkk hx)]; rfl
    · rw [if_neg hx, if_neg (not_lt.2 (mul_nonneg hkk.le (not_lt.1 hx))), sc_fin, Real.sqrt_mul (mul_nonneg hk.le hk.le), Real.sqrt_mul_self hk.le]

omit hu in
/-- The norms as used in `omega_surf`, NaN in place of exceptions. -/
noncomputable def errsOf (sqrt : Fl α → Fl α) (e : Ntp.EosST (Fl α)) (g : Ntp.Grid (Fl α)) (stp : Omega.Surf (Fl α)) : Fl α × Fl α :=
  match Ntp.norms sqrt e (fun n => (stp n).1) (fun n => (stp n).2.1) (fun n => (stp n).2.2) g with
  | .ok r => r
  | _ => (Fl.nan, Fl.nan)

/-- The hypotheses of `omega_units` follow from those on the equation of state, its derivatives and the external solver. -/
theorem same_poisson {c : Omega.Cfg (Fl α)} {eos'} (he : u.Eos c.eos eos') {e e'} (hd : u.EosST e e') {spsolve} (hs : HomSolve spsolve)
    {edges : List (ℕ × ℕ)} {ratio : OmegaMat.Ratio (Fl α)} (hc : c.solver = fun s t p m mref => OmegaMat.poisson spsolve e s t p edges ratio m mref)
    {g : Ntp.Grid (Fl α)} (hg : c.errs = errsOf c.sqrt e g) (hq : HomSqrt c.sqrt) :
    u.Same c eos' (fun s t p m mref => OmegaMat.poisson spsolve e' s t p edges ratio m mref) (errsOf c.sqrt e' g) where
  eos := he
  solver s t p m mref := by
    rw [hc]
    exact poisson_units hu hd hs s t p edges ratio m mref
  errs stp := by
    rw [hg]
    unfold errsOf
    have := norms_units hu hq hd (fun n => (stp n).1) (fun n => (stp n).2.1) (fun n => (stp n).2.2) g
    change Ntp.norms c.sqrt e' (fun n => (u.surf stp n).1) (fun n => (u.surf stp n).2.1) (fun n => (u.surf stp n).2.2) g = _ at this
    rw [this]
    cases Ntp.norms c.sqrt e (fun n => (stp n).1) (fun n => (stp n).2.1) (fun n => (stp n).2.2) g <;> rfl
  sqrt := hq

/-- As `same_poisson`, for the gradient formulation. -/
theorem same_gradient {c : Omega.Cfg (Fl α)} {eos'} (he : u.Eos c.eos eos') {e e'} (hd : u.EosST e e') {lsqr} (hs : HomLsqr lsqr)
    {edges : List (ℕ × ℕ)} {ratio : OmegaMat.Ratio (Fl α)} (hc : c.solver = fun s t p m mref => OmegaMat.gradient lsqr e s t p edges ratio m mref)
    {g : Ntp.Grid (Fl α)} (hg : c.errs = errsOf c.sqrt e g) (hq : HomSqrt c.sqrt) :
    u.Same c eos' (fun s t p m mref => OmegaMat.gradient lsqr e' s t p edges ratio m mref) (errsOf c.sqrt e' g) where
  eos := he
  solver s t p m mref := by
    rw [hc]
    exact gradient_units hu hd hs s t p edges ratio m mref
  errs stp := by
    rw [hg]
    unfold errsOf
    have := norms_units hu hq hd (fun n => (stp n).1) (fun n => (stp n).2.1) (fun n => (stp n).2.2) g
    change Ntp.norms c.sqrt e' (fun n => (u.surf stp n).1) (fun n => (u.surf stp n).2.1) (fun n => (u.surf stp n).2.2) g = _ at this
    rw [this]
    cases Ntp.norms c.sqrt e (fun n => (stp n).1) (fun n => (stp n).2.1) (fun n => (stp n).2.2) g <;> rfl
  sqrt := hq

omit hu in
/-- Salinity in parts per thousand to parts per one, Celsius to Kelvin, dbar to Pa, kg/m³ to anomalies in g/l from 1000. -/
def exChange (α : Type*) [Field α] : Change α := ⟨1 / 1000, 0, 1, 27315 / 100, 10000, 1, -1000⟩

omit hu in
theorem exChange_pos : (exChange α).Pos := by
  constructor <;> simp [exChange]

omit hu in
/-- An equation of state in these units exists for every equation of state: conversion back and forth. -/
theorem eos_exists (u : Change α) (hu : u.Pos) (eos : Fl α → Fl α → Fl α → Fl α) : ∃ eos', u.Eos eos eos' := by
  have inv : ∀ (a b : α), 0 < a → ∀ x : Fl α, sc a⁻¹ (aff a b x - fin b) = x := by
    intro a b ha x
    have ha' := inv_pos.2 ha
    cases x with
    | nan => rfl
    | pinf => rw [aff_pinf ha]; exact sc_pinf ha'
    | ninf => rw [aff_ninf ha]; exact sc_ninf ha'
    | fin x => rw [aff_fin, fin_sub, sc_fin]; congr 1; field_simp; ring
  have inv' : ∀ (a : α), 0 < a → ∀ x : Fl α, sc a⁻¹ (sc a x) = x := by
    intro a ha x
    rw [sc_sc (inv_pos.2 ha) ha, inv_mul_cancel₀ ha.ne', sc_one]
  refine ⟨fun s t p => u.rho (eos (sc u.aS⁻¹ (s - fin u.bS)) (sc u.aT⁻¹ (t - fin u.bT)) (sc u.h⁻¹ p)), ?_⟩
  intro s t p
  dsimp only [Change.S, Change.T, Change.P]
  rw [inv _ _ hu.aS, inv _ _ hu.aT, inv' _ hu.h]

omit hu in
/-- The omega surface problem of `Omega.exCfg` with diagnostics of errors. -/
noncomputable def exOmega (spsolve : ℕ → (ℕ → ℕ → Fl ℝ) → (ℕ → Fl ℝ) → ℕ → Fl ℝ) : Omega.Cfg (Fl ℝ) :=
  { Omega.exCfg Omega.exLine (fun s t p m r => OmegaMat.poisson spsolve (fun _ _ _ => (fin 1, fin (-1))) s t p
      ([((0, 1), (4 : ℝ)), ((1, 2), 9)].map Prod.fst) (.arr ([((0, 1), (4 : ℝ)), ((1, 2), 9)].map fun x => .fin x.2)) m r) 0 with
    sqrt := Eos.flSqrt
    errs := errsOf Eos.flSqrt (fun _ _ _ => (fin 1, fin (-1))) ⟨[(0, 1), (1, 2)], some [fin 1, fin 1], some [fin 4, fin 9]⟩ }

omit hu in
/-- `omega_surf` returns on it. -/
theorem exOmega_ok {spsolve : ℕ → (ℕ → ℕ → Fl ℝ) → (ℕ → Fl ℝ) → ℕ → Fl ℝ} (hs : OmegaMat.ExactSolve spsolve) :
    ∃ s, Omega.omega (exOmega spsolve) (.array fun m => fin (m + 1)) = .ok s := by
  have P := OmegaMat.poisson_solver [((0, 1), 4), ((1, 2), 9)] (fun _ _ _ => ((fin 1 : Fl ℝ), (fin (-1) : Fl ℝ))) hs
  have W := Omega.exWorld (G := Omega.exLine) (pin := 0) (by norm_num) (by unfold Bfs.InRange; decide)
    (by
      have h : ∀ a < 3, ∀ b ∈ Omega.exLine.nbrs a, (0, 1) = (a, b) ∨ (0, 1) = (b, a) ∨ (1, 2) = (a, b) ∨ (1, 2) = (b, a) := by decide
      intro a ha b hb
      rcases h a ha b hb with h | h | h | h
      · exact ⟨((0, 1), 4), by simp, .inl h⟩
      · exact ⟨((0, 1), 4), by simp, .inr h⟩
      · exact ⟨((1, 2), 9), by simp, .inl h⟩
      · exact ⟨((1, 2), 9), by simp, .inr h⟩) (by simp) Omega.exLine_sym P
  have W' : Omega.World (exOmega spsolve) [((0, 1), 4), ((1, 2), 9)] (fun _ _ _ => (fin 1, fin (-1))) (fun s t _ => s - t) 0 (1 / 100) 600 (fun _ _ => 0) :=
    ⟨⟨W.ok.graph, W.ok.pin, W.ok.fuel⟩, W.tolEq, W.tolPos, W.fuel, W.eos, W.der, W.casts, W.edges, W.sym, W.weights, W.solver⟩
  obtain ⟨s, -, -, -, h1, -⟩ := Omega.omega_total W' (fun m => fin (m + 1)) (p0 := 1) (by show fin _ = fin _; norm_num [exOmega, Omega.exCfg])
    ⟨0, 3, ⟨1, 4, _, _, _, exGood, fun i _ _ => by split_ifs <;> norm_num, by norm_num, by norm_num, by norm_num⟩, by norm_num, by norm_num⟩
    rfl (by intro _; show 1 ≤ 10; norm_num)
  exact ⟨s, h1⟩

omit hu in
/-- All together: an omega surface with diagnostics found on three casts, and in salinity per one, Kelvin, Pa and g/l. -/
example : ∃ (c : Omega.Cfg (Fl ℝ)) (s : Omega.State (Fl ℝ)) (eos' : Fl ℝ → Fl ℝ → Fl ℝ → Fl ℝ) (solver' : _) (errs' : _),
    Omega.omega c (.array fun m => fin (m + 1)) = .ok s ∧ (exChange ℝ).Eos c.eos eos' ∧
    Omega.omega ((exChange ℝ).cfg c eos' solver' errs') (.array fun m => fin (10000 * (m + 1))) = .ok ((exChange ℝ).state s) := by
  obtain ⟨spsolve, hs, hh⟩ := hom_solver_exists (α := ℝ)
  obtain ⟨s, h1⟩ := exOmega_ok hs
  obtain ⟨eos', he⟩ := eos_exists (exChange ℝ) exChange_pos fun s t _ => s - t
  have S := same_poisson exChange_pos (c := exOmega spsolve)
    (edges := [((0, 1), (4 : ℝ)), ((1, 2), 9)].map Prod.fst) (ratio := .arr ([((0, 1), (4 : ℝ)), ((1, 2), 9)].map fun x => .fin x.2))
    he (e := fun _ _ _ => (fin 1, fin (-1))) (e' := fun _ _ _ => (sc ((exChange ℝ).k / (exChange ℝ).aS) (fin 1), sc ((exChange ℝ).k / (exChange ℝ).aT) (fin (-1))))
    (fun _ _ _ => rfl) hh rfl (g := ⟨[(0, 1), (1, 2)], some [fin 1, fin 1], some [fin 4, fin 9]⟩) rfl homSqrt_flSqrt
  have T := omega_units exChange_pos S (.array fun m => fin (m + 1))
  rw [h1] at T
  exact ⟨_, s, eos', _, _, h1, he, T⟩

end UnitChange
