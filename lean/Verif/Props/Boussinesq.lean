import Verif.Props.UnitsEx
import Verif.Props.UnitsLabel
import Verif.Props.EosTools
set_option linter.unusedSectionVars false

/-!
# A Boussinesq ocean is one with hydrostatic pressures (C168)
-/

namespace EosTools
open FloatLike Fzero Interp Traj VertSolve UnitChange
open Fl hiding nan

/-- The first output, NaN for `ZeroDivisionError`. -/
def first (f : Fn (Fl ℝ)) (s t p : Fl ℝ) : Fl ℝ :=
  match f s t p with
  | some (x :: _) => x
  | _ => Fl.nan

/-- The first two outputs, NaN for `ZeroDivisionError`. -/
def firstTwo (f : Fn (Fl ℝ)) (s t p : Fl ℝ) : Fl ℝ × Fl ℝ :=
  match f s t p with
  | some (x :: y :: _) => (x, y)
  | _ => (Fl.nan, Fl.nan)

/-- Depth in m to hydrostatic pressure in dbar. -/
noncomputable def dbar (g r : ℝ) : Fl ℝ → Fl ℝ
  | .fin z => .fin (1e-4 * g * r * z)
  | x => x

/-- A cast with depths replaced by hydrostatic pressures. -/
noncomputable def dbarCast (g r : ℝ) (c : Cast (Fl ℝ)) : Cast (Fl ℝ) := ⟨c.S, c.T, c.P.map (dbar g r)⟩

/-- A bottle with depth replaced by hydrostatic pressure. -/
noncomputable def dbarStp (g r : ℝ) (b : Fl ℝ × Fl ℝ × Fl ℝ) : Fl ℝ × Fl ℝ × Fl ℝ := (b.1, b.2.1, dbar g r b.2.2)

variable {g r : ℝ} {A : Arg (Fl ℝ)} {f f' : Fn (Fl ℝ)}

theorem makeEos'_bsq {d : String} (h : makeEos' A d 0 none none = .ok f) :
    makeEos' A d 0 (some (fin g)) (some (fin r)) = .ok (makeBsq f (fin g) (fin r) 0) := by
  unfold makeEos' at h ⊢
  dsimp only at h ⊢
  split at h
  · exact absurd h (by simp)
  · rename_i fn hb
    rw [Except.ok.injEq] at h
    subst h
    rfl

section
variable (hg : 0 < g) (hr : 0 < r)
include hg hr

theorem zToP_pos : 0 < zToP g r := by unfold zToP; positivity

theorem dbar_eq (x : Fl ℝ) : dbar g r x = sc (zToP g r) x := by
  cases x with
  | nan => rfl
  | pinf => rw [sc_pinf (zToP_pos hg hr)]; rfl
  | ninf => rw [sc_ninf (zToP_pos hg hr)]; rfl
  | fin x => rfl

theorem bsq_dbar (f : Fn (Fl ℝ)) (s t z : Fl ℝ) : makeBsq f (.fin g) (.fin r) 0 s t z = f s t (dbar g r z) := by
  have : (lit 1e-4 : Fl ℝ) * .fin g * .fin r = .fin (zToP g r) := by
    rw [lit_eq, fin_mul, fin_mul, zToP]
    norm_num
  simp only [makeBsq, this, if_true]
  congr 1
  rw [dbar_eq hg hr, sc]
  cases z with
  | nan => rfl
  | pinf => rfl
  | ninf => rfl
  | fin x => rw [fin_mul, fin_mul, mul_comm]

/-- **C168** The Boussinesq equation of state of a depth is the equation of state of the hydrostatic pressure there. -/
theorem bsq_first (h : makeEos A none none = .ok f) (h' : makeEos A (some (fin g)) (some (fin r)) = .ok f') (s t z : Fl ℝ) :
    first f' s t z = first f s t (dbar g r z) := by
  unfold makeEos at h h'
  rw [makeEos'_bsq h, Except.ok.injEq] at h'
  subst h'
  unfold first
  rw [bsq_dbar hg hr]

theorem bsq_firstTwo (h : makeEosST A none none = .ok f) (h' : makeEosST A (some (fin g)) (some (fin r)) = .ok f') (s t z : Fl ℝ) :
    firstTwo f' s t z = firstTwo f s t (dbar g r z) := by
  unfold makeEosST at h h'
  rw [makeEos'_bsq h, Except.ok.injEq] at h'
  subst h'
  unfold firstTwo
  rw [bsq_dbar hg hr]

end

/-- As a change of units. -/
noncomputable def hydro (g r : ℝ) : Change ℝ := ⟨1, 0, 1, 0, zToP g r, 1, 0⟩

section
variable (hg : 0 < g) (hr : 0 < r)
include hg hr

theorem hydro_pos : (hydro g r).Pos := ⟨one_pos, one_pos, zToP_pos hg hr, one_pos⟩

omit hg hr in
theorem hydro_S : (hydro g r).S = id := by funext x; exact (aff_zero x).trans (sc_one x)

omit hg hr in
theorem hydro_T : (hydro g r).T = id := by funext x; exact (aff_zero x).trans (sc_one x)

omit hg hr in
theorem hydro_rho : (hydro g r).rho = id := by funext x; exact (aff_zero x).trans (sc_one x)

omit hg hr in
theorem hydro_drho : (hydro g r).drho = id := by funext x; exact sc_one x

theorem hydro_P : (hydro g r).P = dbar g r := by funext x; exact (dbar_eq hg hr x).symm

omit hg hr in
theorem map_id' (X : Arr (Fl ℝ)) : X.map id = X := rfl

theorem hydro_cast : (hydro g r).cast = dbarCast g r := by
  funext c
  unfold Change.cast dbarCast
  rw [hydro_S, hydro_T, hydro_P hg hr, map_id', map_id']

theorem hydro_stp : (hydro g r).stp = dbarStp g r := by
  funext b
  unfold Change.stp dbarStp
  rw [hydro_S, hydro_T, hydro_P hg hr]
  rfl

theorem hydro_eos (h : makeEos A none none = .ok f) (h' : makeEos A (some (fin g)) (some (fin r)) = .ok f') : (hydro g r).Eos (first f') (first f) := by
  intro s t p
  rw [hydro_S, hydro_T, hydro_P hg hr, hydro_rho, id, id, id, bsq_first hg hr h h']

theorem hydro_eosST (h : makeEosST A none none = .ok f) (h' : makeEosST A (some (fin g)) (some (fin r)) = .ok f') :
    (hydro g r).EosST (firstTwo f') (firstTwo f) := by
  intro s t p
  rw [hydro_S, hydro_T, hydro_P hg hr, id, id, bsq_firstTwo hg hr h h']
  show _ = (sc (1 / 1) _, sc (1 / 1) _)
  rw [div_one, sc_one, sc_one]

/-- **C168** Neutral tangent plane calculations: with `grav` and `rho_c`, on casts of depths, they give the same salinity and temperature as without, on casts of hydrostatic
pressures, at the depth of that pressure. -/
theorem ntp_bsq (h : makeEos A none none = .ok f) (h' : makeEos A (some (fin g)) (some (fin r)) = .ok f') (fuel : ℕ) (tol : Fl ℝ) (kind : PPKind)
    (b : Fl ℝ × Fl ℝ × Fl ℝ) (c : Cast (Fl ℝ)) :
    ntpBottleToCast fuel (dbar g r tol) (first f) kind b.1 b.2.1 (dbar g r b.2.2) (dbarCast g r c) =
      (ntpBottleToCast fuel tol (first f') kind b.1 b.2.1 b.2.2 c).map (dbarStp g r) := by
  have := ntp_units (hydro_pos hg hr) (hydro_eos hg hr h h') fuel tol kind b c
  rw [hydro_S, hydro_T, hydro_P hg hr, hydro_stp hg hr, hydro_cast hg hr] at this
  exact this

/-- **C168** Neutral trajectories. -/
theorem trajectory_bsq (h : makeEos A none none = .ok f) (h' : makeEos A (some (fin g)) (some (fin r)) = .ok f') (fuel : ℕ) (tol : Fl ℝ) (kind : PPKind)
    (z0 : Fl ℝ) (cs : List (Cast (Fl ℝ))) :
    neutralTrajectory fuel (dbar g r tol) (first f) kind (dbar g r z0) (cs.map (dbarCast g r)) =
      (neutralTrajectory fuel tol (first f') kind z0 cs).map (List.map (dbarStp g r)) := by
  have := trajectory_units (hydro_pos hg hr) (hydro_eos hg hr h h') fuel tol kind z0 cs
  rw [hydro_P hg hr, hydro_stp hg hr, hydro_cast hg hr] at this
  exact this

/-- **C168** Veronis density: the label of a point of the cast is the same. -/
theorem veronis_bsq {A' : Arg (Fl ℝ)} {fST fST' : Fn (Fl ℝ)} (h : makeEos A none none = .ok f) (h' : makeEos A (some (fin g)) (some (fin r)) = .ok f')
    (hst : makeEosST A' none none = .ok fST) (hst' : makeEosST A' (some (fin g)) (some (fin r)) = .ok fST') (kind : PPKind) (c : Cast (Fl ℝ)) (z1 : Fl ℝ)
    (z0 : Option (Fl ℝ)) (zref b dz : Fl ℝ) :
    Label.veronis (ppcNan kind) (first f) (firstTwo fST) c.S c.T (c.P.map (dbar g r)) (dbar g r z1) (z0.map (dbar g r)) (dbar g r zref) b (dbar g r dz) =
      Label.veronis (ppcNan kind) (first f') (firstTwo fST') c.S c.T c.P z1 z0 zref b dz := by
  have := veronis_units (hydro_pos hg hr) (hydro_eos hg hr h h') (hydro_eosST hg hr hst hst') kind c z1 z0 zref b dz
  rw [hydro_P hg hr, hydro_cast hg hr, hydro_rho, Option.map_id] at this
  exact this

/-- The reference option: a reference depth becomes a pressure, a reference salinity and temperature stay. -/
noncomputable def dbarRef (g r : ℝ) : Isopycnal.RefArg (Fl ℝ) → Isopycnal.RefArg (Fl ℝ)
  | .float x => .float (dbar g r x)
  | x => x

/-- The pinning depth as a pressure. -/
noncomputable def dbarPin (g r : ℝ) : Isopycnal.PinP (Fl ℝ) → Isopycnal.PinP (Fl ℝ)
  | .float x => .float (dbar g r x)
  | x => x

/-- **C168** Potential density and specific volume anomaly surfaces: the same surface, reference and isovalue. -/
theorem isopycnal_bsq (h : makeEos A none none = .ok f) (h' : makeEos A (some (fin g)) (some (fin r)) = .ok f') (fuel : ℕ) (tol : Fl ℝ) (kind : PPKind)
    (ty : Isopycnal.Ans) (ref : Isopycnal.RefArg (Fl ℝ)) (iso : Option (Fl ℝ)) (pinCast : Option ℤ) (pinP : Isopycnal.PinP (Fl ℝ))
    (casts : ℕ → Cast (Fl ℝ)) (N : ℕ) :
    Isopycnal.isopycnal fuel (dbar g r tol) kind (first f) ty (dbarRef g r ref) iso pinCast (dbarPin g r pinP) (fun n => dbarCast g r (casts n)) N =
      isoMap (fun x => (fun n => dbarStp g r (x.1 n), dbarRef g r x.2.1, x.2.2)) (Isopycnal.isopycnal fuel tol kind (first f') ty ref iso pinCast pinP casts N) := by
  have := isopycnal_units (hydro_pos hg hr) (hydro_eos hg hr h h') fuel tol kind ty ref iso pinCast pinP casts N
  have e1 : (hydro g r).ref = dbarRef g r := by
    funext x
    cases x with
    | float x => show Isopycnal.RefArg.float _ = .float _; rw [hydro_P hg hr]
    | pair a b =>
      show Isopycnal.RefArg.pair _ _ = .pair a b
      rw [hydro_S, hydro_T, Option.map_id]; rfl
    | none => rfl
    | other => rfl
  have e2 : (hydro g r).pinP = dbarPin g r := by
    funext x
    cases x with
    | float x => show Isopycnal.PinP.float _ = .float _; rw [hydro_P hg hr]
    | none => rfl
    | other => rfl
  have e3 : (hydro g r).iso ty = id := by
    cases ty
    · exact hydro_rho
    · exact hydro_drho
  rw [hydro_P hg hr, hydro_stp hg hr, hydro_cast hg hr, e1, e2, e3, Option.map_id] at this
  exact this

/-- **C168** The mixed layer, for equations of state that give density. -/
theorem mixedLayer_bsq (h : makeEos A none none = .ok f) (h' : makeEos A (some (fin g)) (some (fin r)) = .ok f') (kind : PPKind) (S T Z : Arr (Fl ℝ))
    (thr refz : Fl ℝ) (b : ℤ) (hd : lt (lit 1) (first f (lit (69 / 2)) (lit 3) (lit 1000)) = true)
    (hd' : lt (lit 1) (first f (lit (69 / 2)) (lit 3) (dbar g r (lit 1000))) = true) :
    MixedLayer.mixedLayer (match kind with | .linear => linearInterp1 | .pchip => pchipInterp1) (first f) S T (Z.map (dbar g r)) thr (dbar g r refz) b =
      (MixedLayer.mixedLayer (match kind with | .linear => linearInterp1 | .pchip => pchipInterp1) (first f') S T Z thr refz b).map (dbar g r) := by
  rw [← bsq_first hg hr h h'] at hd'
  have := mixedLayer_units (hydro_pos hg hr) (hydro_eos hg hr h h') kind S T Z thr refz b hd' hd
  rw [hydro_S, hydro_T, hydro_drho, hydro_P hg hr] at this
  exact this

/-! ### Omega surfaces -/

open Omega in
/-- Casts, mixed layer and tolerances of depth as pressures; equation of state, solver and norms of errors as given. -/
noncomputable def dbarCfg (g r : ℝ) (c : Cfg (Fl ℝ)) (eos : Fl ℝ → Fl ℝ → Fl ℝ → Fl ℝ)
    (solver : (ℕ → Fl ℝ) → (ℕ → Fl ℝ) → (ℕ → Fl ℝ) → List ℕ → ℕ → OmegaMat.Res (ℕ → Fl ℝ)) (errs : Surf (Fl ℝ) → Fl ℝ × Fl ℝ) : Cfg (Fl ℝ) :=
  { c with
    casts := fun n => dbarCast g r (c.casts n)
    eos := eos
    solver := solver
    errs := errs
    pml := fun n => dbar g r (c.pml n)
    tol := dbar g r c.tol
    tolP := dbar g r c.tolP }

open Omega in
/-- The initial depth as a pressure. -/
noncomputable def dbarInit (g r : ℝ) : PInit (Fl ℝ) → PInit (Fl ℝ)
  | .scalar p => .scalar (dbar g r p)
  | .array p => .array fun n => dbar g r (p n)

open Omega in
/-- Surface and diagnostics with depths as pressures; errors and corrections are the same. -/
noncomputable def dbarState (g r : ℝ) (s : State (Fl ℝ)) : State (Fl ℝ) :=
  ⟨fun n => dbarStp g r (s.stp n), dbar g r s.rms,
    s.rows.map fun d => ⟨d.eRMS, d.eMAV, d.phiMAV, dbar g r d.dpMAV, dbar g r d.dpRMS, dbar g r d.dpLinf, d.nWet, d.newly⟩, s.last⟩

open Omega in
theorem omega_bsq {c : Cfg (Fl ℝ)} {solver' errs'} (H : (hydro g r).Same c (first f) solver' errs') (p0 : PInit (Fl ℝ)) :
    omega (dbarCfg g r c (first f) solver' errs') (dbarInit g r p0) = resMap (dbarState g r) (omega c p0) := by
  have := omega_units (hydro_pos hg hr) H p0
  have e1 : (hydro g r).cfg c (first f) solver' errs' = dbarCfg g r c (first f) solver' errs' := by
    unfold Change.cfg dbarCfg
    rw [hydro_P hg hr, hydro_cast hg hr, hydro_drho]
    rfl
  have e2 : (hydro g r).pInit p0 = dbarInit g r p0 := by
    unfold Change.pInit dbarInit
    rw [hydro_P hg hr]
    cases p0 <;> rfl
  have e3 : (hydro g r).state = dbarState g r := by
    funext s
    unfold Change.state dbarState Change.surf Change.diag
    rw [hydro_P hg hr, hydro_drho, hydro_stp hg hr]
    rfl
  rw [e1, e2, e3] at this
  exact this

open Omega in
/-- **C168** Omega surfaces by the Poisson formulation: `omega_surf` with `grav` and `rho_c` on an ocean of depths returns the surface and diagnostics, or raises the exception, of the
call without them on the ocean of hydrostatic pressures.  The derivatives may come from the same argument (a name) or another (of a pair of functions). -/
theorem omega_bsq_poisson {A' : Arg (Fl ℝ)} {fST fST' : Fn (Fl ℝ)} (h : makeEos A none none = .ok f) (h' : makeEos A (some (fin g)) (some (fin r)) = .ok f')
    (hst : makeEosST A' none none = .ok fST) (hst' : makeEosST A' (some (fin g)) (some (fin r)) = .ok fST') {spsolve} (hs : HomSolve spsolve)
    {c : Cfg (Fl ℝ)} (hc : c.eos = first f') {edges : List (ℕ × ℕ)} {ratio : OmegaMat.Ratio (Fl ℝ)}
    (hsol : c.solver = fun s t p m mref => OmegaMat.poisson spsolve (firstTwo fST') s t p edges ratio m mref) {G : Ntp.Grid (Fl ℝ)}
    (hG : c.errs = errsOf c.sqrt (firstTwo fST') G) (hq : c.sqrt = Eos.flSqrt) (p0 : PInit (Fl ℝ)) :
    omega (dbarCfg g r c (first f) (fun s t p m mref => OmegaMat.poisson spsolve (firstTwo fST) s t p edges ratio m mref) (errsOf c.sqrt (firstTwo fST) G))
      (dbarInit g r p0) = resMap (dbarState g r) (omega c p0) :=
  omega_bsq hg hr (same_poisson (hydro_pos hg hr) (by rw [hc]; exact hydro_eos hg hr h h') (hydro_eosST hg hr hst hst') hs hsol hG (by rw [hq]; exact homSqrt_flSqrt)) p0

open Omega in
/-- **C168** The same by the gradient formulation. -/
theorem omega_bsq_gradient {A' : Arg (Fl ℝ)} {fST fST' : Fn (Fl ℝ)} (h : makeEos A none none = .ok f) (h' : makeEos A (some (fin g)) (some (fin r)) = .ok f')
    (hst : makeEosST A' none none = .ok fST) (hst' : makeEosST A' (some (fin g)) (some (fin r)) = .ok fST') {lsqr} (hs : HomLsqr lsqr)
    {c : Cfg (Fl ℝ)} (hc : c.eos = first f') {edges : List (ℕ × ℕ)} {ratio : OmegaMat.Ratio (Fl ℝ)}
    (hsol : c.solver = fun s t p m mref => OmegaMat.gradient lsqr (firstTwo fST') s t p edges ratio m mref) {G : Ntp.Grid (Fl ℝ)}
    (hG : c.errs = errsOf c.sqrt (firstTwo fST') G) (hq : c.sqrt = Eos.flSqrt) (p0 : PInit (Fl ℝ)) :
    omega (dbarCfg g r c (first f) (fun s t p m mref => OmegaMat.gradient lsqr (firstTwo fST) s t p edges ratio m mref) (errsOf c.sqrt (firstTwo fST) G))
      (dbarInit g r p0) = resMap (dbarState g r) (omega c p0) :=
  omega_bsq hg hr (same_gradient (hydro_pos hg hr) (by rw [hc]; exact hydro_eos hg hr h h') (hydro_eosST hg hr hst hst') hs hsol hG (by rw [hq]; exact homSqrt_flSqrt)) p0

end

/-! ## Examples -/

/-- jmd95 with gravity 9.81 and reference density 1027.5: the hypotheses on the equation of state hold. -/
example : ∃ f f' fST fST' : Fn (Fl ℝ), makeEos (.str "jmd95") none none = .ok f ∧ makeEos (.str "jmd95") (some (fin (9.81 : ℝ))) (some (fin 1027.5)) = .ok f' ∧
    makeEosST (.str "jmd95") none none = .ok fST ∧ makeEosST (.str "jmd95") (some (fin (9.81 : ℝ))) (some (fin 1027.5)) = .ok fST' ∧
    ∀ s t z : Fl ℝ, first f' s t z = first f s t (dbar 9.81 1027.5 z) :=
  ⟨_, _, _, _, rfl, rfl, rfl, rfl, bsq_first (by norm_num) (by norm_num) (A := .str "jmd95") rfl rfl⟩

/-- A density of salinity and temperature. -/
noncomputable def bsqEos : Arg (Fl ℝ) := .fn fun s t _ => some [s - t]
/-- Its derivatives. -/
noncomputable def bsqEosST : Arg (Fl ℝ) := .fn fun _ _ _ => some [fin 1, fin (-1)]

/-- A density above 1, for the mixed layer. -/
example : lt (lit 1) (first (fun s t _ => some [s - t]) (lit (69 / 2)) (lit 3) (lit 1000)) = true ∧
    lt (lit 1) (first (fun s t _ => some [s - t]) (lit (69 / 2)) (lit 3) (dbar 10 1000 (lit 1000))) = true := by
  have : (first (fun s t _ => some [s - t]) (lit (69 / 2)) (lit 3) (lit 1000)) = (fin (63 / 2) : Fl ℝ) := by
    show (lit (69 / 2) - lit 3 : Fl ℝ) = _
    rw [lit_eq, lit_eq, fin_sub]; norm_num
  constructor
  · rw [this, lit_eq, lt_fin]; norm_num
  · change lt (lit 1) (first (fun s t _ => some [s - t]) (lit (69 / 2)) (lit 3) (lit 1000)) = true
    rw [this, lit_eq, lt_fin]; norm_num

/-- An omega surface found on three casts of depths, and the same on three casts of pressures. -/
example : ∃ (c : Omega.Cfg (Fl ℝ)) (s : Omega.State (Fl ℝ)) (solver : _) (errs : _), Omega.omega c (.array fun m => fin (m + 1)) = .ok s ∧
    Omega.omega (dbarCfg 10 1000 c (fun s t _ => s - t) solver errs) (dbarInit 10 1000 (.array fun m => fin (m + 1))) = .ok (dbarState 10 1000 s) := by
  obtain ⟨spsolve, hs, hh⟩ := hom_solver_exists (α := ℝ)
  obtain ⟨s, h1⟩ := exOmega_ok hs
  have B := omega_bsq_poisson (g := 10) (r := 1000) (by norm_num) (by norm_num) (A := bsqEos) (A' := bsqEosST) (f := fun s t _ => some [s - t]) (f' := fun s t _ => some [s - t])
    (fST := fun _ _ _ => some [fin 1, fin (-1)])
    (fST' := fun _ _ _ => some [fin 1, fin (-1)]) (G := ⟨[(0, 1), (1, 2)], some [fin 1, fin 1], some [fin 4, fin 9]⟩) rfl (by exact rfl) (by exact rfl) rfl hh (c := exOmega spsolve) rfl rfl rfl rfl (.array fun m => fin (m + 1))
  rw [h1] at B
  exact ⟨_, s, _, _, h1, B⟩

end EosTools
