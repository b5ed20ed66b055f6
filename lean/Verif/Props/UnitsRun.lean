import Verif.Props.UnitsOmega

/-! # Units do not matter, continued: the iteration of `omega_surf` (C143) -/

set_option linter.unusedSectionVars false

namespace UnitChange
open FloatLike Fzero Interp Traj VertSolve
open Fl hiding nan
variable {α : Type*} [Field α] [LinearOrder α] [IsStrictOrderedRing α]
variable {u : Change α} (hu : u.Pos)
include hu

/-! ## Interpolation on the initial surface -/

omit hu in
theorem linearCoeffsI_row {F : Type*} [FloatLike F] {X Y : Arr F} {i : ℕ} {C : List F} (h : linearCoeffsI X Y i = some C) : C ≠ [] := by
  unfold linearCoeffsI at h
  simp only [Option.bind_eq_bind, Option.bind_eq_some_iff, Option.pure_def, Option.some.injEq] at h
  obtain ⟨_, _, rfl⟩ := h
  exact List.cons_ne_nil _ _

omit hu in
theorem hermite_row {F : Type*} [FloatLike F] {h0 δ d0 d1 y : F} {C : List F} (h : hermite h0 δ d0 d1 y = some C) : C ≠ [] := by
  unfold hermite at h
  simp only [Option.bind_eq_bind, Option.bind_eq_some_iff, Option.pure_def, Option.some.injEq] at h
  obtain ⟨_, _, _, _, _, _, rfl⟩ := h
  exact List.cons_ne_nil _ _

omit hu in
theorem pchipCoeffsI_row {F : Type*} [FloatLike F] {X Y : Arr F} {i : ℕ} {C : List F} (h : pchipCoeffsI X Y i = some C) : C ≠ [] := by
  unfold pchipCoeffsI at h
  dsimp only at h
  split_ifs at h
  · simp only [Option.bind_eq_bind, Option.bind_eq_some_iff, Option.pure_def, Option.some.injEq] at h
    obtain ⟨_, _, rfl⟩ := h
    exact List.cons_ne_nil _ _
  · simp only [Option.bind_eq_bind, Option.bind_eq_some_iff] at h
    obtain ⟨_, _, _, _, _, _, _, _, h⟩ := h
    exact hermite_row h
  · simp only [Option.bind_eq_bind, Option.bind_eq_some_iff] at h
    obtain ⟨_, _, _, _, _, _, _, _, h⟩ := h
    exact hermite_row h
  · simp only [Option.bind_eq_bind, Option.bind_eq_some_iff] at h
    obtain ⟨_, _, _, _, _, _, _, _, _, _, h⟩ := h
    exact hermite_row h

/-- Interpolation of salinity and temperature to a pressure, in other units. -/
theorem ppinterp1Two_units {f : Arr (Fl α) → Arr (Fl α) → ℕ → Option (List (Fl α))}
    (h1 : ∀ {a b : α}, 0 < a → ∀ X Y i, f (X.map u.P) (Y.map (aff a b)) i = (f X Y i).map (scRow u.h a b))
    (h2 : ∀ {X Y i C}, f X Y i = some C → C ≠ []) (p : Fl α) (c : Cast (Fl α)) :
    ppinterp1Two f (u.P p) (u.cast c).P (u.cast c).S (u.cast c).T 0 = (ppinterp1Two f p c.P c.S c.T 0).map fun st => (u.S st.1, u.T st.2) := by
  unfold ppinterp1Two
  have e1 : validRange2 (u.cast c).P (u.cast c).S = validRange2 c.P c.S := validRange2_sc hu.h hu.aS c.P c.S
  rw [e1]
  generalize validRange2 c.P c.S = kK
  have e2 : outside (u.cast c).P kK.1 kK.2 (u.P p) = outside c.P kK.1 kK.2 p := outside_sc hu.h c.P kK.1 kK.2 p
  have e3 : pieceIndex (u.cast c).P kK.1 kK.2 (u.P p) = pieceIndex c.P kK.1 kK.2 p := pieceIndex_sc hu.h c.P kK.1 kK.2 p
  dsimp only
  rw [e2, e3]
  generalize pieceIndex c.P kK.1 kK.2 p = i
  split_ifs
  · rfl
  · have e4 : f (u.cast c).P (u.cast c).S i = (f c.P c.S i).map (scRow u.h u.aS u.bS) := h1 hu.aS c.P c.S i
    have e5 : f (u.cast c).P (u.cast c).T i = (f c.P c.T i).map (scRow u.h u.aT u.bT) := h1 hu.aT c.P c.T i
    have e6 : u.P p - (u.cast c).P.get i = sc u.h (p - c.P.get i) := sc_sub hu.h _ _
    rw [e4, e5, e6]
    cases hC : f c.P c.S i with
    | none => rfl
    | some C =>
      cases hD : f c.P c.T i with
      | none => rfl
      | some D =>
        simp only [Option.map_some, Option.some.injEq]
        exact Prod.ext (pval_sc hu.h hu.aS _ _ (h2 hC)) (pval_sc hu.h hu.aT _ _ (h2 hD))

theorem linearTwo_units (p : Fl α) (c : Cast (Fl α)) :
    ppinterp1Two linearCoeffsI (u.P p) (u.cast c).P (u.cast c).S (u.cast c).T 0 =
      (ppinterp1Two linearCoeffsI p c.P c.S c.T 0).map fun st => (u.S st.1, u.T st.2) :=
  ppinterp1Two_units hu (fun ha X Y i => linearCoeffsI_sc hu.h ha X Y i) linearCoeffsI_row p c

theorem pchipTwo_units (p : Fl α) (c : Cast (Fl α)) :
    ppinterp1Two pchipCoeffsI (u.P p) (u.cast c).P (u.cast c).S (u.cast c).T 0 =
      (ppinterp1Two pchipCoeffsI p c.P c.S c.T 0).map fun st => (u.S st.1, u.T st.2) :=
  ppinterp1Two_units hu (fun ha X Y i => pchipCoeffsI_sc hu.h ha X Y i) pchipCoeffsI_row p c

/-! ## The iteration -/

open Omega

omit hu in
/-- map over the result of `omega_surf` -/
def resMap {A B : Type*} (g : A → B) (r : Res A) : Res B := r.bind fun a => .ok (g a)

omit hu in
/-- a surface in the new units -/
def Change.surf (u : Change α) (s : Surf (Fl α)) : Surf (Fl α) := fun n => u.stp (s n)

omit hu in
/-- The data and options in the new units: pressures and tolerances of pressure times `h`, the tolerance of the correction times `k`. -/
def Change.cfg (u : Change α) (c : Cfg (Fl α)) (eos' : Fl α → Fl α → Fl α → Fl α)
    (solver' : (ℕ → Fl α) → (ℕ → Fl α) → (ℕ → Fl α) → List ℕ → ℕ → OmegaMat.Res (ℕ → Fl α)) (errs' : Surf (Fl α) → Fl α × Fl α) : Cfg (Fl α) :=
  { c with
    casts := fun n => u.cast (c.casts n)
    eos := eos'
    solver := solver'
    errs := errs'
    pml := fun n => u.P (c.pml n)
    tol := u.P c.tol
    tolPhi := u.drho c.tolPhi
    tolP := u.P c.tolP }

omit hu in
/-- The equation of state, the matrix solver and the error norms in the new units. -/
structure Change.Same (u : Change α) (c : Cfg (Fl α)) (eos' : Fl α → Fl α → Fl α → Fl α)
    (solver' : (ℕ → Fl α) → (ℕ → Fl α) → (ℕ → Fl α) → List ℕ → ℕ → OmegaMat.Res (ℕ → Fl α)) (errs' : Surf (Fl α) → Fl α × Fl α) : Prop where
  eos : u.Eos c.eos eos'
  solver : ∀ s t p m mref, solver' (fun n => u.S (s n)) (fun n => u.T (t n)) (fun n => u.P (p n)) m mref =
    matMap (fun φ n => u.drho (φ n)) (c.solver s t p m mref)
  errs : ∀ stp, errs' (u.surf stp) = (u.drho (c.errs stp).1, u.drho (c.errs stp).2)
  sqrt : HomSqrt c.sqrt

variable {c : Cfg (Fl α)} {eos' : Fl α → Fl α → Fl α → Fl α}
  {solver' : (ℕ → Fl α) → (ℕ → Fl α) → (ℕ → Fl α) → List ℕ → ℕ → OmegaMat.Res (ℕ → Fl α)} {errs' : Surf (Fl α) → Fl α × Fl α}
  (H : u.Same c eos' solver' errs')
include H

theorem wetting_units (stp : Surf (Fl α)) :
    wetting (u.cfg c eos' solver' errs') (u.surf stp) = resMap (fun r => (u.surf r.1, r.2)) (wetting c stp) := by
  unfold wetting
  have := wetPerim_units hu (ocean_units hu H.eos c.fuel c.tol c.kind c.casts c.pml) c.G c.N c.pin stp c.garbage c.nrep c.fuel
  change Bfs.wetPerim (u.cfg c eos' solver' errs').G (u.cfg c eos' solver' errs').ocean (u.cfg c eos' solver' errs').N (u.cfg c eos' solver' errs').pin
    (u.surf stp) (u.cfg c eos' solver' errs').garbage (u.cfg c eos' solver' errs').nrep (u.cfg c eos' solver' errs').fuel =
      (Bfs.wetPerim c.G c.ocean c.N c.pin stp c.garbage c.nrep c.fuel).map u.pst at this
  rw [this]
  cases Bfs.wetPerim c.G c.ocean c.N c.pin stp c.garbage c.nrep c.fuel <;> rfl

omit H in
theorem fin_units (stp : Surf (Fl α)) (n : ℕ) : isFinite (u.surf stp n).2.2 = isFinite (stp n).2.2 := sc_isFinite hu.h _

omit H in
theorem removeML_units (iter : ℕ) (stp : Surf (Fl α)) :
    removeML (u.cfg c eos' solver' errs') iter (u.surf stp) = u.surf (removeML c iter stp) := by
  unfold removeML
  split_ifs
  · funext n
    have e : lt (u.surf stp n).2.2 ((u.cfg c eos' solver' errs').pml n) = lt (stp n).2.2 (c.pml n) := sc_lt hu.h _ _
    unfold Change.surf at e ⊢
    dsimp only
    rw [e]
    split_ifs <;> rfl
  · rfl

theorem region_units (iter : ℕ) (stp : Surf (Fl α)) :
    region (u.cfg c eos' solver' errs') iter (u.surf stp) = resMap (fun r => (u.surf r.1, r.2)) (region c iter stp) := by
  unfold region
  rw [wetting_units hu H]
  simp only [fin_units hu]
  show (if c.startWet ≤ iter ∧ iter ≤ c.stopWet then _ else _) = _
  split_ifs
  · cases wetting c stp with
    | ok r =>
      simp only [resMap, Res.bind, fin_units hu]
      rfl
    | indexError => rfl
    | runtimeError => rfl
    | unbound => rfl
    | noReturn => rfl
  · show (ofOption (Bfs.bfs c.G c.pin _ c.fuel)).bind _ = _
    cases Bfs.bfs c.G c.pin (fun n => isFinite (stp n).2.2) c.fuel <;> rfl

omit hu H in
/-- a pass in the new units -/
def Change.iter (u : Change α) (r : Iter (Fl α)) : Iter (Fl α) := ⟨u.surf r.old, u.surf r.new, r.qu, fun n => u.drho (r.phi n), r.newly⟩

theorem step_units (pinP : Fl α) (iter : ℕ) (stp : Surf (Fl α)) :
    step (u.cfg c eos' solver' errs') (u.P pinP) iter (u.surf stp) = resMap u.iter (step c pinP iter stp) := by
  unfold step
  rw [removeML_units hu, region_units hu H]
  cases region c iter (removeML c iter stp) with
  | ok r =>
    simp only [resMap, Res.bind]
    have e1 : (u.cfg c eos' solver' errs').solver (fun n => (u.surf r.1 n).1) (fun n => (u.surf r.1 n).2.1) (fun n => (u.surf r.1 n).2.2) r.2.1
        (u.cfg c eos' solver' errs').pin = _ :=
      H.solver (fun n => (r.1 n).1) (fun n => (r.1 n).2.1) (fun n => (r.1 n).2.2) r.2.1 c.pin
    rw [e1]
    cases c.solver (fun n => (r.1 n).1) (fun n => (r.1 n).2.1) (fun n => (r.1 n).2.2) r.2.1 c.pin with
    | indexError => rfl
    | ok phi =>
      simp only [matMap, ofMat]
      have e2 := vertsolveOmega_units hu H.eos c.fuel c.tol c.kind phi c.casts r.1 c.N
      change vertsolveOmega (u.cfg c eos' solver' errs').fuel (u.cfg c eos' solver' errs').tol (u.cfg c eos' solver' errs').kind
        (u.cfg c eos' solver' errs').eos _ (u.cfg c eos' solver' errs').casts (u.surf r.1) (u.cfg c eos' solver' errs').N = _ at e2
      rw [e2]
      cases vertsolveOmega c.fuel c.tol c.kind c.eos phi c.casts r.1 c.N with
      | ret s =>
        simp only [Outcome.map, Outcome.bind, ofOutcome, Res.ok.injEq]
        unfold Change.iter Change.surf
        dsimp only
        rw [update_map u.stp]
        rfl
      | zeroDiv => rfl
      | unbound => rfl
      | oob => rfl
      | outOfFuel => rfl
  | indexError => rfl
  | runtimeError => rfl
  | unbound => rfl
  | noReturn => rfl

omit H in
theorem nanmean_sc {k : α} (hk : 0 < k) (N : ℕ) (f : ℕ → Fl α) : nanmean N (fun n => sc k (f n)) = sc k (nanmean N f) := by
  unfold nanmean
  have e : ((List.range N).map fun n => sc k (f n)).filter (fun x => !isNaN x) = (((List.range N).map f).filter fun x => !isNaN x).map (sc k) := by
    rw [List.filter_map, List.filter_map, List.map_map]
    congr 1
    apply List.filter_congr
    intro n _
    dsimp only [Function.comp_apply]
    rw [sc_isNaN hk]
  dsimp only
  rw [e, List.length_map, sum_sc hu hk]
  split_ifs
  · rfl
  · exact sc_div hk _ _

omit H in
theorem nanmax_sc {k : α} (hk : 0 < k) (N : ℕ) (f : ℕ → Fl α) : nanmax N (fun n => sc k (f n)) = sc k (nanmax N f) := by
  unfold nanmax
  have e : ((List.range N).map fun n => sc k (f n)).filter (fun x => !isNaN x) = (((List.range N).map f).filter fun x => !isNaN x).map (sc k) := by
    rw [List.filter_map, List.filter_map, List.map_map]
    congr 1
    apply List.filter_congr
    intro n _
    dsimp only [Function.comp_apply]
    rw [sc_isNaN hk]
  rw [e]
  cases ((List.range N).map f).filter fun x => !isNaN x with
  | nil => rfl
  | cons x l =>
    show (l.map (sc k)).foldl fmax (sc k x) = sc k (l.foldl fmax x)
    clear e
    induction l generalizing x with
    | nil => rfl
    | cons y l ih =>
      rw [List.map_cons, List.foldl_cons, List.foldl_cons, sc_fmax hk, ih]

omit H in
theorem phiMAV_units (r : Iter (Fl α)) : phiMAV (u.cfg c eos' solver' errs') (u.iter r) = u.drho (phiMAV c r) := by
  unfold phiMAV
  have e : ∀ n, FloatLike.abs ((u.iter r).phi n) = sc u.k (FloatLike.abs (r.phi n)) := fun n => sc_abs hu.k _
  simp only [e]
  exact nanmean_sc hu hu.k _ _

omit H in
theorem dp_units (r : Iter (Fl α)) (n : ℕ) : dp (u.iter r) n = u.P (dp r n) := sc_sub hu.h _ _

theorem dpRMS_units (prev : Fl α) (r : Iter (Fl α)) : dpRMS (u.cfg c eos' solver' errs') (u.P prev) (u.iter r) = u.P (dpRMS c prev r) := by
  unfold dpRMS
  have e1 : lt (lit 0) (u.cfg c eos' solver' errs').tolP = lt (lit 0) c.tolP := by
    simp only [lit_eq, Rat.cast_zero]
    exact sc_lt_zero hu.h _
  have e2 : ∀ n, dp (u.iter r) n * dp (u.iter r) n = sc (u.h * u.h) (dp r n * dp r n) := by
    intro n
    rw [dp_units hu]
    exact sc_mul_sc hu.h hu.h _ _
  rw [e1]
  simp only [e2]
  rw [nanmean_sc hu (mul_pos hu.h hu.h)]
  show (if c.diags || lt (lit 0) c.tolP then c.sqrt _ else _) = _
  split_ifs
  · exact H.sqrt _ hu.h _
  · rfl

omit hu H in
/-- a row of diagnostics in the new units: the norms of errors and of the correction are differences of densities, the others pressures -/
def Change.diag (u : Change α) (d : Diag (Fl α)) : Diag (Fl α) :=
  ⟨u.drho d.eRMS, u.drho d.eMAV, u.drho d.phiMAV, u.P d.dpMAV, u.P d.dpRMS, u.P d.dpLinf, d.nWet, d.newly⟩

omit H in
theorem nWet_units (stp : Surf (Fl α)) : nWet (u.cfg c eos' solver' errs') (u.surf stp) = nWet c stp := by
  unfold nWet
  simp only [fin_units hu]
  rfl

theorem diag0_units (stp : Surf (Fl α)) : diag0 (u.cfg c eos' solver' errs') (u.surf stp) = u.diag (diag0 c stp) := by
  unfold diag0 Change.diag
  have e1 : (u.cfg c eos' solver' errs').errs (u.surf stp) = _ := H.errs stp
  dsimp only
  rw [e1, nWet_units hu, drho_zero, P_zero hu]

theorem diagOf_units (rms : Fl α) (r : Iter (Fl α)) :
    diagOf (u.cfg c eos' solver' errs') (u.P rms) (u.iter r) = u.diag (diagOf c rms r) := by
  unfold diagOf
  have e1 : (u.cfg c eos' solver' errs').errs (u.iter r).new = _ := H.errs r.new
  have e2 : nWet (u.cfg c eos' solver' errs') (u.iter r).new = nWet c r.new := nWet_units hu r.new
  have e3 : ∀ n, FloatLike.abs (dp (u.iter r) n) = sc u.h (FloatLike.abs (dp r n)) := by
    intro n
    rw [dp_units hu]
    exact sc_abs hu.h _
  rw [e1, e2, phiMAV_units hu]
  simp only [e3]
  rw [nanmean_sc hu hu.h, nanmax_sc hu hu.h]
  rfl

omit hu H in
/-- the state of the loop in the new units -/
def Change.state (u : Change α) (s : State (Fl α)) : State (Fl α) := ⟨u.surf s.stp, u.P s.rms, s.rows.map u.diag, s.last⟩

theorem converged_units (iter : ℕ) (r : Iter (Fl α)) (rms : Fl α) :
    converged (u.cfg c eos' solver' errs') iter (u.iter r) (u.P rms) = converged c iter r rms := by
  unfold converged
  rw [phiMAV_units hu]
  have e1 : lt (u.drho (phiMAV c r)) (u.cfg c eos' solver' errs').tolPhi = lt (phiMAV c r) c.tolPhi := sc_lt hu.k _ _
  have e2 : lt (u.P rms) (u.cfg c eos' solver' errs').tolP = lt rms c.tolP := sc_lt hu.h _ _
  rw [e1, e2]
  rfl

theorem after_units (iter : ℕ) (s : State (Fl α)) (r : Iter (Fl α)) :
    after (u.cfg c eos' solver' errs') iter (u.state s) (u.iter r) = u.state (after c iter s r) := by
  unfold after
  have e1 : dpRMS (u.cfg c eos' solver' errs') (u.state s).rms (u.iter r) = _ := dpRMS_units hu H s.rms r
  dsimp only
  rw [e1, diagOf_units hu H]
  unfold Change.state
  dsimp only
  congr 1
  show (if c.diags then _ else _) = _
  split_ifs
  · rw [List.map_append]; rfl
  · rfl

theorem loop_units (pinP : Fl α) : ∀ (left iter : ℕ) (s : State (Fl α)),
    loop (u.cfg c eos' solver' errs') (u.P pinP) left iter (u.state s) = resMap u.state (loop c pinP left iter s)
  | 0, _, _ => rfl
  | left + 1, iter, s => by
    have ih := loop_units pinP left (iter + 1)
    rw [loop, loop]
    have e1 : step (u.cfg c eos' solver' errs') (u.P pinP) iter (u.state s).stp = _ := step_units hu H pinP iter s.stp
    rw [e1]
    cases step c pinP iter s.stp with
    | ok r =>
      simp only [resMap, Res.bind]
      have e2 : dpRMS (u.cfg c eos' solver' errs') (u.state s).rms (u.iter r) = _ := dpRMS_units hu H s.rms r
      rw [e2, converged_units hu H, after_units hu H, ih]
      split_ifs <;> rfl
    | indexError => rfl
    | runtimeError => rfl
    | unbound => rfl
    | noReturn => rfl

omit hu H in
/-- the initial pressure in the new units -/
def Change.pInit (u : Change α) : PInit (Fl α) → PInit (Fl α)
  | .scalar p => .scalar (u.P p)
  | .array p => .array fun n => u.P (p n)

omit H in
theorem interpTwo_units (p : Fl α) (n : ℕ) :
    interpTwo (u.cfg c eos' solver' errs') (u.P p) n = (interpTwo c p n).map fun st => (u.S st.1, u.T st.2) := by
  unfold interpTwo
  show (match c.kind with | .linear => _ | .pchip => _) = _
  cases c.kind with
  | linear => exact linearTwo_units hu p (c.casts n)
  | pchip => exact pchipTwo_units hu p (c.casts n)

theorem initRaw_units (p0 : PInit (Fl α)) : initRaw (u.cfg c eos' solver' errs') (u.pInit p0) = resMap u.surf (initRaw c p0) := by
  cases p0 with
  | scalar p =>
    simp only [Change.pInit, initRaw]
    rw [interpTwo_units hu]
    show (ofOption ((interpTwo c p c.pin).map _)).bind _ = _
    cases interpTwo c p c.pin with
    | none => rfl
    | some st =>
      simp only [Option.map_some, ofOption, Res.bind]
      have e1 : Function.update (fun _ => (Fl.nan, Fl.nan, Fl.nan)) c.pin (u.S st.1, u.T st.2, u.P p) =
          u.surf (Function.update (fun _ => ((Fl.nan : Fl α), (Fl.nan : Fl α), (Fl.nan : Fl α))) c.pin (st.1, st.2, p)) :=
        (update_map u.stp (fun _ => (Fl.nan, Fl.nan, Fl.nan)) c.pin (st.1, st.2, p)).symm
      have e2 := wetting_units hu H (Function.update (fun _ => ((Fl.nan : Fl α), (Fl.nan : Fl α), (Fl.nan : Fl α))) c.pin (st.1, st.2, p))
      rw [← e1] at e2
      show (wetting (u.cfg c eos' solver' errs') (Function.update (fun _ => (Fl.nan, Fl.nan, Fl.nan)) c.pin (u.S st.1, u.T st.2, u.P p))).bind _ =
        resMap _ ((wetting c (Function.update (fun _ => (Fl.nan, Fl.nan, Fl.nan)) c.pin (st.1, st.2, p))).bind _)
      rw [e2]
      cases wetting c (Function.update (fun _ => (Fl.nan, Fl.nan, Fl.nan)) c.pin (st.1, st.2, p)) <;> rfl
  | array p =>
    simp only [Change.pInit, initRaw]
    simp only [interpTwo_units hu, Option.isSome_map]
    by_cases h : ∀ n < c.N, (interpTwo c (p n) n).isSome = true
    · rw [if_pos h, if_pos (show ∀ n < (u.cfg c eos' solver' errs').N, (interpTwo c (p n) n).isSome = true from h)]
      simp only [resMap, Res.bind, Res.ok.injEq]
      funext n
      unfold Change.surf
      show (if n < c.N then _ else _) = u.stp (if n < c.N then _ else _)
      split_ifs
      · cases interpTwo c (p n) n <;> rfl
      · rfl
    · rw [if_neg h, if_neg (show ¬ ∀ n < (u.cfg c eos' solver' errs').N, (interpTwo c (p n) n).isSome = true from h)]
      rfl

theorem init_units (p0 : PInit (Fl α)) : init (u.cfg c eos' solver' errs') (u.pInit p0) = resMap u.surf (init c p0) := by
  unfold init
  rw [initRaw_units hu H]
  cases initRaw c p0 with
  | ok stp =>
    simp only [resMap, Res.bind]
    have e : ∀ n, isNaN (u.surf stp n).1 = isNaN (stp n).1 := fun n => aff_isNaN hu.aS _
    simp only [e]
    show (if isNaN (stp c.pin).1 then _ else _) = _
    split_ifs
    · rfl
    · simp only [Res.ok.injEq]
      funext n
      unfold Change.surf
      dsimp only
      split_ifs <;> rfl
  | indexError => rfl
  | runtimeError => rfl
  | unbound => rfl
  | noReturn => rfl

/-- **Omega surfaces**: in other units `omega_surf` does the same passes, stops at the same pass, raises the same exceptions and returns the same
surface and diagnostics in these units. -/
theorem omega_units (p0 : PInit (Fl α)) : omega (u.cfg c eos' solver' errs') (u.pInit p0) = resMap u.state (omega c p0) := by
  unfold omega
  rw [init_units hu H]
  cases init c p0 with
  | ok stp =>
    simp only [resMap, Res.bind]
    have e1 : pinPOf (u.cfg c eos' solver' errs') (u.pInit p0) = u.P (pinPOf c p0) := by cases p0 <;> rfl
    have e2 : (⟨u.surf stp, lit 0, if (u.cfg c eos' solver' errs').diags then [diag0 (u.cfg c eos' solver' errs') (u.surf stp)] else [], 0⟩ : State (Fl α)) =
        u.state ⟨stp, lit 0, if c.diags then [diag0 c stp] else [], 0⟩ := by
      unfold Change.state
      dsimp only
      rw [P_zero hu, diag0_units hu H]
      congr 1
      show (if c.diags then _ else _) = _
      split_ifs <;> rfl
    rw [e1, e2, loop_units hu H]
    show (resMap u.state (loop c (pinPOf c p0) c.iterMax 1 _)).bind _ = _
    cases loop c (pinPOf c p0) c.iterMax 1 ⟨stp, lit 0, if c.diags then [diag0 c stp] else [], 0⟩ with
    | ok s =>
      simp only [resMap, Res.bind]
      show (if c.diags && decide (s.last = 0) then _ else _) = _
      split_ifs <;> rfl
    | indexError => rfl
    | runtimeError => rfl
    | unbound => rfl
    | noReturn => rfl
  | indexError => rfl
  | runtimeError => rfl
  | unbound => rfl
  | noReturn => rfl

end UnitChange
