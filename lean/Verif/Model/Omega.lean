import Verif.Model.Bfs
import Verif.Model.OmegaMat
import Verif.Model.VertSolve
import Mathlib.Data.List.Sort

/-! # Model of the iteration of `omega_surf`, `/repo/neutralocean/surface/omega.py` lines 307-474 -/

namespace Omega
open FloatLike Fzero Interp Traj VertSolve
variable {F : Type*} [FloatLike F]

/-- Result of a call: a value; `IndexError`; `RuntimeError`; `UnboundLocalError`; or the numeric part did not return
(`ZeroDivisionError` in compiled code, or the fuel of the model was used up). -/
inductive Res (A : Type*) where
  | ok (a : A)
  | indexError
  | runtimeError
  | unbound
  | noReturn
  deriving DecidableEq

def Res.bind {A B : Type*} : Res A → (A → Res B) → Res B
  | .ok a, k => k a
  | .indexError, _ => .indexError
  | .runtimeError, _ => .runtimeError
  | .unbound, _ => .unbound
  | .noReturn, _ => .noReturn

def ofOutcome {A : Type*} : Outcome A → Res A
  | .ret a => .ok a
  | _ => .noReturn

def ofOption {A : Type*} : Option A → Res A
  | some a => .ok a
  | none => .noReturn

def ofMat {A : Type*} : OmegaMat.Res A → Res A
  | .ok a => .ok a
  | .indexError => .indexError

/-- The surface: `s[n], t[n], p[n]` at the casts, flattened. -/
abbrev Surf (F : Type*) := ℕ → F × F × F

/-- The arguments and options used in the iteration.  `solver s t p m mref` is `global_solver` with the grid and the equation of
state applied; `errs` is `ntp_epsilon_errors_norms` with the grid and the equation of state applied (`Ntp.norms`), giving
`(e_RMS, e_MAV)`; `sqrt` is `np.sqrt`; `garbage` is the uninitialised content of the queue of the wetting search.
`ITER_START_WETTING = np.inf` is represented by `iterMax + 1` (as in the docstring of `omega_surf`). -/
structure Cfg (F : Type*) where
  N : ℕ
  G : Csr
  casts : ℕ → Cast F
  kind : PPKind
  eos : F → F → F → F
  solver : (ℕ → F) → (ℕ → F) → (ℕ → F) → List ℕ → ℕ → OmegaMat.Res (ℕ → F)
  errs : Surf F → F × F
  sqrt : F → F
  pin : ℕ
  pml : ℕ → F
  tol : F
  tolPhi : F
  tolP : F
  diags : Bool
  iterMin : ℕ
  iterMax : ℕ
  startWet : ℕ
  stopWet : ℕ
  nrep : ℕ
  garbage : ℕ → ℕ
  fuel : ℕ

/-- The ocean seen by the wetting search: `bfsargs`, `/repo/neutralocean/surface/omega.py` lines 260-272. -/
def Cfg.ocean (c : Cfg F) : Bfs.Ocean F := Bfs.Ocean.ofCasts c.fuel c.tol c.eos c.kind c.casts c.pml

/-- `bfs_conncomp1_wet_perim(s, t, p, *bfsargs)`, `/repo/neutralocean/surface/omega.py` lines 318, 388. -/
def wetting (c : Cfg F) (stp : Surf F) : Res (Surf F × ℕ) :=
  (ofOption (Bfs.wetPerim c.G c.ocean c.N c.pin stp c.garbage c.nrep c.fuel)).bind fun r => .ok (r.stp, r.newly)

/-- `p[p < p_ml] = np.nan`, `/repo/neutralocean/surface/omega.py` lines 381-383. -/
def removeML (c : Cfg F) (iter : ℕ) (stp : Surf F) : Surf F :=
  if 1 < iter then fun n => if lt (stp n).2.2 (c.pml n) then ((stp n).1, (stp n).2.1, nan) else stp n
  else stp

/-- The connected component, `/repo/neutralocean/surface/omega.py` lines 385-395: the surface (mutated by wetting), the sorted queue and the number of newly wet
casts. -/
def region (c : Cfg F) (iter : ℕ) (stp : Surf F) : Res (Surf F × List ℕ × ℕ) :=
  if c.startWet ≤ iter ∧ iter ≤ c.stopWet then
    (wetting c stp).bind fun r => .ok (r.1, (List.range c.N).filter (fun n => isFinite (r.1 n).2.2), r.2)
  else
    (ofOption (Bfs.bfs c.G c.pin (fun n => isFinite (stp n).2.2) c.fuel)).bind fun q =>
      .ok (stp, q.q.insertionSort (· ≤ ·), 0)

/-- What one iteration does: the old and the new surface, the region, the correction and the number of newly wet casts. -/
structure Iter (F : Type*) where
  old : Surf F
  new : Surf F
  qu : List ℕ
  phi : ℕ → F
  newly : ℕ

/-- One pass of the loop up to the pinning, `/repo/neutralocean/surface/omega.py` lines 379-413. -/
def step (c : Cfg F) (pinP : F) (iter : ℕ) (stp : Surf F) : Res (Iter F) :=
  (region c iter (removeML c iter stp)).bind fun r =>
    (ofMat (c.solver (fun n => (r.1 n).1) (fun n => (r.1 n).2.1) (fun n => (r.1 n).2.2) r.2.1 c.pin)).bind fun phi =>
      (ofOutcome (vertsolveOmega c.fuel c.tol c.kind c.eos phi c.casts r.1 c.N)).bind fun stp' =>
        .ok ⟨r.1, Function.update stp' c.pin ((stp' c.pin).1, (stp' c.pin).2.1, pinP), r.2.1, phi, r.2.2⟩

/-- `np.nanmean` of an array of length `N` (left-to-right sum); NaN if all entries are NaN. -/
def nanmean (N : ℕ) (f : ℕ → F) : F :=
  let l := ((List.range N).map f).filter fun x => !isNaN x
  if l.length = 0 then nan else Ntp.sum l / lit l.length

/-- `np.nanmean(abs(ϕ))`, `/repo/neutralocean/surface/omega.py` line 418. -/
def phiMAV (c : Cfg F) (r : Iter F) : F := nanmean c.N fun n => FloatLike.abs (r.phi n)

/-- `Δp`, `/repo/neutralocean/surface/omega.py` line 420. -/
def dp (r : Iter F) (n : ℕ) : F := (r.new n).2.2 - (r.old n).2.2

/-- `Δp_RMS`, `/repo/neutralocean/surface/omega.py` lines 419-421, or its value before. -/
def dpRMS (c : Cfg F) (prev : F) (r : Iter F) : F :=
  if c.diags || lt (lit 0) c.tolP then c.sqrt (nanmean c.N fun n => dp r n * dp r n) else prev

/-- `np.nanmax`: the first maximum among entries that are not NaN; NaN if all are. -/
def nanmax (N : ℕ) (f : ℕ → F) : F :=
  match ((List.range N).map f).filter fun x => !isNaN x with
  | [] => nan
  | x :: l => l.foldl fmax x

/-- Diagnostics written in one pass, `/repo/neutralocean/surface/omega.py` lines 423-445, without timers. -/
structure Diag (F : Type*) where
  eRMS : F
  eMAV : F
  phiMAV : F
  dpMAV : F
  dpRMS : F
  dpLinf : F
  nWet : ℕ
  newly : ℕ

/-- number of wet casts, `/repo/neutralocean/surface/omega.py` lines 352, 444 -/
def nWet (c : Cfg F) (stp : Surf F) : ℕ := ((List.range c.N).filter fun n => isFinite (stp n).2.2).length

/-- Diagnostics of the initial surface, `/repo/neutralocean/surface/omega.py` lines 346-353 (the other entries are zeros of the allocation). -/
def diag0 (c : Cfg F) (stp : Surf F) : Diag F :=
  ⟨(c.errs stp).1, (c.errs stp).2, lit 0, lit 0, lit 0, lit 0, nWet c stp, 0⟩

/-- The diagnostics of a pass, `/repo/neutralocean/surface/omega.py` lines 423-445. -/
def diagOf (c : Cfg F) (rms : F) (r : Iter F) : Diag F :=
  ⟨(c.errs r.new).1, (c.errs r.new).2, phiMAV c r, nanmean c.N (fun n => FloatLike.abs (dp r n)), rms,
    nanmax c.N (fun n => FloatLike.abs (dp r n)), nWet c r.new, r.newly⟩

/-- State of the loop: the surface, `Δp_RMS`, the rows of diagnostics so far, and the last value of `iter_` (0: unbound). -/
structure State (F : Type*) where
  stp : Surf F
  rms : F
  rows : List (Diag F)
  last : ℕ

/-- The convergence test, `/repo/neutralocean/surface/omega.py` lines 458-460. -/
def converged (c : Cfg F) (iter : ℕ) (r : Iter F) (rms : F) : Bool :=
  (lt (phiMAV c r) c.tolPhi || lt rms c.tolP) && decide (c.iterMin ≤ iter)

/-- State after a pass. -/
def after (c : Cfg F) (iter : ℕ) (s : State F) (r : Iter F) : State F :=
  let rms := dpRMS c s.rms r
  ⟨r.new, rms, if c.diags then s.rows ++ [diagOf c rms r] else s.rows, iter⟩

/-- `for iter_ in range(1, ITER_MAX + 1)`, `/repo/neutralocean/surface/omega.py` lines 378-461: `left` passes remain and the next is `iter`. -/
def loop (c : Cfg F) (pinP : F) : ℕ → ℕ → State F → Res (State F)
  | 0, _, s => .ok s
  | left + 1, iter, s =>
    (step c pinP iter s.stp).bind fun r =>
      if converged c iter r (dpRMS c s.rms r) then .ok (after c iter s r) else loop c pinP left (iter + 1) (after c iter s r)

/-- The diagnostics returned, with the trimming of `/repo/neutralocean/surface/omega.py` lines 463-466. -/
structure Diags (F : Type*) where
  (eRMS eMAV phiMAV dpMAV dpRMS dpLinf : List F)
  (nWet newly : List ℕ)

/-- `/repo/neutralocean/surface/omega.py` lines 463-466; each array is allocated with length `ITER_MAX + 1` and filled from the front. -/
def trim (s : State F) : Diags F :=
  ⟨(s.rows.map Diag.eRMS).take (s.last + 1), (s.rows.map Diag.eMAV).take (s.last + 1), (s.rows.map Diag.phiMAV).take s.last,
    (s.rows.map Diag.dpMAV).take s.last, (s.rows.map Diag.dpRMS).take s.last, (s.rows.map Diag.dpLinf).take s.last,
    (s.rows.map Diag.nWet).take s.last, (s.rows.map Diag.newly).take s.last⟩

/-- `interp_two` on one cast, `/repo/neutralocean/surface/omega.py` lines 315, 337 (`none`: `ZeroDivisionError`). -/
def interpTwo (c : Cfg F) (p : F) (n : ℕ) : Option (F × F) :=
  match c.kind with
  | .linear => ppinterp1Two linearCoeffsI p (c.casts n).P (c.casts n).S (c.casts n).T 0
  | .pchip => ppinterp1Two pchipCoeffsI p (c.casts n).P (c.casts n).S (c.casts n).T 0

/-- `p_init`: a scalar or an array. -/
inductive PInit (F : Type*) where
  | scalar (p : F)
  | array (p : ℕ → F)

/-- `pin_p`, `/repo/neutralocean/surface/omega.py` lines 309, 333. -/
def pinPOf (c : Cfg F) : PInit F → F
  | .scalar p => p
  | .array p => p c.pin

/-- The initial surface, `/repo/neutralocean/surface/omega.py` lines 308-337, before the check.  Simplification: `interp_two` on an array of pressures returns when
it returns on every cast. -/
def initRaw (c : Cfg F) : PInit F → Res (Surf F)
  | .scalar p =>
    (ofOption (interpTwo c p c.pin)).bind fun st =>
      (wetting c (Function.update (fun _ => (nan, nan, nan)) c.pin (st.1, st.2, p))).bind fun r => .ok r.1
  | .array p =>
    if ∀ n < c.N, (interpTwo c (p n) n).isSome then
      .ok fun n => if n < c.N then ((((interpTwo c (p n) n).getD (nan, nan)).1), ((interpTwo c (p n) n).getD (nan, nan)).2, p n)
        else (nan, nan, nan)
    else .noReturn

/-- The initial surface with its check, `/repo/neutralocean/surface/omega.py` lines 308-344. -/
def init (c : Cfg F) (p0 : PInit F) : Res (Surf F) :=
  (initRaw c p0).bind fun stp =>
    if isNaN (stp c.pin).1 then .runtimeError
    else .ok fun n => if isNaN (stp n).1 then ((stp n).1, (stp n).2.1, nan) else stp n

/-- `omega_surf` from line 307 of `/repo/neutralocean/surface/omega.py` on: final loop state.  With diagnostics and no pass of the loop, line 466 uses the unbound
`iter_`. -/
def omega (c : Cfg F) (p0 : PInit F) : Res (State F) :=
  (init c p0).bind fun stp =>
    (loop c (pinPOf c p0) c.iterMax 1 ⟨stp, lit 0, if c.diags then [diag0 c stp] else [], 0⟩).bind fun s =>
      if c.diags && decide (s.last = 0) then .unbound else .ok s

/-- `TOL_LRPD_MAV` as used in the test, `/repo/neutralocean/surface/omega.py` lines 284-286. -/
def tolLRPD (eos : F → F → F → F) (tol : F) : F :=
  if lt (eos (lit (345/10)) (lit 3) (lit 1000)) (lit 1) then tol / lit 1000000 else tol

end Omega
