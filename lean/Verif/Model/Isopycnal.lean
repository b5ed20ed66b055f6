import Verif.Model.VertSolve
import Verif.Model.Lib

/-! # Model of `/repo/neutralocean/surface/isopycnal.py` -/

namespace Isopycnal
open FloatLike Fzero Interp Traj VertSolve
variable {F : Type*} [FloatLike F]

/-- `ans_type`. -/
inductive Ans where
  | potential | anomaly
  deriving DecidableEq

/-- The `ref` option: absent, a float, a pair whose members may be `None`, or anything else. -/
inductive RefArg (F : Type*) where
  | none
  | float (x : F)
  | pair (a b : Option F)
  | other
  deriving DecidableEq

/-- The `pin_p` option: absent, a float, or anything else (for instance an `int`). -/
inductive PinP (F : Type*) where
  | none
  | float (x : F)
  | other
  deriving DecidableEq

/-- Result of a call: a value; `TypeError`; `ValueError`; a numba typing error, raised when a compiled function gets an
argument for which it cannot be compiled (`None` in arithmetic, a 3D array for a cast); or the numeric part did not return
(`ZeroDivisionError`, or the fuel of the model was used up). -/
inductive Res (A : Type*) where
  | ok (a : A)
  | typeError
  | valueError
  | typingError
  | noReturn
  deriving DecidableEq

def Res.bind {A B : Type*} : Res A → (A → Res B) → Res B
  | .ok a, k => k a
  | .typeError, _ => .typeError
  | .valueError, _ => .valueError
  | .typingError, _ => .typingError
  | .noReturn, _ => .noReturn

/-- result of a compiled function -/
def ofOutcome {A : Type*} : Outcome A → Res A
  | .ret a => .ok a
  | _ => .noReturn

/-- `_check_ref`, `/repo/neutralocean/surface/isopycnal.py` lines 414-459, for `N` casts.  Simplifications: `pin_cast` is the
linear index of the cast (in the code a tuple; a dict has been converted before by `_process_pin_cast`). -/
def checkRef (ty : Ans) (ref : RefArg F) (isoval : Option F) (pinCast : Option ℤ) (pinP : PinP F) (N : ℕ) : Res Unit :=
  let noPin := pinCast.isNone || (match pinP with | .none => true | _ => false)
  if (match ref with | .none => noPin | _ => isoval.isNone && noPin) then .typeError
  else if (match ref, ty with
    | .none, _ => false
    | .float _, .potential => false
    | .pair _ _, .anomaly => false
    | _, _ => true) then .typeError
  else if (match pinCast with | some n => (Lib.npIdx N n).isNone | none => false) then .valueError
  else match pinP with
    | .other => .typeError
    | _ => .ok ()

/-- `Sn + Pn` -/
def addArr (X Y : Arr F) : Arr F := ⟨X.size, fun i => X.get i + Y.get i⟩

/-- Interpolation at the pinning cast, `/repo/neutralocean/surface/isopycnal.py` lines 386-390 and 473-477. -/
def pinST (kind : PPKind) (c : Cast F) (pinP : F) : Res (F × F) :=
  let kK := validRange (addArr c.S c.P)
  let P := c.P.slice kK.1 kK.2
  match ppcFn kind P (c.S.slice kK.1 kK.2), ppcFn kind P (c.T.slice kK.1 kK.2) with
  | some Sp, some Tp => .ok (ppval1Two pinP P Sp Tp 0)
  | _, _ => .noReturn

/-- `_choose_ref_isoval`, `/repo/neutralocean/surface/isopycnal.py` lines 462-490, called after `_check_ref`: `pin` is the
pinning cast and pressure where both are given.  Without `isoval` and `pin` there is `TypeError` (indexing with `None` and
calling a compiled function), but `_check_ref` excludes that. -/
def choose (kind : PPKind) (eos : F → F → F → F) (ty : Ans) (ref : RefArg F) (isoval : Option F)
    (pin : Option (Cast F × F)) : Res (RefArg F × F) :=
  match isoval with
  | some v => .ok (ref, v)
  | none =>
    match pin with
    | none => .typingError
    | some (c, pinP) =>
      (pinST kind c pinP).bind fun st =>
        match ty with
        | .potential =>
          match ref with
          | .none => .ok (.float pinP, eos st.1 st.2 pinP)
          | .float r => .ok (ref, eos st.1 st.2 r)
          | _ => .typeError
        | .anomaly =>
          match ref with
          | .pair (some a) (some b) => .ok (ref, eos st.1 st.2 pinP - eos a b pinP)
          | .none | .pair _ _ => .ok (.pair (some st.1) (some st.2), eos st.1 st.2 pinP - eos st.1 st.2 pinP)
          | _ => .typeError

/-- `vertsolve(S, T, P, ref, isoval, TOL_P_SOLVER)`, `/repo/neutralocean/surface/isopycnal.py` lines 373-376: the compiled
solver cannot be compiled for a `ref` that is, or has, `None`. -/
def solve (fuel : ℕ) (tol : F) (kind : PPKind) (eos : F → F → F → F) (ty : Ans) (ref : RefArg F) (isoval : F)
    (casts : ℕ → Cast F) (N : ℕ) : Res (ℕ → F × F × F) :=
  match ty, ref with
  | .potential, .float r => ofOutcome (vertsolve fuel tol kind (fun P Sp Tp => zeroPotential eos P Sp Tp r isoval) casts N)
  | .anomaly, .pair (some a) (some b) =>
    ofOutcome (vertsolve fuel tol kind (fun P Sp Tp => zeroAnomaly eos P Sp Tp (a, b) isoval) casts N)
  | _, _ => .typingError

/-- the pinning cast and pressure where both are given -/
def pinOf (casts : ℕ → Cast F) (n : Option ℕ) (pinP : PinP F) : Option (Cast F × F) :=
  match n, pinP with
  | some n, .float x => some (casts n, x)
  | _, _ => none

/-- `_isopycnal`, `/repo/neutralocean/surface/isopycnal.py` lines 336-411, from the argument checks on: the surface
`(s, t, p)` and `d["ref"]`, `d["isoval"]`.  Simplifications: horizontal dimensions are flattened; the diagnostics of errors are
not included (see `Ntp.norms`); `pin_p` given without `pin_cast` (accepted by the check when `ref` and `isoval` are given)
makes the compiled `valid_range_1` get a whole array, a typing error. -/
def isopycnal (fuel : ℕ) (tol : F) (kind : PPKind) (eos : F → F → F → F) (ty : Ans) (ref : RefArg F) (isoval : Option F)
    (pinCast : Option ℤ) (pinP : PinP F) (casts : ℕ → Cast F) (N : ℕ) : Res ((ℕ → F × F × F) × RefArg F × F) :=
  (checkRef ty ref isoval pinCast pinP N).bind fun _ =>
    let n := pinCast.bind (Lib.npIdx N)
    (choose kind eos ty ref isoval (pinOf casts n pinP)).bind fun ri =>
      (solve fuel tol kind eos ty ri.1 ri.2 casts N).bind fun stp =>
        match pinP with
        | .float x =>
          match n with
          | some n => (pinST kind (casts n) x).bind fun st => .ok (Function.update stp n (st.1, st.2, x), ri.1, ri.2)
          | none => .typingError
        | _ => .ok (stp, ri.1, ri.2)

end Isopycnal
