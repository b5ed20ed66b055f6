import Verif.Model.Fzero
import Verif.Model.Interp

/-! # Model of `/repo/neutralocean/traj.py` -/

/-- One water column: `S[c, :]`, `T[c, :]`, `P[c, :]`. -/
structure Cast (F : Type*) where
  (S T P : Arr F)

/-- The two interpolants known to `make_pp`. -/
inductive PPKind where
  | linear | pchip
  deriving DecidableEq, Repr

namespace Traj
open FloatLike Fzero Interp
variable {F : Type*} [FloatLike F]

/-- `ppc_fn = make_pp(interp, kind="1", out="coeffs", nans=False)`, `/repo/neutralocean/ppinterp/tools.py`
lines 41-65: `linear_coeffs_1` or `pchip_coeffs_1_nonan`.  `none`: `ZeroDivisionError`. -/
def ppcFn : PPKind → Arr F → Arr F → Option (PPC F)
  | .linear, X, Y => some (linearCoeffs1 X Y)
  | .pchip, X, Y => pchipCoeffs1Nonan X Y

/-- `lb, ub = guess_to_bounds(f, x, A, B)`, then `brent(f, lb, ub, tol)` if `isfinite(lb)`, else NaN:
`/repo/neutralocean/traj.py` lines 182-194, `/repo/neutralocean/surface/_vertsolve.py` lines 68-73, 115-120. -/
def solveRoot (fuel : ℕ) (f : F → F) (x A B tol : F) : Outcome F :=
  (guessToBounds fuel f x A B).bind fun ab =>
    if isFinite ab.1 then brent fuel f ab.1 ab.2 tol else .ret nan

/-- `_pot_dens_diff`, `/repo/neutralocean/traj.py` lines 14-21. -/
def potDensDiff (eos : F → F → F → F) (sB tB pB : F) (P : Arr F) (Sppc Tppc : PPC F) (p : F) : F :=
  let st := ppval1NonanTwo p P Sppc Tppc 0
  let pAvg := (pB + p) * lit (1/2)
  eos sB tB pAvg - eos st.1 st.2 pAvg

/-- `_ntp_bottle_to_cast_ppc`, `/repo/neutralocean/traj.py` lines 163-194. -/
def ntpPpc (fuel : ℕ) (tol : F) (eos : F → F → F → F) (sB tB pB : F) (P : Arr F) (Sppc Tppc : PPC F) : Outcome F :=
  solveRoot fuel (potDensDiff eos sB tB pB P Sppc Tppc) pB (P.get 0) (P.get (P.size - 1)) tol

/-- `_ntp_bottle_to_cast`, `/repo/neutralocean/traj.py` lines 111-159. -/
def ntpCast (fuel : ℕ) (tol : F) (eos : F → F → F → F) (kind : PPKind) (sB tB pB : F) (c : Cast F) (k K : ℕ) :
    Outcome (F × F × F) :=
  if 1 < K - k then
    let P := c.P.slice k K
    match ppcFn kind P (c.S.slice k K), ppcFn kind P (c.T.slice k K) with
    | some Sppc, some Tppc =>
      (ntpPpc fuel tol eos sB tB pB P Sppc Tppc).bind fun p =>
        if isFinite p then
          let st := ppval1NonanTwo p P Sppc Tppc 0
          .ret (st.1, st.2, p)
        else .ret (nan, nan, p)
    | _, _ => .zeroDiv
  else .ret (nan, nan, nan)

/-- `ntp_bottle_to_cast`, `/repo/neutralocean/traj.py` lines 24-107 (with `eos` and `interp` already resolved). -/
def ntpBottleToCast (fuel : ℕ) (tol : F) (eos : F → F → F → F) (kind : PPKind) (sB tB pB : F) (c : Cast F) :
    Outcome (F × F × F) :=
  ntpCast fuel tol eos kind sB tB pB c (validRange2 c.S c.P).1 (validRange2 c.S c.P).2

/-- Loop over the casts `1, 2, ...` of `neutral_trajectory`, `/repo/neutralocean/traj.py` lines 272-302: link the
previous bottle to the next cast; stop at the first NaN pressure (entries not reached stay NaN). -/
def trajLoop (fuel : ℕ) (tol : F) (eos : F → F → F → F) (kind : PPKind) :
    F × F × F → List (Cast F) → Outcome (List (F × F × F))
  | _, [] => .ret []
  | b, c :: cs =>
    (ntpBottleToCast fuel tol eos kind b.1 b.2.1 b.2.2 c).bind fun b' =>
      if isNaN b'.2.2 then .ret (b' :: cs.map fun _ => (nan, nan, nan))
      else (trajLoop fuel tol eos kind b' cs).bind fun r => .ret (b' :: r)

/-- First cast of `neutral_trajectory`, `/repo/neutralocean/traj.py` lines 278-283.  With no valid site the slices are
empty and `X[0]` is read out of bounds. -/
def trajStart (kind : PPKind) (p0 : F) (c : Cast F) : Outcome (F × F × F) :=
  let kK := validRange2 c.S c.P
  let P := c.P.slice kK.1 kK.2
  if P.size = 0 then .oob
  else match ppcFn kind P (c.S.slice kK.1 kK.2), ppcFn kind P (c.T.slice kK.1 kK.2) with
    | some Sppc, some Tppc =>
      let st := ppval1NonanTwo p0 P Sppc Tppc 0
      .ret (st.1, st.2, p0)
    | _, _ => .zeroDiv

/-- `neutral_trajectory`, `/repo/neutralocean/traj.py` lines 199-304: the list of `(s[c], t[c], p[c])`. -/
def neutralTrajectory (fuel : ℕ) (tol : F) (eos : F → F → F → F) (kind : PPKind) (p0 : F) :
    List (Cast F) → Outcome (List (F × F × F))
  | [] => .ret []
  | c :: cs =>
    (trajStart kind p0 c).bind fun b =>
      if isNaN b.2.2 then .ret (b :: cs.map fun _ => (nan, nan, nan))
      else (trajLoop fuel tol eos kind b cs).bind fun r => .ret (b :: r)

end Traj
