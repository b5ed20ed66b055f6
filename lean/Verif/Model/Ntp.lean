import Verif.Model.Float
import Mathlib.Data.List.Basic

/-! # Model of `/repo/neutralocean/ntp.py` -/

namespace Ntp
open FloatLike
variable {F : Type*} [FloatLike F]

/-- Result of a call: a value, a `KeyError`, or a numpy shape error. -/
inductive Res (A : Type*) where
  | ok (a : A)
  | keyError
  | shapeError
  deriving DecidableEq

/-- The two partial derivatives returned by `eos_s_t(s, t, p)`. -/
abbrev EosST (F : Type*) := F → F → F → F × F

/-- Loop body of `_ntp_epsilon_error1`, `/repo/neutralocean/ntp.py` lines 137-144. -/
def epsErr (eos : EosST F) (s t p : ℕ → F) (x : ℕ × ℕ) : F :=
  let r := eos (lit (1/2) * (s x.1 + s x.2)) (lit (1/2) * (t x.1 + t x.2)) (lit (1/2) * (p x.1 + p x.2))
  r.1 * (s x.2 - s x.1) + r.2 * (t x.2 - t x.1)

/-- `_ntp_epsilon_error1`, `/repo/neutralocean/ntp.py` lines 133-145. -/
def epsErrs (eos : EosST F) (s t p : ℕ → F) (edges : List (ℕ × ℕ)) : List F := edges.map (epsErr eos s t p)

/-- A `grid` dict: the keys `dist` and `distperp` may be missing. -/
structure Grid (F : Type*) where
  edges : List (ℕ × ℕ)
  dist : Option (List F)
  distperp : Option (List F)

/-- The argument `grid` of `ntp_epsilon_errors`: a tuple or a dict. -/
inductive GridArg (F : Type*) where
  | tuple (edges : List (ℕ × ℕ))
  | dict (g : Grid F)

/-- elementwise operation on two 1D arrays of equal length (numpy raises if the lengths differ). -/
def zipR (f : F → F → F) (x y : List F) : Res (List F) :=
  if x.length = y.length then .ok (x.zipWith f y) else .shapeError

/-- `ntp_epsilon_errors`, `/repo/neutralocean/ntp.py` lines 10-49.  The test at line 47 is always true (`dist is not float`
compares with the type), so the division is always made.  Simplification: `dist` is an array or missing. -/
def epsilonErrors (eos : EosST F) (s t p : ℕ → F) : GridArg F → Res (List F)
  | .tuple edges => .ok ((epsErrs eos s t p edges).map (· / lit 1))
  | .dict g =>
    match g.dist with
    | none => .ok ((epsErrs eos s t p g.edges).map (· / lit 1))
    | some d => zipR (· / ·) (epsErrs eos s t p g.edges) d

/-- `np.sum`; simplification: summed from left to right. -/
def sum (l : List F) : F := l.foldl (· + ·) (lit 0)

/-- `np.nansum` -/
def nansum (l : List F) : F := sum (l.map fun x => if isNaN x then lit 0 else x)

/-- The part of `ntp_epsilon_errors_norms` after the errors, `/repo/neutralocean/ntp.py` lines 108-128; each entry is
`(e, dist, distperp)`. -/
def normsOf (sqrt : F → F) (l : List (F × F × F)) : F × F :=
  let denom := sum (l.map fun x => (x.2.1 * x.2.2) * (if isFinite x.1 then lit 1 else lit 0))
  if feq denom (lit 0) then (lit 0, lit 0)
  else
    (sqrt (nansum (l.map fun x => x.2.2 / x.2.1 * (x.1 * x.1)) / denom),
     nansum (l.map fun x => x.2.2 * FloatLike.abs x.1) / denom)

/-- `ntp_epsilon_errors_norms`, `/repo/neutralocean/ntp.py` lines 52-130: `(e_RMS, e_MAV)`. -/
def norms (sqrt : F → F) (eos : EosST F) (s t p : ℕ → F) (g : Grid F) : Res (F × F) :=
  match epsilonErrors eos s t p (.dict ⟨g.edges, none, none⟩) with
  | .keyError => .keyError
  | .shapeError => .shapeError
  | .ok e =>
    match g.dist, g.distperp with
    | some d, some q =>
      if d.length = q.length ∧ d.length = e.length then .ok (normsOf sqrt (e.zip (d.zip q))) else .shapeError
    | _, _ => .keyError

end Ntp
