import Verif.Model.Isopycnal
import Verif.Model.Flatten

/-!
# Model of the front end of `potential_surf` and `anomaly_surf`, `/repo/neutralocean/surface/isopycnal.py` lines 258, 333, 336-411

Arrays with several horizontal dimensions in, arrays of the same horizontal shape out.  Not modelled here: xarray containers (see
`Verif.Model.Xarray`), the equation of state (see `Verif.Model.EosTools`).
-/

namespace Isopycnal
open FloatLike Fzero Interp Traj VertSolve Lib
variable {F : Type*} [FloatLike F]

/-- The `pin_cast` argument: absent; a dict, `int` or tuple; or a list of `int`. -/
inductive Pin where
  | none
  | cast (c : PinCast)
  | list (l : List ℤ)

/-- What indexing the first dimensions of an array with `pin_cast` selects: one entry of the horizontal dimensions (its number in C order); something else;
or it fails. -/
inductive Sel where
  | one (n : ℕ)
  | odd
  | bad
  deriving DecidableEq

/-- numpy indexing with a tuple: the number of the entry of the first dimensions selected, if all indices are valid (negative ones count from the end). -/
def tupleIdx : List ℕ → List ℤ → Option ℕ
  | _, [] => some 0
  | [], _ :: _ => Option.none
  | n :: s, i :: l =>
    match npIdx n i, tupleIdx s l with
    | some j, some r => some (j * s.prod + r)
    | _, _ => Option.none

/-- `S[pin_cast]` for a tuple, `S` having the shape `hs ++ [nk]`. -/
def selTuple (hs : List ℕ) (nk : ℕ) (l : List ℤ) : Sel :=
  if l.length = hs.length then
    match tupleIdx hs l with
    | some n => .one n
    | Option.none => .bad
  else if (tupleIdx (hs ++ [nk]) l).isSome then .odd else .bad

/-- `S[pin_cast]` for a list: numpy takes the list as indices into the first dimension ("fancy indexing") and returns an array of
the dimension of `S`. -/
def selList (hs : List ℕ) (nk : ℕ) (l : List ℤ) : Sel :=
  if l.all fun i => (npIdx ((hs ++ [nk]).headD 0) i).isSome then .odd else .bad

/-- `_process_pin_cast(pin_cast, S)`, `/repo/neutralocean/surface/isopycnal.py` line 363, and then what the result selects (lines 448-455):
a function of the horizontal shape and the number of levels. -/
def select (coord : String → Option (List ℚ)) : Pin → Lib.Res (List ℕ → ℕ → Option Sel)
  | .none => .ok fun _ _ => Option.none
  | .list l => .ok fun hs nk => some (selList hs nk l)
  | .cast c =>
    match processPinCast coord c with
    | .ok l => .ok fun hs nk => some (selTuple hs nk l)
    | .indexError => .indexError
    | .valueError => .valueError
    | .typeError => .typeError

/-- exceptions of the argument processing (`IndexError` does not occur there and is not distinguished) -/
def ofLib {A : Type*} : Lib.Res A → Res A
  | .ok a => .ok a
  | .typeError => .typeError
  | .indexError | .valueError => .valueError

/-- `_isopycnal` where `pin_cast` selects something that is not one cast: it passes `_check_ref`, but the compiled `valid_range_1` cannot
be compiled for it, `/repo/neutralocean/surface/isopycnal.py` lines 386-387 and 473-474. -/
def isopycnalOdd (fuel : ℕ) (tol : F) (kind : PPKind) (eos : F → F → F → F) (ty : Ans) (ref : RefArg F) (isoval : Option F)
    (pinP : PinP F) (casts : ℕ → Cast F) (N : ℕ) : Res ((ℕ → F × F × F) × RefArg F × F) :=
  (checkRef ty ref isoval (some 0) pinP (N + 1)).bind fun _ =>
    match isoval with
    | Option.none => .typingError
    | some v =>
      (solve fuel tol kind eos ty ref v casts N).bind fun stp =>
        match pinP with
        | .none => .ok (stp, ref, v)
        | _ => .typingError

/-- `potential_surf(S, T, P, **kwargs)` and `anomaly_surf(S, T, P, **kwargs)`: the horizontal shape, the surface as a function of the horizontal
indices, `d["ref"]` and `d["isoval"]`.  `edges`: whether `diags` is true and `grid` is a dict with `edges`.  Simplification: with diagnostics, what
`ntp_epsilon_errors_norms` does is left out. -/
def isoSurf (fuel : ℕ) (tol : F) (kind : PPKind) (eos : F → F → F → F) (ty : Ans) (vertDim : Dim) (diags edges : Bool)
    (dims : Option (List String)) (coord : String → Option (List ℚ)) (S T : Nd F) (P : PArg F) (ref : RefArg F) (isoval : Option F)
    (pin : Pin) (pinP : PinP F) : Res (List ℕ × (List ℕ → F × F × F) × RefArg F × F) :=
  (ofLib (select coord pin)).bind fun sel =>
  (ofLib (processCasts dims S T P vertDim)).bind fun STP =>
  let hs := STP.1.shape.dropLast
  if diags && !edges then .valueError else
  let casts := castsOf STP.1 STP.2.1 STP.2.2
  let N := hs.prod
  (match sel hs (STP.1.shape.getLastD 0) with
    | Option.none => isopycnal fuel tol kind eos ty ref isoval Option.none pinP casts N
    | some (.one n) => isopycnal fuel tol kind eos ty ref isoval (some n) pinP casts N
    | some .bad => isopycnal fuel tol kind eos ty ref isoval (some N) pinP casts N
    | some .odd => isopycnalOdd fuel tol kind eos ty ref isoval pinP casts N).bind fun r =>
  .ok (hs, reshapeGet hs r.1, r.2.1, r.2.2)

end Isopycnal
