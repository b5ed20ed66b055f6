import Verif.Model.Interp
import Verif.Model.Lib

/-!
# Model of the vectorised functions of `/repo/neutralocean/ppinterp/` and of `vectorize_eos`

`numba.guvectorize` and `numba.vectorize` turn a function of single casts (or numbers) into one of arrays, by numpy's rules for
generalised ufuncs, which are modelled here after the documentation of numpy: the last dimensions of each argument are those named in
the signature and must agree exactly; the dimensions before them are broadcast against each other, aligned at the right.
-/

namespace Gufunc
open FloatLike Interp Lib
variable {F : Type*} [FloatLike F] {α : Type*}

/-- What a call gives: a value, a `ValueError` (dimensions that do not fit), or a `ZeroDivisionError` of the compiled kernel. -/
inductive Res (A : Type*) where
  | ok (a : A)
  | valueError
  | zeroDiv

/-- numpy's broadcasting of one dimension -/
def bdim (m n : ℕ) : Option ℕ := if m = n then some m else if m = 1 then some n else if n = 1 then some m else none

/-- numpy's broadcasting of two shapes, given last dimension first -/
def bshapeR : List ℕ → List ℕ → Option (List ℕ)
  | [], t => some t
  | m :: s, [] => some (m :: s)
  | m :: s, n :: t =>
    match bdim m n, bshapeR s t with
    | some k, some r => some (k :: r)
    | _, _ => none

/-- numpy's broadcasting of several shapes -/
def bshapes : List (List ℕ) → Option (List ℕ)
  | [] => some []
  | s :: l => (bshapes l).bind fun t => (bshapeR s.reverse t.reverse).map List.reverse

/-- the index, last first, at which an argument of the given shape is read -/
def pickR : List ℕ → List ℕ → List ℕ
  | [], _ => []
  | _ :: _, [] => []
  | n :: s, i :: idx => (if n = 1 then 0 else i) :: pickR s idx

/-- What an argument contributes at entry `idx` of the result: along dimensions of length 1 it is repeated. -/
def read (A : Nd α) (idx : List ℕ) : α := A.get (pickR A.shape.reverse idx.reverse).reverse

/-- all indices of an array -/
def indices : List ℕ → List (List ℕ)
  | [] => [[]]
  | n :: s => (List.range n).flatMap fun i => (indices s).map (i :: ·)

/-- Loop over the broadcast dimensions; `kernel idx` is the compiled function applied at entry `idx`, `none` if it raises.
`dflt` is of no importance. -/
def run (shapes : List (List ℕ)) (dflt : α) (kernel : List ℕ → Option α) : Res (Nd α) :=
  match bshapes shapes with
  | none => .valueError
  | some s => if (indices s).all fun i => (kernel i).isSome then .ok ⟨s, fun i => (kernel i).getD dflt⟩ else .zeroDiv

/-- An argument with `(n)` in the signature: its length `n`, and its casts. An array without dimensions does not fit. -/
def rows (X : Nd F) : Option (ℕ × Nd (Arr F)) :=
  match X.shape.getLast? with
  | none => none
  | some n => some (n, ⟨X.shape.dropLast, fun i => ⟨n, fun k => X.get (i ++ [k])⟩⟩)

/-- An argument with `(n,m)` in the signature: `n`, and its tables of coefficients. -/
def tables (C : Nd F) : Option (ℕ × Nd (PPC F)) :=
  match C.shape.getLast?, C.shape.dropLast.getLast? with
  | some m, some n =>
    some (n, ⟨C.shape.dropLast.dropLast, fun i => ⟨n, fun k => (List.range m).map fun j => C.get (i ++ [k, j])⟩⟩)
  | _, _ => none

/-- A result with `(n,m)` in the signature, as an array. -/
def untables (n m : ℕ) (C : Nd (PPC F)) : Nd F :=
  ⟨C.shape ++ [n, m], fun i =>
    ((C.get (i.take C.shape.length)).row (i.getD C.shape.length 0)).getD (i.getD (C.shape.length + 1) 0) nan⟩

/-- Signature `(),(n),(n),()->()`, `/repo/neutralocean/ppinterp/linear.py` lines 119-124 and
`/repo/neutralocean/ppinterp/pchip.py` lines 358-363. Simplification: `d` is not negative. -/
def interpU (interp1 : F → Arr F → Arr F → ℕ → Option F) (x : Nd F) (X Y : Nd F) (d : Nd ℕ) : Res (Nd F) :=
  match rows X, rows Y with
  | some (n, X'), some (n', Y') =>
    if n = n' then
      run [x.shape, X'.shape, Y'.shape, d.shape] nan fun i => interp1 (read x i) (read X' i) (read Y' i) (read d i)
    else .valueError
  | _, _ => .valueError

/-- Signature `(),(n),(n),(n),()->(),()`, `/repo/neutralocean/ppinterp/linear.py` lines 127-132 and
`/repo/neutralocean/ppinterp/pchip.py` lines 366-371; the two results are kept together. -/
def interpTwoU (interp1 : F → Arr F → Arr F → Arr F → ℕ → Option (F × F)) (x : Nd F) (X Y Z : Nd F) (d : Nd ℕ) :
    Res (Nd (F × F)) :=
  match rows X, rows Y, rows Z with
  | some (n, X'), some (n', Y'), some (n'', Z') =>
    if n = n' ∧ n = n'' then
      run [x.shape, X'.shape, Y'.shape, Z'.shape, d.shape] (nan, nan) fun i =>
        interp1 (read x i) (read X' i) (read Y' i) (read Z' i) (read d i)
    else .valueError
  | _, _, _ => .valueError

/-- Signature `(n),(n),(m)->(n,m)`, `/repo/neutralocean/ppinterp/linear.py` lines 46, 63-67 and
`/repo/neutralocean/ppinterp/pchip.py` lines 53-54, 341-345, where the third argument is `np.arange(m)`. -/
def coeffsU (coeffs1 : Arr F → Arr F → Option (PPC F)) (m : ℕ) (X Y : Nd F) : Res (Nd F) :=
  match rows X, rows Y with
  | some (n, X'), some (n', Y') =>
    if n = n' then
      match run [X'.shape, Y'.shape, []] ⟨0, fun _ => []⟩ fun i => coeffs1 (read X' i) (read Y' i) with
      | .ok C => .ok (untables n m C)
      | .valueError => .valueError
      | .zeroDiv => .zeroDiv
    else .valueError
  | _, _ => .valueError

/-- `ppval`, signature `(),(n),(n,m),()->()`, `/repo/neutralocean/ppinterp/ppinterp.py` lines 163-214. -/
def ppvalU (x : Nd F) (X C : Nd F) (d : Nd ℕ) : Res (Nd F) :=
  match rows X, tables C with
  | some (n, X'), some (n', C') =>
    if n = n' then
      run [x.shape, X'.shape, C'.shape, d.shape] nan fun i => some (ppval1 (read x i) (read X' i) (read C' i) (read d i))
    else .valueError
  | _, _ => .valueError

/-- `ppval_two`, signature `(),(n),(n,m),(n,m),()->(),()`, `/repo/neutralocean/ppinterp/ppinterp.py` lines 296-314; the number of
columns `m` of the two tables must agree. -/
def ppvalTwoU (x : Nd F) (X C D : Nd F) (d : Nd ℕ) : Res (Nd (F × F)) :=
  match rows X, tables C, tables D with
  | some (n, X'), some (n', C'), some (n'', D') =>
    if n = n' ∧ n = n'' ∧ C.shape.getLast? = D.shape.getLast? then
      run [x.shape, X'.shape, C'.shape, D'.shape, d.shape] (nan, nan) fun i =>
        some (ppval1Two (read x i) (read X' i) (read C' i) (read D' i) (read d i))
    else .valueError
  | _, _, _ => .valueError

/-- `linear_interp`, `/repo/neutralocean/ppinterp/linear.py` lines 119-124. -/
def linearInterp (x X Y : Nd F) (d : Nd ℕ) : Res (Nd F) := interpU linearInterp1 x X Y d
/-- `pchip_interp`, `/repo/neutralocean/ppinterp/pchip.py` lines 57-64, 358-363. -/
def pchipInterp (x X Y : Nd F) (d : Nd ℕ) : Res (Nd F) := interpU pchipInterp1 x X Y d
/-- `linear_interp_two`, `/repo/neutralocean/ppinterp/linear.py` lines 114-116, 127-132. -/
def linearInterpTwo (x X Y Z : Nd F) (d : Nd ℕ) : Res (Nd (F × F)) := interpTwoU (ppinterp1Two linearCoeffsI) x X Y Z d
/-- `pchip_interp_two`, `/repo/neutralocean/ppinterp/pchip.py` lines 67-74, 353-355, 366-371. -/
def pchipInterpTwo (x X Y Z : Nd F) (d : Nd ℕ) : Res (Nd (F × F)) := interpTwoU (ppinterp1Two pchipCoeffsI) x X Y Z d
/-- `linear_coeffs`, `/repo/neutralocean/ppinterp/linear.py` lines 8-46. -/
def linearCoeffs (X Y : Nd F) : Res (Nd F) := coeffsU (fun X Y => some (linearCoeffs1 X Y)) 2 X Y
/-- `pchip_coeffs`, `/repo/neutralocean/ppinterp/pchip.py` lines 9-54. -/
def pchipCoeffs (X Y : Nd F) : Res (Nd F) := coeffsU pchipCoeffs1 4 X Y

/-- `vectorize_eos(eos)`, `/repo/neutralocean/eos/tools.py` lines 183-206; `none` if `eos` raises. -/
def vectorizeEos (eos : F → F → F → Option F) (s t p : Nd F) : Res (Nd F) :=
  run [s.shape, t.shape, p.shape] nan fun i => eos (read s i) (read t i) (read p i)

end Gufunc
