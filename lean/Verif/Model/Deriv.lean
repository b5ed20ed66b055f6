import Verif.Model.Interp

/-!
# The order of the derivative as an integer

`/repo/neutralocean/ppinterp/ppinterp.py`: `d` is an `int`; `Model/Interp.lean` takes it as a natural number.  Here it may be negative.
-/

namespace Deriv
open FloatLike Interp
variable {F : Type*} [FloatLike F]

/-- What an evaluation can do: return, raise `ZeroDivisionError`, raise `IndexError` (numba checks the index into a tuple), or read an array outside its bounds
(numba does not check; undefined behaviour). -/
inductive Ev (R : Type*) where
  | ret (r : R)
  | zeroDiv
  | indexError
  | oob
  deriving DecidableEq

/-- Sequencing: continue only after a normal return. -/
def Ev.bind {R Q : Type*} : Ev R → (R → Ev Q) → Ev Q
  | .ret r, k => k r
  | .zeroDiv, _ => .zeroDiv
  | .indexError, _ => .indexError
  | .oob, _ => .oob

/-- Python's `range(a, b)` for integers. -/
def pyRange (a b : ℤ) : List ℤ := (List.range (b - a).toNat).map fun (i : ℕ) => a + i

/-- `p = 1.0; for a in range(order - o - d, order - o): p *= a`, `/repo/neutralocean/ppinterp/ppinterp.py` lines 63-65. -/
def multiplierZ (order o d : ℤ) : F := (pyRange (order - o - d) (order - o)).foldl (fun p (a : ℤ) => p * lit (a : ℚ)) (lit 1)

/-- `C[o]`; `bad` is what happens if `o` is not an index of `C`.  (`o` is never negative here.) -/
def readC (bad : Ev F) (C : List F) (o : ℤ) : Ev F :=
  match C[o.toNat]? with
  | some c => .ret c
  | none => bad

/-- `pval(x, C, d)`, `/repo/neutralocean/ppinterp/ppinterp.py` lines 20-69. -/
def pvalZ (bad : Ev F) (x : F) (C : List F) (d : ℤ) : Ev F :=
  if d = 0 then .ret (C.foldl (fun y c => y * x + c) (lit 0))
  else (pyRange 0 (C.length - d)).foldl
    (fun y o => y.bind fun y => (readC bad C o).bind fun c => .ret (y * x + c * multiplierZ C.length o d)) (.ret (lit 0))

/-- `ppval_1(x, X, Yppc, d)`, `/repo/neutralocean/ppinterp/ppinterp.py` lines 73-148; `Yppc[i]` is an array. -/
def ppval1Z (x : F) (X : Arr F) (C : PPC F) (d : ℤ) : Ev F :=
  let kK := validRange2 X C.lastCol
  if outside X kK.1 kK.2 x then .ret nan
  else
    let i := pieceIndex X kK.1 kK.2 x
    pvalZ .oob (x - X.get i) (C.row i) d

/-- `ppinterp_1(f, x, X, Y, d)`, `/repo/neutralocean/ppinterp/ppinterp.py` lines 218-236; `f` returns a tuple (`linear.py` line 105, `pchip.py` line 340). -/
def ppinterp1Z (f : Arr F → Arr F → ℕ → Option (List F)) (x : F) (X Y : Arr F) (d : ℤ) : Ev F :=
  let kK := validRange2 X Y
  if outside X kK.1 kK.2 x then .ret nan
  else
    let i := pieceIndex X kK.1 kK.2 x
    match f X Y i with
    | none => .zeroDiv
    | some C => pvalZ .indexError (x - X.get i) C d

/-- `linear_interp_1`, `/repo/neutralocean/ppinterp/linear.py` lines 109-111. -/
def linearInterp1Z (x : F) (X Y : Arr F) (d : ℤ) : Ev F := ppinterp1Z linearCoeffsI x X Y d

/-- `pchip_interp_1`, `/repo/neutralocean/ppinterp/pchip.py` lines 349-351. -/
def pchipInterp1Z (x : F) (X Y : Arr F) (d : ℤ) : Ev F := ppinterp1Z pchipCoeffsI x X Y d

end Deriv
