import Verif.Model.Float
import Mathlib.Data.List.Basic

/-!
# Model of `/repo/neutralocean/ppinterp/` (`lib.py`, `ppinterp.py`, `linear.py`, `pchip.py`)
-/

/-- A 1D numpy array: a length and the entries.  Entries at or beyond `size` have no meaning; the theorems
about index ranges (`Interp.pieceIndex_range`) show they are not read. -/
structure Arr (α : Type*) where
  size : ℕ
  get : ℕ → α

/-- `X[k:K]` for `k ≤ K ≤ len(X)`. -/
def Arr.slice {α : Type*} (X : Arr α) (k K : ℕ) : Arr α := ⟨K - k, fun i => X.get (k + i)⟩

/-- Array with the entries of a list. -/
def Arr.ofList {α : Type*} [Inhabited α] (l : List α) : Arr α := ⟨l.length, fun i => l.getD i default⟩

instance {α : Type*} : Inhabited (Fl α) := ⟨Fl.nan⟩

namespace Interp
open FloatLike
variable {F : Type*} [FloatLike F]

/-- First `i` with `lo ≤ i < n` and `p i`, or `n`: the effect of
`for i in range(lo, n): if p(i): r = i; break` with `r = n` beforehand. -/
def firstFrom (p : ℕ → Bool) (lo n : ℕ) : ℕ := ((List.range' lo (n - lo)).find? p).getD n

/-- `valid_range_1(X)`, `/repo/neutralocean/ppinterp/lib.py` lines 21-59. -/
def validRange (X : Arr F) : ℕ × ℕ :=
  let k := firstFrom (fun i => isFinite (X.get i)) 0 X.size
  let K := firstFrom (fun i => isNaN (X.get i)) (k + 1) X.size
  (k, K)

/-- `valid_range_1_two(X, Y)`, `/repo/neutralocean/ppinterp/lib.py` lines 93-133. -/
def validRange2 (X Y : Arr F) : ℕ × ℕ :=
  let k := firstFrom (fun i => isFinite (X.get i) && isFinite (Y.get i)) 0 X.size
  let K := firstFrom (fun i => isNaN (X.get i) || isNaN (Y.get i)) (k + 1) X.size
  (k, K)

/-- `diff_1d_samesize(x)`, `/repo/neutralocean/ppinterp/lib.py` lines 6-17.  The Python loop also
reads `x[size]` (out of bounds) but overwrites the resulting last entry with NaN. -/
def diffSame (x : Arr F) : Arr F :=
  ⟨x.size, fun i => if i + 1 = x.size then nan else x.get (i + 1) - x.get i⟩

/-- The binary search behind `np.searchsorted(a, x)` (side left), numba's implementation: halve
`[lo, hi)` until empty.  `fuel` is at least `hi - lo`. -/
def bsearch (a : ℕ → F) (x : F) : ℕ → ℕ → ℕ → ℕ
  | 0, lo, _ => lo
  | fuel + 1, lo, hi =>
    if lo < hi then
      let mid := lo + (hi - lo) / 2
      if lt (a mid) x then bsearch a x fuel (mid + 1) hi else bsearch a x fuel lo mid
    else lo

/-- `np.searchsorted(X, x)`, used at `/repo/neutralocean/ppinterp/ppinterp.py` lines 145, 157, 232. -/
def searchsorted (X : Arr F) (x : F) : ℕ := bsearch X.get x X.size 0 X.size

/-- Integer multiplying a coefficient in `pval`, `/repo/neutralocean/ppinterp/ppinterp.py` lines 63-65:
the product over `range(order - o - d, order - o)`. -/
def multiplier (order o d : ℕ) : F :=
  (List.range' (order - o - d) d).foldl (fun p (a : ℕ) => p * lit (a : ℚ)) (lit 1)

/-- `pval(x, C, d)`, `/repo/neutralocean/ppinterp/ppinterp.py` lines 20-69. -/
def pval (x : F) (C : List F) (d : ℕ) : F :=
  if d = 0 then C.foldl (fun y c => y * x + c) (lit 0)
  else (C.take (C.length - d)).zipIdx.foldl (fun y co => y * x + co.1 * multiplier C.length co.2 d) (lit 0)

/-- Piecewise polynomial coefficients `Yppc`: one row of coefficients per data site. -/
structure PPC (F : Type*) where
  size : ℕ
  row : ℕ → List F

/-- `Yppc[:, -1]`, the original data (`/repo/neutralocean/ppinterp/ppinterp.py` line 103). -/
def PPC.lastCol (C : PPC F) : Arr F := ⟨C.size, fun i => (C.row i).getLast?.getD nan⟩

/-- Rows `k:K` of a coefficient table. -/
def PPC.slice (C : PPC F) (k K : ℕ) : PPC F := ⟨K - k, fun i => C.row (k + i)⟩

/-- Index of the piece containing `x`, `/repo/neutralocean/ppinterp/ppinterp.py` lines 110-145. -/
def pieceIndex (X : Arr F) (k K : ℕ) (x : F) : ℕ := max k (searchsorted (X.slice k K) x + k - 1)

/-- The test for which NaN is returned, `/repo/neutralocean/ppinterp/ppinterp.py` lines 107, 227, 249, 275. -/
def outside (X : Arr F) (k K : ℕ) (x : F) : Bool :=
  decide (K - 1 ≤ k) || isNaN x || lt x (X.get k) || lt (X.get (K - 1)) x

/-- `ppval_1(x, X, Yppc, d)`, `/repo/neutralocean/ppinterp/ppinterp.py` lines 73-148. -/
def ppval1 (x : F) (X : Arr F) (C : PPC F) (d : ℕ) : F :=
  let kK := validRange2 X C.lastCol
  if outside X kK.1 kK.2 x then nan
  else
    let i := pieceIndex X kK.1 kK.2 x
    pval (x - X.get i) (C.row i) d

/-- `ppval_1_nonan(x, X, Yppc, d)`, `/repo/neutralocean/ppinterp/ppinterp.py` lines 152-160.
`X` is nonempty (`X[0]` is read). -/
def ppval1Nonan (x : F) (X : Arr F) (C : PPC F) (d : ℕ) : F :=
  if isNaN x || lt x (X.get 0) || lt (X.get (X.size - 1)) x then nan
  else
    let i := max 0 (searchsorted X x - 1)
    pval (x - X.get i) (C.row i) d

/-- `ppval_1_two`, `/repo/neutralocean/ppinterp/ppinterp.py` lines 263-281. -/
def ppval1Two (x : F) (X : Arr F) (C D : PPC F) (d : ℕ) : F × F :=
  let kK := validRange2 X C.lastCol
  if outside X kK.1 kK.2 x then (nan, nan)
  else
    let i := pieceIndex X kK.1 kK.2 x
    let dx := x - X.get i
    (pval dx (C.row i) d, pval dx (D.row i) d)

/-- `ppval_1_nonan_two`, `/repo/neutralocean/ppinterp/ppinterp.py` lines 285-293. -/
def ppval1NonanTwo (x : F) (X : Arr F) (C D : PPC F) (d : ℕ) : F × F :=
  if isNaN x || lt x (X.get 0) || lt (X.get (X.size - 1)) x then (nan, nan)
  else
    let i := max 0 (searchsorted X x - 1)
    let dx := x - X.get i
    (pval dx (C.row i) d, pval dx (D.row i) d)

/-- `ppinterp_1(f, x, X, Y, d)`, `/repo/neutralocean/ppinterp/ppinterp.py` lines 218-236.
`f` returns `none` when it raises `ZeroDivisionError`. -/
def ppinterp1 (f : Arr F → Arr F → ℕ → Option (List F)) (x : F) (X Y : Arr F) (d : ℕ) : Option F :=
  let kK := validRange2 X Y
  if outside X kK.1 kK.2 x then some nan
  else
    let i := pieceIndex X kK.1 kK.2 x
    match f X Y i with
    | none => none
    | some C => some (pval (x - X.get i) C d)

/-- `ppinterp_1_two(f, x, X, Y, Z, d)`, `/repo/neutralocean/ppinterp/ppinterp.py` lines 240-259. -/
def ppinterp1Two (f : Arr F → Arr F → ℕ → Option (List F)) (x : F) (X Y Z : Arr F) (d : ℕ) :
    Option (F × F) :=
  let kK := validRange2 X Y
  if outside X kK.1 kK.2 x then some (nan, nan)
  else
    let i := pieceIndex X kK.1 kK.2 x
    match f X Y i, f X Z i with
    | some C, some D => some (pval (x - X.get i) C d, pval (x - X.get i) D d)
    | _, _ => none

/-- Scalar division in a numba function: raises `ZeroDivisionError` (`none`) on a zero divisor. -/
def sdiv (x y : F) : Option F := if feq y (lit 0) then none else some (x / y)

/-- `linear_coeffs_1(X, Y)`, `/repo/neutralocean/ppinterp/linear.py` lines 50-60 (array division). -/
def linearCoeffs1 (X Y : Arr F) : PPC F :=
  ⟨Y.size, fun i => [(diffSame Y).get i / (diffSame X).get i, Y.get i]⟩

/-- `_linear_coeffs_i(X, Y, i)`, `/repo/neutralocean/ppinterp/linear.py` lines 71-105. -/
def linearCoeffsI (X Y : Arr F) (i : ℕ) : Option (List F) := do
  let C1 ← sdiv (Y.get (i + 1) - Y.get i) (X.get (i + 1) - X.get i)
  return [C1, Y.get i]

/-- `linear_interp_1`, `/repo/neutralocean/ppinterp/linear.py` lines 109-111. -/
def linearInterp1 (x : F) (X Y : Arr F) (d : ℕ) : Option F := ppinterp1 linearCoeffsI x X Y d

/-- Non-centered three point end slope with its shape preserving limiter,
`/repo/neutralocean/ppinterp/pchip.py` lines 132-140 and (mirrored) 150-158; also lines 256-263. -/
def endSlope (h0 h1 δ0 δ1 : F) : Option F := do
  let d ← sdiv ((lit 2 * h0 + h1) * δ0 - h0 * δ1) (h0 + h1)
  return if !feq (sign d) (sign δ0) then lit 0
    else if !feq (sign δ0) (sign δ1) && lt (abs (lit 3 * δ0)) (abs d) then lit 3 * δ0
    else d

/-- As written in the `at_end` branch of `_pchip_coeffs_i`, `/repo/neutralocean/ppinterp/pchip.py`
lines 288-296: the sums are in another order. -/
def endSlopeR (h0 h1 δ0 δ1 : F) : Option F := do
  let d ← sdiv ((h0 + lit 2 * h1) * δ1 - h1 * δ0) (h0 + h1)
  return if !feq (sign d) (sign δ1) then lit 0
    else if !feq (sign δ1) (sign δ0) && lt (abs (lit 3 * δ1)) (abs d) then lit 3 * δ1
    else d

/-- Interior PCHIP slope as written in `_pchip_coeffs_1`, `/repo/neutralocean/ppinterp/pchip.py`
lines 142-148. -/
def midSlope (h0 h1 δ0 δ1 : F) : Option F :=
  if lt (lit 0) (sign δ0 * sign δ1) then do
    let w1 := h0 + lit 2 * h1
    let w2 := lit 2 * h0 + h1
    let q1 ← sdiv w1 δ0
    let q2 ← sdiv w2 δ1
    sdiv (w1 + w2) (q1 + q2)
  else some (lit 0)

/-- Interior PCHIP slope as written in `_pchip_coeffs_i`, `/repo/neutralocean/ppinterp/pchip.py`
lines 265-271, 280-286, 307-314. -/
def midSlopeI (h0 h1 δ0 δ1 : F) : Option F :=
  if lt (lit 0) (sign δ0 * sign δ1) then do
    let w1 := lit 2 * h1 + h0
    let w2 := h1 + lit 2 * h0
    let q1 ← sdiv w1 δ0
    let q2 ← sdiv w2 δ1
    sdiv (w1 + w2) (q1 + q2)
  else some (lit 0)

/-- Cubic Hermite coefficients of a piece, `/repo/neutralocean/ppinterp/pchip.py` lines 161-166 and
317-320. -/
def hermite (h δ d0 d1 y : F) : Option (List F) := do
  let dzzdx ← sdiv (δ - d0) h
  let dzdxdx ← sdiv (d1 - δ) h
  let C3 ← sdiv (dzdxdx - dzzdx) h
  return [C3, lit 2 * dzzdx - dzdxdx, d0, y]

/-- Slope `d[i]` computed by `_pchip_coeffs_1` when `K - k > 2`,
`/repo/neutralocean/ppinterp/pchip.py` lines 132-158. -/
def slopeAt (h δ : ℕ → F) (k K i : ℕ) : Option F :=
  if i = k then endSlope (h k) (h (k + 1)) (δ k) (δ (k + 1))
  else if i = K - 1 then endSlope (h (K - 2)) (h (K - 3)) (δ (K - 2)) (δ (K - 3))
  else midSlope (h (i - 1)) (h i) (δ (i - 1)) (δ i)

/-- Row `i` of the coefficients computed by `_pchip_coeffs_1` for `k ≤ i < K - 1`, `K - k > 2`,
`/repo/neutralocean/ppinterp/pchip.py` lines 114-166. -/
def pchipRow (X Y : Arr F) (k K i : ℕ) : Option (List F) := do
  let h := (diffSame X).get
  let δ := fun j => (diffSame Y).get j / h j
  let d0 ← slopeAt h δ k K i
  let d1 ← slopeAt h δ k K (i + 1)
  hermite (h i) (δ i) d0 d1 (Y.get i)

/-- `_pchip_coeffs_1(X, Y, k, K)`, `/repo/neutralocean/ppinterp/pchip.py` lines 107-187.
Rows that the Python leaves NaN are `[nan, nan, nan, Y[i]]`; `none` if any scalar division in
the loops has a zero divisor. -/
def pchipCoeffsAux (X Y : Arr F) (k K : ℕ) : Option (PPC F) :=
  let blank := fun i => [nan, nan, nan, Y.get i]
  if 2 < K - k then
    if (List.range' k (K - 1 - k)).all (fun i => (pchipRow X Y k K i).isSome) then
      some ⟨X.size, fun i => if k ≤ i ∧ i < K - 1 then (pchipRow X Y k K i).getD (blank i) else blank i⟩
    else none
  else if K - k = 2 then do
    let δ ← sdiv (Y.get (k + 1) - Y.get k) (X.get (k + 1) - X.get k)
    return ⟨X.size, fun i => if i = k then [lit 0, lit 0, δ, Y.get i] else blank i⟩
  else some ⟨X.size, blank⟩

/-- `pchip_coeffs_1(X, Y)`, `/repo/neutralocean/ppinterp/pchip.py` lines 78-91. -/
def pchipCoeffs1 (X Y : Arr F) : Option (PPC F) :=
  pchipCoeffsAux X Y (validRange2 X Y).1 (validRange2 X Y).2

/-- `pchip_coeffs_1_nonan(X, Y)`, `/repo/neutralocean/ppinterp/pchip.py` lines 95-103. -/
def pchipCoeffs1Nonan (X Y : Arr F) : Option (PPC F) := pchipCoeffsAux X Y 0 X.size

/-- `_pchip_coeffs_i(X, Y, i)`, `/repo/neutralocean/ppinterp/pchip.py` lines 191-338. -/
def pchipCoeffsI (X Y : Arr F) (i : ℕ) : Option (List F) :=
  let atStart := decide (i = 0) || isNaN (X.get (i - 1) + Y.get (i - 1))
  let atEnd := decide (i = X.size - 2) || isNaN (X.get (i + 2) + Y.get (i + 2))
  if atStart && atEnd then do
    let d0 ← sdiv (Y.get (i + 1) - Y.get i) (X.get (i + 1) - X.get i)
    return [lit 0, lit 0, d0, Y.get i]
  else if atStart then do
    let h1 := X.get (i + 1) - X.get i
    let h2 := X.get (i + 2) - X.get (i + 1)
    let δ1 ← sdiv (Y.get (i + 1) - Y.get i) h1
    let δ2 ← sdiv (Y.get (i + 2) - Y.get (i + 1)) h2
    let d0 ← endSlope h1 h2 δ1 δ2
    let d1 ← midSlopeI h1 h2 δ1 δ2
    hermite h1 δ1 d0 d1 (Y.get i)
  else if atEnd then do
    let h0 := X.get i - X.get (i - 1)
    let h1 := X.get (i + 1) - X.get i
    let δ0 ← sdiv (Y.get i - Y.get (i - 1)) h0
    let δ1 ← sdiv (Y.get (i + 1) - Y.get i) h1
    let d0 ← midSlopeI h0 h1 δ0 δ1
    let d1 ← endSlopeR h0 h1 δ0 δ1
    hermite h1 δ1 d0 d1 (Y.get i)
  else do
    let h0 := X.get i - X.get (i - 1)
    let h1 := X.get (i + 1) - X.get i
    let h2 := X.get (i + 2) - X.get (i + 1)
    let δ0 ← sdiv (Y.get i - Y.get (i - 1)) h0
    let δ1 ← sdiv (Y.get (i + 1) - Y.get i) h1
    let δ2 ← sdiv (Y.get (i + 2) - Y.get (i + 1)) h2
    let d0 ← midSlopeI h0 h1 δ0 δ1
    let d1 ← midSlopeI h1 h2 δ1 δ2
    hermite h1 δ1 d0 d1 (Y.get i)

/-- `pchip_interp_1`, `/repo/neutralocean/ppinterp/pchip.py` lines 349-351. -/
def pchipInterp1 (x : F) (X Y : Arr F) (d : ℕ) : Option F := ppinterp1 pchipCoeffsI x X Y d

end Interp
