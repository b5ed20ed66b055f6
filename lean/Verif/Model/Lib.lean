import Verif.Model.Float
import Mathlib.Logic.Function.Basic
import Mathlib.Algebra.BigOperators.Group.List.Basic

/-! # Model of `/repo/neutralocean/lib.py` and `/repo/neutralocean/grid/tools.py`

Arrays of several dimensions are given by their shape and their data in C order (`ℕ → F`), or by a function of the list of
indices. -/

namespace Lib
open FloatLike
variable {F : Type*} [FloatLike F]

/-- Result of a call: a value or the exception raised. -/
inductive Res (A : Type*) where
  | ok (a : A)
  | indexError
  | valueError
  | typeError
  deriving DecidableEq

/-! ## `find_first_nan` -/

/-- `for j in range(J): if isnan(a1[j]): out = j; break`, `/repo/neutralocean/lib.py` lines 67-70, from `j` on with `n`
levels to go; `J` (the prior content of `out`) if no NaN is met. -/
def firstNan (a : ℕ → F) (J : ℕ) : ℕ → ℕ → ℕ
  | 0, _ => J
  | n + 1, j => if isNaN (a j) then j else firstNan a J n (j + 1)

/-- `_find_first_nan` on the array reshaped to `(n1, n2, n3)`, `/repo/neutralocean/lib.py` lines 59-71: entry `(i, k)`. -/
def findFirstNan3 (f : ℕ → F) (n2 n3 i k : ℕ) : ℕ := firstNan (fun j => f ((i * n2 + j) * n3 + k)) n2 n2 0

/-- `find_first_nan`, `/repo/neutralocean/lib.py` lines 10-55: the shape and data (C order) of the result. -/
def findFirstNan (shape : List ℕ) (f : ℕ → F) (axis : ℤ) : List ℕ × (ℕ → ℕ) :=
  let ax := (axis % (shape.length : ℤ)).toNat
  let shape1 := shape.take ax
  let shape3 := shape.drop (ax + 1)
  let n2 := shape.getD ax 0
  let n3 := shape3.prod
  (shape1 ++ shape3, fun o => findFirstNan3 f n2 n3 (o / n3) (o % n3))

/-! ## `take_fill`, `aggsum`, `divergence` -/

/-- `take_fill`, `/repo/neutralocean/lib.py` lines 74-100; `indexError`: read beyond the `n` entries of `a`. -/
def takeFill (n : ℕ) (a : ℕ → F) (idx : List ℤ) (fillval : F) : Res (List F) :=
  if idx.all fun i => decide (i < (n : ℤ)) then
    .ok (idx.map fun i => if 0 ≤ i then a i.toNat else fillval)
  else .indexError

/-- `aggsum`, `/repo/neutralocean/lib.py` lines 103-137; `l` lists the pairs `(idx[i], a[i])`; `indexError`: write beyond
the `n` entries of `b`. -/
def aggsum (l : List (ℤ × F)) (n : ℕ) : Res (ℕ → F) :=
  if l.all fun x => decide (x.1 < (n : ℤ)) then
    .ok (l.foldl (fun b x => if 0 ≤ x.1 then Function.update b x.1.toNat (b x.1.toNat + x.2) else b) fun _ => lit 0)
  else .indexError

/-- `divergence`, `/repo/neutralocean/grid/tools.py` lines 4-20; each entry is `((a[i], b[i]), vector[i], distperp[i])`.
Simplification: `area` has an entry for each of the `N` nodes. -/
def divergence (l : List ((ℕ × ℕ) × F × F)) (area : ℕ → F) : Res (ℕ × (ℕ → F)) :=
  match l with
  | [] => .valueError
  | _ =>
    let N := (l.foldl (fun m x => max m (max x.1.1 x.1.2)) 0) + 1
    match aggsum (l.map fun x => ((x.1.1 : ℤ), x.2.1 * x.2.2)) N, aggsum (l.map fun x => ((x.1.2 : ℤ), x.2.1 * x.2.2)) N with
    | .ok A, .ok B => .ok (N, fun m => (A m - B m) / area m)
    | _, _ => .indexError

/-! ## `val_at` -/

/-- The index argument `k` of `val_at`: an `int`, or an array with its shape and data (C order). -/
inductive KArg where
  | int (k : ℤ)
  | arr (shape : List ℕ) (k : ℕ → ℤ)

/-- numpy indexing of an axis of length `n` with `k` (negative counts from the end). -/
def npIdx (n : ℕ) (k : ℤ) : Option ℕ :=
  if 0 ≤ k then (if k < n then some k.toNat else none) else (if -k ≤ n then some (k + n).toNat else none)

/-- `val_at`, `/repo/neutralocean/lib.py` lines 140-198, for an array `T` with horizontal shape `h`, `nk` levels and value
`T c l` at cast `c` (C order) and level `l` (`h = []` is a 1D array).  Returns the result, as a function of the position in C
order, and the content of `T` afterwards: for an `int`, `T[..., k]` is a view and `Tk[k < 0] = nan` writes into `T`.
Simplification: `k` arrays have dimension at least 1. -/
def valAt (h : List ℕ) (nk : ℕ) (T : ℕ → ℕ → F) (k : KArg) : Res ((ℕ → F) × (ℕ → ℕ → F)) :=
  match k with
  | .int k =>
    match npIdx nk k with
    | none => .indexError
    | some l =>
      if k < 0 then .ok (fun _ => nan, fun c j => if j = l then nan else T c j)
      else .ok (fun c => T c l, T)
  | .arr sh k =>
    if h = [] then
      if (List.range sh.prod).all fun c => (npIdx nk (k c)).isSome then
        .ok (fun c => if k c < 0 then nan else T 0 ((npIdx nk (k c)).getD 0), T)
      else .indexError
    else if h.length = sh.length then
      if sh ≠ h then .indexError
      else if (List.range sh.prod).all fun c => (npIdx nk (k c)).isSome then
        -- `squeeze` drops the dimensions of length 1, the mask `k < 0` has them
        if (h.filter (· ≠ 1)).length < sh.length then .indexError
        else .ok (fun c => if k c < 0 then nan else T c ((npIdx nk (k c)).getD 0), T)
      else .indexError
    else .valueError

/-! ## `_process_vert_dim`, `_process_casts` -/

/-- `vert_dim` argument: a name or a number. -/
inductive Dim where
  | name (s : String)
  | int (d : ℤ)

/-- `_process_vert_dim`, `/repo/neutralocean/lib.py` lines 250-259; `dims` are the names if `S` is an xarray.  A name for an
array without names is an error in `np.mod`. -/
def processVertDim (dims : Option (List String)) (ndim : ℕ) : Dim → Res ℕ
  | .name s =>
    match dims with
    | some ds => if s ∈ ds then .ok (ds.idxOf s % ndim) else .valueError
    | none => .typeError
  | .int d => .ok (d % (ndim : ℤ)).toNat

/-- An array as its shape and its value at each list of indices. -/
structure Nd (F : Type*) where
  shape : List ℕ
  get : List ℕ → F

/-- `_contiguous_casts`, `/repo/neutralocean/lib.py` lines 262-282: `np.moveaxis(S, v, -1)` unless `v` is the last axis.
Simplification: conversion to `float64` in C order not modelled. -/
def contiguousCasts (S : Nd F) (v : ℕ) : Nd F :=
  if 1 < S.shape.length ∧ v ≠ S.shape.length - 1 then
    ⟨S.shape.eraseIdx v ++ [S.shape.getD v 0], fun i => S.get (i.dropLast.insertIdx v (i.getLastD 0))⟩
  else S

/-- The `P` argument: of the same dimension as `S`, or of smaller dimension (its data in C order with `size` entries). -/
inductive PArg (F : Type*) where
  | full (P : Nd F)
  | small (size : ℕ) (P : ℕ → F)

/-- The part of `_process_casts` for `P`, `/repo/neutralocean/lib.py` lines 292-298: `np.reshape` then `np.broadcast_to`. -/
def processP (shape : List ℕ) (v : ℕ) : PArg F → Res (Nd F)
  | .full P => .ok (contiguousCasts P v)
  | .small size P =>
    if size = shape.getD v 0 then .ok (contiguousCasts ⟨shape, fun i => P (i.getD v 0)⟩ v)
    else if size = 1 then .ok (contiguousCasts ⟨shape, fun _ => P 0⟩ v)
    else .valueError

/-- `_process_casts`, `/repo/neutralocean/lib.py` lines 285-299. -/
def processCasts (dims : Option (List String)) (S T : Nd F) (P : PArg F) (d : Dim) : Res (Nd F × Nd F × Nd F) :=
  match processVertDim dims S.shape.length d with
  | .ok v =>
    match processP S.shape v P with
    | .ok P' => .ok (contiguousCasts S v, contiguousCasts T v, P')
    | .indexError => .indexError
    | .valueError => .valueError
    | .typeError => .typeError
  | .indexError => .indexError
  | .valueError => .valueError
  | .typeError => .typeError

/-! ## `_process_pin_cast` -/

/-- `pandas.Index.searchsorted` (left) on an increasing list: the number of entries below `v`. -/
def searchsorted (xs : List ℚ) (v : ℚ) : ℕ := (xs.takeWhile fun x => x < v).length

/-- The `pin_cast` argument. -/
inductive PinCast where
  | dict (l : List (String × ℚ))
  | int (i : ℤ)
  | tuple (l : List ℤ)

/-- `_process_pin_cast`, `/repo/neutralocean/lib.py` lines 345-364; `coord` gives the coordinate values of each dimension of
`S`. -/
def processPinCast (coord : String → Option (List ℚ)) : PinCast → Res (List ℤ)
  | .dict l =>
    if l.all fun x => (coord x.1).isSome then
      .ok (l.map fun x => ((searchsorted ((coord x.1).getD []) x.2 : ℕ) : ℤ))
    else .valueError
  | .int i => .ok [i]
  | .tuple l => .ok l

/-! ## `_process_wrap` -/

/-- The `wrap` argument: `None`, a string, or a tuple of strings or of bools. -/
inductive Wrap where
  | none
  | str (s : String)
  | strs (l : List String)
  | bools (l : List Bool)

/-- `_process_wrap`, `/repo/neutralocean/lib.py` lines 312-342; `dims` are the dimension names of `s`, if any. An empty tuple
is treated as a tuple of strings. -/
def processWrap (dims : Option (List String)) (diags : Bool) (w : Wrap) : Res (Option (List Bool)) :=
  let check (l : List Bool) : Res (Option (List Bool)) := if l.length = 2 then .ok (some l) else .typeError
  let names (ws : List String) : Res (Option (List Bool)) :=
    match dims with
    | some ds => check (ds.map fun x => decide (x ∈ ws))
    | Option.none => .typeError
  match w with
  | .none => if diags then .valueError else .ok Option.none
  | .str s => names [s]
  | .strs ws => names ws
  | .bools [] => names []
  | .bools (b :: l) => check (b :: l)

end Lib
