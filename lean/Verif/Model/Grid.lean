import Verif.Model.Float
import Mathlib.Data.List.Basic
import Mathlib.Data.List.Range

/-! # Model of `/repo/neutralocean/grid/rectilinear.py`, `tripolar.py` and `xgcm.py` -/

namespace Grid
open FloatLike
variable {F : Type*} [FloatLike F]

/-- Result of a call: a value, a numpy `ValueError` (shapes), or an `AttributeError`. -/
inductive Res (A : Type*) where
  | ok (a : A)
  | valueError
  | attributeError
  deriving DecidableEq

/-- The entries of a 2D array of shape `(n, m)` in C order (`reshape(-1)`). -/
def flat {A : Type*} (n m : ℕ) (f : ℕ → ℕ → A) : List A := (List.range n).flatMap fun i => (List.range m).map (f i)

/-- A scalar, 1D or 2D argument to be broadcast. -/
inductive Data (F : Type*) where
  | scalar (x : F)
  | vec (n : ℕ) (f : ℕ → F)
  | mat (n m : ℕ) (f : ℕ → ℕ → F)

/-- index into an axis of length `n` broadcast to length `N` -/
def bidx (n i : ℕ) : ℕ := if n = 1 then 0 else i

/-- `np.broadcast_to(data, (ni, nj))`; used at `/repo/neutralocean/grid/rectilinear.py` lines 183-184 and
`/repo/neutralocean/grid/tripolar.py` lines 148-149. -/
def broadcastTo (ni nj : ℕ) : Data F → Res (ℕ → ℕ → F)
  | .scalar x => .ok fun _ _ => x
  | .vec n f => if n = nj ∨ n = 1 then .ok fun _ j => f (bidx n j) else .valueError
  | .mat n m f => if (n = ni ∨ n = 1) ∧ (m = nj ∨ m = 1) then .ok fun i j => f (bidx n i) (bidx m j) else .valueError

/-- `edges`, `dist`, `distperp` of a grid. -/
structure G (F : Type*) where
  edges : List (ℕ × ℕ)
  dist : List F
  distperp : List F

/-! ## Rectilinear -/

/-- `int(not periodic[..])`, `/repo/neutralocean/grid/rectilinear.py` lines 108-109. -/
def off (periodic : Bool) : ℕ := if periodic then 0 else 1

/-- `_build_edges`, `/repo/neutralocean/grid/rectilinear.py` lines 94-139, for `dims = (ni, nj)`. `np.roll(idx, 1, axis=0)`
has entry `(i, j)` equal to `idx[(i-1) mod ni, j]`. -/
def rectEdges (ni nj : ℕ) (p0 p1 : Bool) : List (ℕ × ℕ) :=
  let i1 := off p0
  let j1 := off p1
  let i2 := ni - i1
  let j2 := nj - j1
  let idx := fun i j => i * nj + j
  let ab1 :=
    if p0 then (flat ni nj idx).zip (flat ni nj fun i j => idx ((i + ni - 1) % ni) j)
    else (flat (ni - i1) nj fun i j => idx (i + i1) j).zip (flat i2 nj idx)
  let ab2 :=
    if p1 then (flat ni nj idx).zip (flat ni nj fun i j => idx i ((j + nj - 1) % nj))
    else (flat ni (nj - j1) fun i j => idx i (j + j1)).zip (flat ni j2 idx)
  ab1 ++ ab2

/-- `_build_edgedata`, `/repo/neutralocean/grid/rectilinear.py` lines 142-185. -/
def rectData (ni nj : ℕ) (p0 p1 : Bool) (d0 d1 : Data F) : Res (List F) :=
  match broadcastTo ni nj d0, broadcastTo ni nj d1 with
  | .ok x, .ok y => .ok (flat (ni - off p0) nj (fun i j => x (i + off p0) j) ++ flat ni (nj - off p1) (fun i j => y i (j + off p1)))
  | _, _ => .valueError

/-- `build_grid`, `/repo/neutralocean/grid/rectilinear.py` lines 4-91. -/
def rectGrid (ni nj : ℕ) (p0 p1 : Bool) (dxC dyC dyG dxG : Data F) : Res (G F) :=
  match rectData ni nj p0 p1 dxC dyC, rectData ni nj p0 p1 dyG dxG with
  | .ok d, .ok q => .ok ⟨rectEdges ni nj p0 p1, d, q⟩
  | _, _ => .valueError

/-- `edgedata_to_maps`, `/repo/neutralocean/grid/rectilinear.py` lines 188-226. -/
def rectMaps (e : List F) (ni nj : ℕ) (p0 p1 : Bool) : Res ((ℕ → ℕ → F) × (ℕ → ℕ → F)) :=
  let i1 := off p0
  let j1 := off p1
  let Ei := (ni - i1) * nj
  if Ei ≤ e.length ∧ e.length - Ei = ni * (nj - j1) then
    .ok (fun i j => if i < i1 then nan else (e.take Ei).getD ((i - i1) * nj + j) nan,
         fun i j => if j < j1 then nan else (e.drop Ei).getD (i * (nj - j1) + (j - j1)) nan)
  else .valueError

/-! ## Tripolar -/

/-- `idx` with the padded northern row, `/repo/neutralocean/grid/tripolar.py` lines 88-96 (`nj ≥ 1`). -/
def triIdx (nj ni j i : ℕ) : ℕ := if j = nj then (nj - 1) * ni + (ni - 1 - i) else j * ni + i

/-- `_build_edges`, `/repo/neutralocean/grid/tripolar.py` lines 69-108, for `dims = (nj, ni)`. -/
def triEdges (nj ni : ℕ) : List (ℕ × ℕ) :=
  (flat nj ni (triIdx nj ni)).zip (flat nj ni fun j i => triIdx nj ni (j + 1) i) ++
  (flat nj ni (triIdx nj ni)).zip (flat nj ni fun j i => triIdx nj ni j ((i + 1) % ni))

/-- `_build_edgedata`, `/repo/neutralocean/grid/tripolar.py` lines 111-155.  The trimming at lines 150-153 is never reached:
after `broadcast_to` the shape is `(nj, ni)`. -/
def triData (nj ni : ℕ) (v u : Data F) : Res (List F) :=
  match broadcastTo nj ni v, broadcastTo nj ni u with
  | .ok x, .ok y => .ok (flat nj ni x ++ flat nj ni y)
  | _, _ => .valueError

/-- `build_grid`, `/repo/neutralocean/grid/tripolar.py` lines 4-66. -/
def triGrid (nj ni : ℕ) (e1u e2v e2u e1v : Data F) : Res (G F) :=
  match triData nj ni e2v e1u, triData nj ni e1v e2u with
  | .ok d, .ok q => .ok ⟨triEdges nj ni, d, q⟩
  | _, _ => .valueError

/-- `edgedata_to_maps`, `/repo/neutralocean/grid/tripolar.py` lines 158-188. -/
def triMaps (e : List F) (nj ni : ℕ) : Res ((ℕ → ℕ → F) × (ℕ → ℕ → F)) :=
  if ni * nj ≤ e.length ∧ e.length - ni * nj = nj * ni then
    .ok (fun j i => (e.take (ni * nj)).getD (j * ni + i) nan, fun j i => (e.drop (ni * nj)).getD (j * ni + i) nan)
  else .valueError

/-! ## xgcm tiles

The neighbour arrays `im1`, `jm1` come from the xgcm library (`_build_im1_jm1`) and are inputs here: `im1 m` is the number of
the neighbour of node `m` in the `i` dimension, or `-1`. -/

/-- A distance argument: a float has no `reshape`. -/
inductive XData (F : Type*) where
  | scalar (x : F)
  | arr (f : ℕ → F)

/-- `build_grid`, `/repo/neutralocean/grid/xgcm.py` lines 113-153. -/
def xgcmGrid (N : ℕ) (im1 jm1 : ℕ → ℤ) (dxC dyC dyG dxG : XData F) : Res (G F) :=
  match dxC, dyC, dyG, dxG with
  | .arr dxC, .arr dyC, .arr dyG, .arr dxG =>
    let a := List.range N ++ List.range N
    let b := (List.range N).map im1 ++ (List.range N).map jm1
    let dist := (List.range N).map dyC ++ (List.range N).map dxC
    let distperp := (List.range N).map dxG ++ (List.range N).map dyG
    let rows := (a.zip (b.zip (dist.zip distperp))).filter fun x => decide (0 ≤ x.2.1)
    .ok ⟨rows.map fun x => (x.1, x.2.1.toNat), rows.map fun x => x.2.2.1, rows.map fun x => x.2.2.2⟩
  | _, _, _, _ => .attributeError

/-- `F[idx] = vals` for the increasing list `idx` of the positions where `good` holds, starting at position `m`. -/
def scatter (good : ℕ → Bool) (vals : List F) (m : ℕ) : F :=
  if good m then vals.getD ((List.range m).filter good).length nan else nan

/-- `edgedata_to_maps`, `/repo/neutralocean/grid/xgcm.py` lines 156-194. -/
def xgcmMaps (e : List F) (N : ℕ) (im1 jm1 : ℕ → ℤ) : Res ((ℕ → F) × (ℕ → F)) :=
  let gi := fun m => decide (0 ≤ im1 m)
  let gj := fun m => decide (0 ≤ jm1 m)
  let Ni := ((List.range N).filter gi).length
  if Ni ≤ e.length ∧ e.length - Ni = ((List.range N).filter gj).length then
    .ok (scatter gi (e.take Ni), scatter gj (e.drop Ni))
  else .valueError

end Grid
