import Verif.Model.Grid

/-!
# Model of `_build_im1_jm1`, `/repo/neutralocean/grid/xgcm.py`

The xgcm library itself is not modelled: of `apply_as_grid_ufunc` we use that it pads the array along the given axis, applies
the function along that axis, and leaves that axis as the last dimension of the result (as noted in the comments at
lines 275-278 and 293-295).  What the padding contains (the neighbours on other tiles, or -1) is a parameter.
-/

namespace Grid

/-- A labelled array: the names of its dimensions, in order, and its entries as a function of the named coordinates. -/
structure DA where
  dims : List String
  val : (String → ℕ) → ℤ

/-- length of a dimension -/
def dimLen (n nf : ℕ) (tile d : String) : ℕ := if d = tile then nf else n

/-- coordinates of entry `m` of an array with three dimensions, in C order -/
def unravel (n nf : ℕ) (tile : String) (dims : List String) (m : ℕ) : String → ℕ :=
  let d1 := dims.getD 1 ""
  let d2 := dims.getD 2 ""
  let s1 := dimLen n nf tile d1
  let s2 := dimLen n nf tile d2
  fun d => if d = dims.getD 0 "" then m / (s1 * s2) else if d = d1 then m / s2 % s1 else m % s2

/-- `A.values.reshape(-1)[m]`, as used at `/repo/neutralocean/grid/xgcm.py` lines 130-131. -/
def DA.flatten (A : DA) (n nf : ℕ) (tile : String) (m : ℕ) : ℤ := A.val (unravel n nf tile A.dims m)

/-- `np.arange(N).reshape(shape)` with the given dimensions, `/repo/neutralocean/grid/xgcm.py` lines 220-221, 236. -/
def idxDA (n nf : ℕ) (tile : String) (dims : List String) : DA where
  dims := dims
  val := fun c =>
    let d1 := dims.getD 1 ""
    let d2 := dims.getD 2 ""
    ((c (dims.getD 0 "") * dimLen n nf tile d1 + c d1) * dimLen n nf tile d2 + c d2 : ℕ)

/-- the coordinates `c` with coordinate `d` changed to `x` -/
def setc (c : String → ℕ) (d : String) (x : ℕ) : String → ℕ := fun e => if e = d then x else c e

/-- `apply_as_grid_ufunc(lambda a: a[:, :, 0:-1], idx, axis, boundary_width=(1, 0))` (`left`), or
`(lambda a: a[:, :, 1:], .., (0, 1))`, `/repo/neutralocean/grid/xgcm.py` lines 250-272, 283-291, 302-310: entry `x` along `d`
is entry `x` or `x + 1` of the padded array. -/
def shiftDA (n : ℕ) (left : Bool) (d : String) (pad : (String → ℕ) → ℤ) (A : DA) : DA where
  dims := A.dims.filter (· ≠ d) ++ [d]
  val := fun c =>
    if left then (if c d = 0 then pad c else A.val (setc c d (c d - 1)))
    else (if c d + 1 = n then pad c else A.val (setc c d (c d + 1)))

/-- `jm1.transpose(*idx.dims)`, `/repo/neutralocean/grid/xgcm.py` line 296. -/
def DA.transpose (A : DA) (dims : List String) : DA := ⟨dims, A.val⟩

/-- `_build_im1_jm1`, `/repo/neutralocean/grid/xgcm.py` lines 197-312: the flattened `im1`, `jm1`.
`xl`, `yl`: `xsh[0] == "l"`, `ysh[0] == "l"`; `padX t j`, `padY t i`: the padding beyond tile `t`.  Constructing a `DataArray` with a
number of names other than 3 is a `ValueError`. -/
def neighbours (n nf : ℕ) (tile : String) (dims : List String) (xl yl : Bool) (padX padY : ℕ → ℕ → ℤ) :
    Res ((ℕ → ℤ) × (ℕ → ℤ)) :=
  if tile ∉ dims then .valueError
  else if ¬ ("i" ∈ dims ∧ "j" ∈ dims) then .valueError
  else if dims.length ≠ 3 then .valueError
  else
    let idx := idxDA n nf tile dims
    let im1 := shiftDA n xl "i" (fun c => padX (c tile) (c "j")) idx
    let jm1 := shiftDA n yl "j" (fun c => padY (c tile) (c "i")) idx
    let jm1 := if yl then jm1.transpose idx.dims else jm1
    .ok (im1.flatten n nf tile, jm1.flatten n nf tile)

/-- The whole of `build_grid`, `/repo/neutralocean/grid/xgcm.py` lines 6-153 (the checks of `dims` of DataArray arguments at
lines 108-112 are not modelled; `xsh`, `ysh` are not empty). -/
def xgcmBuild {F : Type*} [FloatLike F] (n nf : ℕ) (tile : String) (dims : List String) (xsh ysh : Char)
    (padX padY : ℕ → ℕ → ℤ) (dxC dyC dyG dxG : XData F) : Option (Res (G F)) :=
  if ¬ ((xsh = 'l' ∨ xsh = 'r') ∧ (ysh = 'l' ∨ ysh = 'r')) then none
  else match neighbours n nf tile dims (xsh = 'l') (ysh = 'l') padX padY with
    | .ok (im1, jm1) => some (xgcmGrid (nf * n * n) im1 jm1 dxC dyC dyG dxG)
    | .valueError => some .valueError
    | .attributeError => some .attributeError

end Grid
