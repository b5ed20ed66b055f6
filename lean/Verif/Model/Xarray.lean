import Verif.Model.Lib

/-!
# Model of the xarray containers, `/repo/neutralocean/lib.py` lines 201-247

Used by `potential_surf`, `anomaly_surf`, `isopycnal_surf` (`/repo/neutralocean/surface/isopycnal.py` lines 362, 410) and `omega_surf`
(`/repo/neutralocean/surface/omega.py` lines 229, 469-472).
-/

namespace Xarray
open FloatLike Lib
variable {F : Type*}

/-- `DataArray.attrs`. -/
abbrev Attrs := String → Option String

/-- `d.update(e)` for dicts. -/
def Attrs.update (d e : Attrs) : Attrs := fun k => (e k).orElse fun _ => d k

/-- A `DataArray` without its data: dimensions with their lengths, name, attributes, and the coordinates with the dimensions each
of them has.  Simplification: values of coordinates are not modelled. -/
structure Box where
  dims : List String
  shape : List ℕ
  name : Option String
  attrs : Attrs
  coords : String → Option (List String)

/-- An argument or result: ndarray or `DataArray`. -/
inductive Arg (F : Type*) where
  | np (x : Nd F)
  | xr (b : Box) (x : List ℕ → F)

/-- `xr_to_np`, `/repo/neutralocean/lib.py` lines 201-205. -/
def toNp : Arg F → Nd F
  | .np x => x
  | .xr b x => ⟨b.shape, x⟩

/-- `S.dims`, if `S` has it (used in `/repo/neutralocean/lib.py` line 253). -/
def dimsOf : Arg F → Option (List String)
  | .np _ => none
  | .xr b _ => some b.dims

/-- `S.isel({d: 0})` for the dimension at position `v` named `d`: the dimension goes, coordinates along it become scalars there. -/
def isel0 (b : Box) (v : ℕ) (d : String) : Box :=
  { b with dims := b.dims.eraseIdx v, shape := b.shape.eraseIdx v, coords := fun k => (b.coords k).map fun l => l.filter (· ≠ d) }

/-- `X.drop_vars(d)`: `ValueError` if there is no such coordinate. -/
def dropVars (b : Box) (d : String) : Res Box :=
  if (b.coords d).isSome then .ok { b with coords := fun k => if k = d then none else b.coords k } else .valueError

/-- the dimension name: `S.dims[vert_dim]` for an `int`, `/repo/neutralocean/lib.py` lines 214-215 -/
def dimName (b : Box) : Dim → Res String
  | .name s => .ok s
  | .int d =>
    match npIdx b.dims.length d with
    | some v => .ok (b.dims.getD v "")
    | none => .indexError

/-- `_xr_in`, `/repo/neutralocean/lib.py` lines 208-218, with `vert_dim` not `None`. -/
def xrIn (d : Dim) : Arg F → Res (Option Box)
  | .np _ => .ok none
  | .xr b _ =>
    match dimName b d with
    | .ok s =>
      if s ∈ b.dims then
        match dropVars (isel0 b (b.dims.idxOf s) s) s with
        | .ok b' => .ok (some b')
        | _ => .valueError
      else .valueError
    | _ => .indexError

/-- The `P` argument: its data as seen by `_process_casts`, and its name and attributes if it is a `DataArray`. -/
structure PXr (F : Type*) where
  data : PArg F
  tags : Option (Option String × Attrs)

/-- `_xrs_in`, `/repo/neutralocean/lib.py` lines 221-238. -/
def xrsIn (S T : Arg F) (P : PXr F) (d : Dim) : Res (Option Box × Option Box × Option Box) :=
  match xrIn d S with
  | .ok sxr =>
    match xrIn d T with
    | .ok txr =>
      .ok (sxr, txr, sxr.map fun b =>
        match P.tags with
        | some (name, attrs) => { b with attrs := b.attrs.update attrs, name := name }
        | none => { b with attrs := fun _ => none, name := none })
    | .valueError => .valueError
    | .indexError => .indexError
    | .typeError => .typeError
  | .valueError => .valueError
  | .indexError => .indexError
  | .typeError => .typeError

/-- `_xr_out`, `/repo/neutralocean/lib.py` lines 241-247; assigning data of another shape is a `ValueError`. -/
def xrOut (s : Nd F) : Option Box → Res (Arg F)
  | some b => if b.shape = s.shape then .ok (.xr b s.get) else .valueError
  | none => .ok (.np s)

/-- A surface calculation with its containers, `/repo/neutralocean/surface/isopycnal.py` lines 362-410: `f` gives the three values
at each list of horizontal indices from the rearranged arrays. -/
def surf [FloatLike F] (f : Nd F → Nd F → Nd F → List ℕ → F × F × F) (S T : Arg F) (P : PXr F) (d : Dim) :
    Res (Arg F × Arg F × Arg F) :=
  match xrsIn S T P d with
  | .ok (sxr, txr, pxr) =>
    match processCasts (dimsOf S) (toNp S) (toNp T) P.data d with
    | .ok (S', T', P') =>
      let hs := S'.shape.dropLast
      match xrOut ⟨hs, fun m => (f S' T' P' m).1⟩ sxr, xrOut ⟨hs, fun m => (f S' T' P' m).2.1⟩ txr,
          xrOut ⟨hs, fun m => (f S' T' P' m).2.2⟩ pxr with
      | .ok s, .ok t, .ok p => .ok (s, t, p)
      | _, _, _ => .valueError
    | .valueError => .valueError
    | .indexError => .indexError
    | .typeError => .typeError
  | .valueError => .valueError
  | .indexError => .indexError
  | .typeError => .typeError

end Xarray
