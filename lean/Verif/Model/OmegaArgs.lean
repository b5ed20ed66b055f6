import Verif.Model.OmegaFront
import Verif.Model.MixedLayer

/-!
# Model of two more forms of arguments of `omega_surf`: `p_ml` as a dict, and the dtype of `p_init`

`/repo/neutralocean/surface/omega.py` lines 246-255 and 332-344.
-/

namespace Omega
open FloatLike Lib Interp
variable {F : Type*} [FloatLike F]

/-- The keyword arguments of `mixed_layer` in the dict `p_ml`, `/repo/neutralocean/mixed_layer.py` lines 8-20, after its defaults; `vertDim` is `-1` if left
out.  Simplification: no `eos` (a second value for it is a `TypeError`), no `grav` and `rho_c`, and `vert_dim` is an `int`. -/
structure MlDict (F : Type*) where
  interp : PPKind
  thr : F
  refp : F
  bottle : ℤ
  vertDim : ℤ

/-- `interp_fn` of `mixed_layer`, `/repo/neutralocean/mixed_layer.py` line 115. -/
def mlInterp : PPKind → F → Arr F → Arr F → ℕ → Option F
  | .linear => linearInterp1
  | .pchip => pchipInterp1

/-- The rows of the matrix of casts `S` with `N` rows of `nk` entries seen by `mixed_layer`: its casts if `vert_dim` is the last of the two dimensions, else its
levels (`_contiguous_casts`, `/repo/neutralocean/lib.py` line 283). -/
def mlRow (N nk : ℕ) (d : ℤ) (X : ℕ → ℕ → F) (i : ℕ) : Arr F :=
  if d % 2 = 1 then ⟨nk, fun k => X i k⟩ else ⟨N, fun n => X n i⟩

/-- `mixed_layer(S, T, P, eos, **p_ml)`, `/repo/neutralocean/surface/omega.py` line 249, on matrices with `N` rows: number of entries, and the entries.
`ValueError` if there is no such bottle. -/
def mlDict (d : MlDict F) (eos : F → F → F → F) (N nk : ℕ) (casts : ℕ → Cast F) : FRes (ℕ × (ℕ → F)) :=
  let n := if d.vertDim % 2 = 1 then N else nk
  let ml := fun i => MixedLayer.mixedLayer (mlInterp d.interp) eos (mlRow N nk d.vertDim (fun m k => (casts m).S.get k) i)
    (mlRow N nk d.vertDim (fun m k => (casts m).T.get k) i) (mlRow N nk d.vertDim (fun m k => (casts m).P.get k) i) d.thr d.refp d.bottle
  if ∀ i < n, (ml i).isSome then .ok (n, fun i => (ml i).getD nan) else .valueError

/-- `omega_surf` with `p_ml` a dict, `/repo/neutralocean/surface/omega.py` lines 231-255.  If the result of `mixed_layer` has not `N` entries, then
line 383 raises `ValueError` (simplification: at once, in the code in the second pass; before that, and in the wetting, wrong or foreign entries are read). -/
def omegaSurfMl (o : Opts F) (d : MlDict F) (dims : Option (List String)) (coord : String → Option (List ℚ)) (S T : Nd F) (P : PArg F)
    (g : GridDict F) (pinCast : PinCast) (p0 : PArgInit F) : FRes (List ℕ × (List ℕ → F × F × F) × State F) :=
  (ofLib (processPinCast coord pinCast)).bind fun pc =>
  (ofLib (processCasts dims S T P o.vertDim)).bind fun STP =>
  let hs := STP.1.shape.dropLast
  if hs = [] then .typeError else
  (ravelMultiIndex hs pc).bind fun _ =>
  (distRatio g).bind fun _ =>
  (mlDict d o.eos hs.prod (STP.1.shape.getLastD 0) (castsOf STP.1 STP.2.1 STP.2.2)).bind fun ml =>
  if ml.1 = hs.prod then
    omegaSurf { o with pml := some ⟨hs, fun m => ml.2 (List.foldl (fun acc x => acc * x.1 + x.2) 0 (hs.zip m))⟩ } dims coord S T P g pinCast p0
  else .valueError

/-- The dtype of the array `p_init`. -/
inductive DType where
  | int
  | float64

/-- `omega_surf` with an array `p_init` of either dtype: `p = p_init.copy()` at line 334 keeps the dtype, and storing NaN in an array of integers
at line 344 of `/repo/neutralocean/surface/omega.py` is a `ValueError`, even if there is nowhere to store it.  All
checks before that line are those of a call without passes and diagnostics.  Not modelled: other dtypes. -/
def omegaSurfD (dt : DType) (o : Opts F) (dims : Option (List String)) (coord : String → Option (List ℚ)) (S T : Nd F) (P : PArg F)
    (g : GridDict F) (pinCast : PinCast) (p0 : Nd F) : FRes (List ℕ × (List ℕ → F × F × F) × State F) :=
  match dt with
  | .float64 => omegaSurf o dims coord S T P g pinCast (.array p0)
  | .int => (omegaSurf { o with iterMax := 0, diags := false } dims coord S T P g pinCast (.array p0)).bind fun _ => .valueError

end Omega
