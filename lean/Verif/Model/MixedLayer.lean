import Verif.Model.Interp

/-!
# Model of `/repo/neutralocean/mixed_layer.py`
-/

namespace MixedLayer
open FloatLike Interp
variable {F : Type*} [FloatLike F]

/-- Python's clipping of one end of a slice to `0 .. nk`. -/
def clip (b : ℤ) (nk : ℕ) : ℤ := if b < 0 then max 0 (b + nk) else min b nk

/-- The bottle in `S[..., b : b + 1]`, `/repo/neutralocean/mixed_layer.py` lines 125-126; `none` when the slice is
empty, in which case the broadcasts at lines 131-133 or the interpolation at line 137 raise `ValueError`. -/
def bottle (b : ℤ) (nk : ℕ) : Option ℕ :=
  if clip b nk < clip (b + 1) nk then some (clip b nk).toNat else none

/-- `DD` on one cast, `/repo/neutralocean/mixed_layer.py` lines 130-133. -/
def dens (eos : F → F → F → F) (S T : Arr F) (refp : F) (j : ℕ) : Arr F :=
  if lt (lit 1) (eos (lit (69 / 2)) (lit 3) (lit 1000)) then
    ⟨S.size, fun i => eos (S.get i) (T.get i) refp - eos (S.get j) (T.get j) refp⟩
  else ⟨S.size, fun i => lit 1 / eos (S.get i) (T.get i) refp - lit 1 / eos (S.get j) (T.get j) refp⟩

/-- `mixed_layer` on one cast, `/repo/neutralocean/mixed_layer.py` lines 108-137, with the interpolant (`linearInterp1`
or `pchipInterp1`) as a parameter.  `none`: an exception.  Not modelled: making the eos and rearranging casts (see
the modules on these). -/
def mixedLayer (interp : F → Arr F → Arr F → ℕ → Option F) (eos : F → F → F → F) (S T P : Arr F) (thr refp : F) (b : ℤ) :
    Option F :=
  match bottle b S.size with
  | none => none
  | some j => interp thr (dens eos S T refp j) P 0

end MixedLayer
