import Verif.Model.EosBase

/-!
# Model of `/repo/neutralocean/eos/gswc.py`

The density `rho` (line 65) and its derivatives `gsw.rho_first_derivatives` (lines 94, 115) are computed by the GSW library, in C, and
are parameters here.
-/

namespace Gswc
open FloatLike
variable {F : Type*} [FloatLike F]

/-- `rho_s_t`, `/repo/neutralocean/eos/gswc.py` lines 72-95. -/
def rhoST (firstDerivatives : F → F → F → F × F × F) (s t p : F) : F × F :=
  let d := firstDerivatives s t p
  (d.1, d.2.1)

/-- `rho_p`, `/repo/neutralocean/eos/gswc.py` lines 98-116. -/
def rhoP (firstDerivatives : F → F → F → F × F × F) (s t p : F) : F :=
  let d := firstDerivatives s t p
  d.2.2 * lit 10000

end Gswc
