import Verif.Model.Lib
import Verif.Model.Traj

/-! # Arrays with several horizontal dimensions as rows of casts, and back -/

namespace Lib
open FloatLike
variable {F : Type*} [FloatLike F]

/-- the indices of entry `n` of an array of the given shape in C order -/
def unravel : List ℕ → ℕ → List ℕ
  | [], _ => []
  | _ :: s, n => n / s.prod :: unravel s (n % s.prod)

/-- `np.reshape(x, -1)`: the entries in C order. -/
def flatten (x : Nd F) (n : ℕ) : F := x.get (unravel x.shape n)

/-- `np.reshape(X, (N, -1))`, `/repo/neutralocean/surface/omega.py` line 237: row `n` of `S`, `T` and `P`, all of the shape of `S` (simplification: shapes that differ are not
modelled). -/
def castsOf (S T P : Nd F) (n : ℕ) : Cast F :=
  let m := unravel S.shape.dropLast n
  let nk := S.shape.getLastD 0
  ⟨⟨nk, fun k => S.get (m ++ [k])⟩, ⟨nk, fun k => T.get (m ++ [k])⟩, ⟨nk, fun k => P.get (m ++ [k])⟩⟩

/-- `np.reshape(x, surf_shape)`, `/repo/neutralocean/surface/omega.py` lines 469-472: entry at the indices `m`. -/
def reshapeGet (shape : List ℕ) (stp : ℕ → F × F × F) : List ℕ → F × F × F
  | m => stp (List.foldl (fun acc x => acc * x.1 + x.2) 0 (shape.zip m))

end Lib
