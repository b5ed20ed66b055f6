import Verif.Model.Gufunc
import Verif.Model.Stability

/-!
# Model of `count_unstable` on arrays, `/repo/neutralocean/stability.py` lines 8-64
-/

namespace Stability
open FloatLike Interp Lib Gufunc
variable {F : Type*} [FloatLike F]

/-- What a call gives: a value, an error in the arguments (`ValueError`, `TypeError`, `IndexError`), or a `ZeroDivisionError`. -/
inductive CRes (A : Type*) where
  | ok (a : A)
  | argError
  | zeroDiv

/-- How stability is judged: `eos` by itself, or a vectorised interpolation function (from its scalar function) with `eos_s_t`.
Simplification: `eos` and `eos_s_t` act on arrays entry by entry. -/
inductive Mode (F : Type*) where
  | pairs (eos : F → F → F → F)
  | interp (interp1 : F → Arr F → Arr F → Arr F → ℕ → Option (F × F)) (eosST : F → F → F → F × F)

/-- `num_unstab += ...` over `range(0, n)`, `/repo/neutralocean/stability.py` lines 50-64. -/
def total (f : ℕ → CRes ℕ) : ℕ → CRes ℕ
  | 0 => .ok 0
  | n + 1 =>
    match total f n with
    | .ok a =>
      match f n with
      | .ok b => .ok (a + b)
      | e => e
    | e => e

/-- `count_unstable(S, T, P, ...)`, `/repo/neutralocean/stability.py` lines 8-64. `np.sum` counts the entries that are `True`. -/
def countUnstable (mode : Mode F) (dims : Option (List String)) (S T : Nd F) (P : PArg F) (d : Dim) : CRes ℕ :=
  match processCasts dims S T P d with
  | .ok (S, T, P) =>
    let h := S.shape.dropLast
    total (fun k =>
      match mode with
      | .pairs eos =>
        .ok ((indices h).countP fun i =>
          let pavg := (P.get (i ++ [k]) + P.get (i ++ [k + 1])) / lit 2
          le (eos (S.get (i ++ [k + 1])) (T.get (i ++ [k + 1])) pavg) (eos (S.get (i ++ [k])) (T.get (i ++ [k])) pavg))
      | .interp interp1 eosST =>
        match interpTwoU interp1 ⟨h, fun i => P.get (i ++ [k])⟩ P S T ⟨[], fun _ => 1⟩ with
        | .ok y =>
          .ok ((indices h).countP fun i =>
            let r := eosST (S.get (i ++ [k])) (T.get (i ++ [k])) (P.get (i ++ [k]))
            lt (r.1 * (y.get i).1 + r.2 * (y.get i).2) (lit 0))
        | .valueError => .argError
        | .zeroDiv => .zeroDiv) (S.shape.getLastD 0 - 1)
  | _ => .argError

end Stability
