import Verif.Props.PerimRound
import Verif.Props.Omega

/-!
# What one cast wetted without salinity does to an omega surface (C151)
-/

namespace Omega
open FloatLike Bfs Traj Interp
open Fl hiding nan

/-- Gaussian elimination of the last unknown, then of the one before, ...: a solver for `L x = D` with `n` unknowns, in any arithmetic
(stands for `scipy.sparse.linalg.spsolve`, which is not part of the repository). -/
def gauss {F : Type*} [FloatLike F] : ℕ → (ℕ → ℕ → F) → (ℕ → F) → ℕ → F
  | 0, _, _ => fun _ => lit 0
  | n + 1, L, D =>
    let x := gauss n (fun i j => L i j - L i n / L n n * L n j) (fun i => D i - L i n / L n n * D n)
    let r := (List.range n).foldl (fun a j => a - L n j * x j) (D n) / L n n
    fun i => if i = n then r else x i

/-- `omega_surf` on the four casts of `Bfs.star`, density is salinity, all distances 1, pinned at cast 0, one pass. -/
def starCfg {F : Type} [FloatLike F] (x : ℚ → F) (top : F) : Cfg F where
  N := 4
  G := star
  casts := starCast x
  kind := .linear
  eos s _ _ := s
  solver s t p m r := OmegaMat.poisson gauss (fun _ _ _ => (x 1, x 0)) s t p [(0, 1), (1, 2), (0, 3), (1, 3), (2, 3)] (.arr [x 1, x 1, x 1, x 1, x 1]) m r
  errs _ := (x 0, x 0)
  sqrt y := y
  pin := 0
  pml _ := top
  tol := x (1 / 10000)
  tolPhi := x 0
  tolP := x 0
  diags := false
  iterMin := 1
  iterMax := 1
  startWet := 1
  stopWet := 5
  nrep := 10
  garbage _ := 0
  fuel := 60

/-- The surface returned at casts `0, 1, 2, 3`. -/
def starRun {F : Type} [FloatLike F] (x : ℚ → F) (top : F) : Option (List (F × F × F)) :=
  match omega (starCfg x top) (.array fun n => if n = 3 then nan else x 50) with
  | .ok s => some [s.stp 0, s.stp 1, s.stp 2, s.stp 3]
  | _ => none

/-- **C151 is violated**, with consequences: in double precision the omega surface, neutral to begin with on three casts, is lost everywhere but at the pinning cast,
because a fourth cast was wetted with a pressure but without salinity; in exact arithmetic the same call returns the surface on all four casts. -/
theorem omega_collapse_false :
    starRun (Rfl.fin : ℚ → Dbl) .ninf = some [(Rfl.fin 35, Rfl.fin 0, Rfl.fin 50), (Rfl.qnan, Rfl.qnan, Rfl.qnan), (Rfl.qnan, Rfl.qnan, Rfl.qnan),
      (Rfl.qnan, Rfl.qnan, Rfl.qnan)] ∧
    starRun (fin : ℚ → Fl ℚ) .ninf = some [(fin 35, fin 0, fin 50), (fin 35, fin 0, fin 50), (fin 35, fin 0, fin 50), (fin 35, fin 0, fin xb)] := by
  decide +kernel

/-- The solver solves: three unknowns. -/
example : (List.range 3).map (gauss (F := Fl ℚ) 3 (fun i j => if i = j then fin 3 else fin (-1)) (fun i => fin (4 * i))) = [fin 3, fin 4, fin 5] := by
  decide +kernel

end Omega
