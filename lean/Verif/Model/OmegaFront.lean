import Verif.Model.Omega
import Verif.Model.Graph
import Verif.Model.Flatten

/-!
# Model of the front end of `omega_surf`, `/repo/neutralocean/surface/omega.py` lines 201-303, 322-333, 468-474

Arrays with several horizontal dimensions in, arrays of the same horizontal shape out.  Not modelled: xarray containers (see
`Verif.Model.Xarray`), `p_ml` given as a dict (see `Verif.Model.MixedLayer`), the choice of the equation of state (see
`Verif.Model.EosTools`).
-/

namespace Omega
open FloatLike Lib
variable {F : Type*} [FloatLike F]

/-- Result of a call: an exception raised by the front end, or the result of the iteration. -/
inductive FRes (A : Type*) where
  | ok (a : A)
  | keyError
  | valueError
  | typeError
  | indexError
  | oob
  | runtimeError
  | unbound
  | noReturn

def FRes.bind {A B : Type*} : FRes A → (A → FRes B) → FRes B
  | .ok a, k => k a
  | .keyError, _ => .keyError
  | .valueError, _ => .valueError
  | .typeError, _ => .typeError
  | .indexError, _ => .indexError
  | .oob, _ => .oob
  | .runtimeError, _ => .runtimeError
  | .unbound, _ => .unbound
  | .noReturn, _ => .noReturn

def ofLib {A : Type*} : Lib.Res A → FRes A
  | .ok a => .ok a
  | .indexError => .indexError
  | .valueError => .valueError
  | .typeError => .typeError

def ofGraph {A : Type*} : Graph.Res A → FRes A
  | .ok a => .ok a
  | .oob => .oob
  | .valueError => .valueError

def ofIter {A : Type*} : Omega.Res A → FRes A
  | .ok a => .ok a
  | .indexError => .indexError
  | .runtimeError => .runtimeError
  | .unbound => .unbound
  | .noReturn => .noReturn

/-- `np.ravel_multi_index(l, shape)` (`mode='raise'`), `/repo/neutralocean/surface/omega.py` line 241: the wrong number of indices, or one that is negative
or too large, is a `ValueError`. -/
def ravelMultiIndex : List ℕ → List ℤ → FRes ℕ
  | [], [] => .ok 0
  | n :: s, i :: l => if 0 ≤ i ∧ i < n then (ravelMultiIndex s l).bind fun r => .ok (i.toNat * s.prod + r) else .valueError
  | _, _ => .valueError

/-- `grid`: a dict with `edges` and maybe `dist` and `distperp`. -/
structure GridDict (F : Type*) where
  edges : List (ℕ × ℕ)
  dist : Option (List F)
  distperp : Option (List F)

/-- `grid["distperp"] / grid["dist"]`, `/repo/neutralocean/surface/omega.py` line 244.  Simplification: both lists are as long as `edges`. -/
def distRatio (g : GridDict F) : FRes (List F) :=
  match g.distperp, g.dist with
  | some q, some d => .ok (List.zipWith (fun x y => x / y) q d)
  | _, _ => .keyError

/-- Options of `omega_surf`, `/repo/neutralocean/surface/omega.py` lines 202-220, and the external solvers. `eos`, `eosST` have been chosen already. -/
structure Opts (F : Type*) where
  vertDim : Dim
  formulation : String
  eos : F → F → F → F
  eosST : Ntp.EosST F
  errs : Surf F → F × F
  sqrt : F → F
  spsolve : ℕ → (ℕ → ℕ → F) → (ℕ → F) → ℕ → F
  lsqr : ℕ → ℕ → (ℕ → ℕ → F) → (ℕ → F) → ℕ → F
  kind : PPKind
  pml : Option (Nd F)
  tol : F
  tolPhi : F
  tolP : F
  diags : Bool
  iterMin : ℕ
  iterMax : ℕ
  startWet : ℕ
  stopWet : ℕ
  nrep : ℕ
  garbage : ℕ → ℕ
  fuel : ℕ

/-- `global_solver` and the geometric factor, `/repo/neutralocean/surface/omega.py` lines 274-282. -/
def solverOf (o : Opts F) (edges : List (ℕ × ℕ)) (ratio : List F) :
    FRes ((ℕ → F) → (ℕ → F) → (ℕ → F) → List ℕ → ℕ → OmegaMat.Res (ℕ → F)) :=
  if o.formulation.toLower = "poisson" then
    .ok fun s t p m r => OmegaMat.poisson o.spsolve o.eosST s t p edges (.arr ratio) m r
  else if o.formulation.toLower = "gradient" then
    .ok fun s t p m r => OmegaMat.gradient o.lsqr o.eosST s t p edges (.arr (ratio.map o.sqrt)) m r
  else .valueError

/-- `p_init`: a scalar, an array, or something else that has no `values` array. -/
inductive PArgInit (F : Type*) where
  | scalar (p : F)
  | array (p : Nd F)
  | other

/-- The checks of `p_init`, `/repo/neutralocean/surface/omega.py` lines 322-332. -/
def checkInit (shape : List ℕ) : PArgInit F → FRes (PInit F)
  | .scalar p => .ok (.scalar p)
  | .array p => if p.shape = shape then .ok (.array (flatten p)) else .valueError
  | .other => .typeError

/-- The configuration of the iteration, `/repo/neutralocean/surface/omega.py` lines 246-286; `-np.inf` is written `-(1/0)`. -/
def cfgOf (o : Opts F) (hs : List ℕ) (S T P : Nd F) (G : Csr) (pin : ℕ)
    (solver : (ℕ → F) → (ℕ → F) → (ℕ → F) → List ℕ → ℕ → OmegaMat.Res (ℕ → F)) : Cfg F where
  N := hs.prod
  G := G
  casts := castsOf S T P
  kind := o.kind
  eos := o.eos
  solver := solver
  errs := o.errs
  sqrt := o.sqrt
  pin := pin
  pml := match o.pml with | some x => flatten x | none => fun _ => -(lit 1 / lit 0)
  tol := o.tol
  tolPhi := tolLRPD o.eos o.tolPhi
  tolP := o.tolP
  diags := o.diags
  iterMin := o.iterMin
  iterMax := o.iterMax
  startWet := o.startWet
  stopWet := o.stopWet
  nrep := o.nrep
  garbage := o.garbage
  fuel := o.fuel

/-- `omega_surf(S, T, P, grid, pin_cast, p_init, **kw)`, `/repo/neutralocean/surface/omega.py` lines 201-474: the horizontal
shape, the surface as a function of the horizontal indices, and the final state.  `dims`, `coord`: names of the dimensions of
`S` and their coordinates, for an xarray.  For a single cast `np.prod(())` is a `float`, which `np.reshape` rejects. -/
def omegaSurf (o : Opts F) (dims : Option (List String)) (coord : String → Option (List ℚ)) (S T : Nd F) (P : PArg F)
    (g : GridDict F) (pinCast : PinCast) (p0 : PArgInit F) : FRes (List ℕ × (List ℕ → F × F × F) × State F) :=
  (ofLib (processPinCast coord pinCast)).bind fun pc =>
  (ofLib (processCasts dims S T P o.vertDim)).bind fun STP =>
  let hs := STP.1.shape.dropLast
  if hs = [] then .typeError else
  (ravelMultiIndex hs pc).bind fun pin =>
  (distRatio g).bind fun ratio =>
  (ofGraph (Graph.edgesToCsr g.edges hs.prod o.garbage)).bind fun G =>
  (solverOf o g.edges ratio).bind fun solver =>
  (checkInit hs p0).bind fun p0 =>
  (ofIter (omega (cfgOf o hs STP.1 STP.2.1 STP.2.2 G pin solver) p0)).bind fun s =>
  .ok (hs, reshapeGet hs s.stp, s)

end Omega
