import Verif.Model.Lib
import Verif.Model.Ntp

/-! # Model of the matrix problems of `/repo/neutralocean/surface/omega.py`

The sparse linear algebra routines (`scipy.sparse.linalg.spsolve`, `lsqr`) are parameters. -/

namespace OmegaMat
open FloatLike
variable {F : Type*} [FloatLike F]

/-- Result of a call: a value or an `IndexError`. -/
inductive Res (A : Type*) where
  | ok (a : A)
  | indexError
  deriving DecidableEq

/-- One edge of the problem in the labels of the region: ends `a`, `b`, scaled error `e`, geometric factor `w`. -/
structure Row (F : Type*) where
  (a b : ℕ)
  (e w : F)

/-- `remap`, `/repo/neutralocean/surface/omega.py` lines 669-670. -/
def remap (m : List ℕ) : ℕ → ℤ := m.zipIdx.foldl (fun r x => Function.update r x.1 (x.2 : ℤ)) fun _ => -1

/-- `distratio`: a scalar or an array in the order of the edges. -/
inductive Ratio (F : Type*) where
  | scalar (x : F)
  | arr (l : List F)

/-- `_omega_matsolve_helper`, `/repo/neutralocean/surface/omega.py` lines 651-693: the edges with both ends in `m`, relabelled,
with error and geometric factor.  The division by 1 is in `ntp_epsilon_errors` (called with a tuple of edges). -/
def helper (eos : Ntp.EosST F) (s t p : ℕ → F) (edges : List (ℕ × ℕ)) (ratio : Ratio F) (m : List ℕ) : List (Row F) :=
  let good := fun x : (ℕ × ℕ) × F => decide (0 ≤ remap m x.1.1) && decide (0 ≤ remap m x.1.2)
  let err := fun x => Ntp.epsErr eos s t p x / lit 1
  match ratio with
  | .scalar d =>
    ((edges.map fun x => (x, d)).filter good).map fun x =>
      ⟨(remap m x.1.1).toNat, (remap m x.1.2).toNat, if feq d (lit 1) then err x.1 else err x.1 * d, d⟩
  | .arr l =>
    ((edges.zip l).filter good).map fun x =>
      ⟨(remap m x.1.1).toNat, (remap m x.1.2).toNat, err x.1 * x.2, x.2⟩

/-- `ref = remap[mref]` as an index for an axis of length `N` (`-1`, the last, when `mref` is not in the region). -/
def refOf (m : List ℕ) (mref : ℕ) : ℕ := if remap m mref < 0 then m.length - 1 else (remap m mref).toNat

/-- Entry of the sparse matrix with the given triplets: duplicate entries are summed (`csc_matrix`). -/
def entry (trip : List (ℕ × ℕ × F)) (r c : ℕ) : F :=
  ((trip.filter fun x => decide (x.1 = r ∧ x.2.1 = c)).map fun x => x.2.2).foldl (· + ·) (lit 0)

/-- Right-hand side `D` and matrix `L` (with the pinning entry), `/repo/neutralocean/surface/omega.py` lines 604-631. -/
def poissonSystem (rows : List (Row F)) (N ref : ℕ) : Res ((ℕ → F) × (ℕ → ℕ → F)) :=
  match Lib.aggsum (rows.map fun x => ((x.a : ℤ), x.e)) N, Lib.aggsum (rows.map fun x => ((x.b : ℤ), x.e)) N,
    Lib.aggsum (rows.map fun x => ((x.a : ℤ), x.w)) N, Lib.aggsum (rows.map fun x => ((x.b : ℤ), x.w)) N with
  | .ok ea, .ok eb, .ok wa, .ok wb =>
    let trip := rows.map (fun x => (x.a, x.b, -x.w)) ++ rows.map (fun x => (x.b, x.a, -x.w)) ++
      (List.range N).map (fun i => (i, i, wa i + wb i))
    .ok (fun i => ea i - eb i, fun r c => if r = ref ∧ c = ref then entry trip r c + lit 1 else entry trip r c)
  | _, _, _, _ => .indexError

/-- `ϕ[m] = sol` on an array of NaN -/
def scatter (m : List ℕ) (sol : ℕ → F) : ℕ → F := m.zipIdx.foldl (fun φ x => Function.update φ x.1 (sol x.2)) fun _ => nan

/-- `_omega_matsolve_poisson`, `/repo/neutralocean/surface/omega.py` lines 543-648. `spsolve N L D` is the external solver. -/
def poisson (spsolve : ℕ → (ℕ → ℕ → F) → (ℕ → F) → ℕ → F) (eos : Ntp.EosST F) (s t p : ℕ → F) (edges : List (ℕ × ℕ))
    (ratio : Ratio F) (m : List ℕ) (mref : ℕ) : Res (ℕ → F) :=
  if m.length ≤ 1 then
    match m with
    | [] => .indexError
    | x :: _ => .ok (Function.update (fun _ => nan) x (lit 0))
  else
    match poissonSystem (helper eos s t p edges ratio m) m.length (refOf m mref) with
    | .ok (D, L) => .ok (Function.update (scatter m (spsolve m.length L D)) mref (lit 0))
    | .indexError => .indexError

/-- Matrix and right-hand side of the gradient formulation, `/repo/neutralocean/surface/omega.py` lines 508-527. -/
def gradientSystem (rows : List (Row F)) (ref : ℕ) : (ℕ → F) × (ℕ → ℕ → F) :=
  let E := rows.length
  let trip := rows.zipIdx.map (fun x => (x.2, x.1.a, -x.1.w)) ++ rows.zipIdx.map (fun x => (x.2, x.1.b, x.1.w)) ++
    [(E, ref, lit (1/100))]
  (fun k => (rows.map fun x => -x.e).getD k (lit 0), entry trip)

/-- `_omega_matsolve_gradient`, `/repo/neutralocean/surface/omega.py` lines 477-540. `lsqr R C M rhs` is the external solver
for the matrix `M` of shape `(R, C)`; `ratio` holds the square roots. -/
def gradient (lsqr : ℕ → ℕ → (ℕ → ℕ → F) → (ℕ → F) → ℕ → F) (eos : Ntp.EosST F) (s t p : ℕ → F) (edges : List (ℕ × ℕ))
    (ratio : Ratio F) (m : List ℕ) (mref : ℕ) : Res (ℕ → F) :=
  if m.length ≤ 1 then
    match m with
    | [] => .indexError
    | x :: _ => .ok (Function.update (fun _ => nan) x (lit 0))
  else
    let rows := helper eos s t p edges ratio m
    let ref := refOf m mref
    let S := gradientSystem rows ref
    let sol := lsqr (rows.length + 1) m.length S.2 S.1
    .ok (scatter m fun i => sol i - sol ref)

end OmegaMat
