import Verif.Model.Bfs
import Mathlib.Algebra.BigOperators.Group.List.Basic

/-! # Model of `/repo/neutralocean/grid/graph.py` -/

namespace Graph
open FloatLike

/-- What a call gives: a value, an out-of-range access, or a `ValueError`. -/
inductive Res (A : Type*) where
  | ok (a : A)
  | oob
  | valueError
  deriving DecidableEq

/-- A list of edges `(a[i], b[i])`. -/
abbrev Edges := List (ℕ × ℕ)

/-- `max(np.max(a), np.max(b)) + 1`, `/repo/neutralocean/grid/graph.py` lines 91, 133; `np.max` of an empty array is an error. -/
def numNodes (e : Edges) : Res ℕ :=
  match e with
  | [] => .valueError
  | _ => .ok ((e.foldl (fun m x => max m (max x.1 x.2)) 0) + 1)

/-- `deg`, `/repo/neutralocean/grid/graph.py` lines 136-139; `none`: a node number is out of range. -/
def degrees (e : Edges) (N : ℕ) : Option (ℕ → ℕ) :=
  e.foldlM (fun (deg : ℕ → ℕ) x =>
    if x.1 < N ∧ x.2 < N then
      let deg := Function.update deg x.1 (deg x.1 + 1)
      some (Function.update deg x.2 (deg x.2 + 1))
    else none) (fun _ => 0)

/-- `indptr`, `/repo/neutralocean/grid/graph.py` lines 147-149. -/
def indptrOf (deg : ℕ → ℕ) : ℕ → ℕ
  | 0 => 0
  | i + 1 => indptrOf deg i + deg i

/-- `indices[ctr[n]] = v; ctr[n] += 1`, `/repo/neutralocean/grid/graph.py` lines 159-161; state `(indices, ctr)`; `none`:
write beyond the length `tot` of `indices`. -/
def insert (tot : ℕ) (st : (ℕ → ℕ) × (ℕ → ℕ)) (n v : ℕ) : Option ((ℕ → ℕ) × (ℕ → ℕ)) :=
  if st.2 n < tot then some (Function.update st.1 (st.2 n) v, Function.update st.2 n (st.2 n + 1)) else none

/-- The loop at `/repo/neutralocean/grid/graph.py` lines 157-166. -/
def fill (tot : ℕ) (e : Edges) (st : (ℕ → ℕ) × (ℕ → ℕ)) : Option ((ℕ → ℕ) × (ℕ → ℕ)) :=
  e.foldlM (fun st x => do
    let st ← insert tot st x.1 x.2
    insert tot st x.2 x.1) st

/-- `edges_to_csr`, `/repo/neutralocean/grid/graph.py` lines 98-168, with the number of nodes given (`N` resolved by
`numNodes` if negative).  `garbage` is the content of `np.empty`. -/
def edgesToCsr (e : Edges) (N : ℕ) (garbage : ℕ → ℕ) : Res Csr :=
  match degrees e N with
  | none => .oob
  | some deg =>
    let indptr := indptrOf deg
    match fill (indptr N) e (garbage, indptr) with
    | none => .oob
    | some st => .ok ⟨indptr, st.1⟩

/-- `edges_to_graph`, `/repo/neutralocean/grid/graph.py` lines 56-94: entry `(m, n)` of `G + G.T`, where `G` adds up the
weights of equal edges (as `coo_matrix` does).  Simplification: exact weights; `we` is the list of edges with weights. -/
def toGraph {α : Type*} [AddCommMonoid α] (we : List ((ℕ × ℕ) × α)) (m n : ℕ) : α :=
  ((we.filter fun x => x.1 = (m, n)).map Prod.snd).sum + ((we.filter fun x => x.1 = (n, m)).map Prod.snd).sum

/-! ## `graph_binary_fcn`, `build_grid` -/

/-- `graph_binary_fcn`, `/repo/neutralocean/grid/graph.py` lines 9-53. -/
def binaryFcn {V W : Type*} (e : Edges) (d : ℕ → V) (f : V → V → W) : List W := e.map fun x => f (d x.1) (d x.2)

variable {F : Type*} [FloatLike F]

/-- `sym_structure`, `/repo/neutralocean/grid/graph.py` lines 246-259, for an `N` by `N` matrix. -/
def symStructure (N : ℕ) (A : ℕ → ℕ → F) : Bool :=
  (List.range N).all fun i => (List.range N).all fun j => feq (A i j) (lit 0) == feq (A j i) (lit 0)

/-- `scipy.linalg.issymmetric`, used at `/repo/neutralocean/grid/graph.py` line 264. -/
def isSymmetric (N : ℕ) (A : ℕ → ℕ → F) : Bool :=
  (List.range N).all fun i => (List.range N).all fun j => feq (A i j) (A j i)

/-- `triu`, used at `/repo/neutralocean/grid/graph.py` lines 265, 273 (`triu_if_sym` lines 262-267, `triu_if_sym_structure` lines
270-275). -/
def triu (A : ℕ → ℕ → F) : ℕ → ℕ → F := fun i j => if j < i then lit 0 else A i j

/-- `scipy.sparse.find`: the positions of nonzero entries and their values.  Simplification: listed in row order
(scipy lists them in the order of the sparse format); the order is the same for the two matrices in `build_grid`. -/
def find (N : ℕ) (A : ℕ → ℕ → F) : List (ℕ × ℕ × F) :=
  (List.range N).flatMap fun i => (List.range N).filterMap fun j =>
    if feq (A i j) (lit 0) then none else some (i, j, A i j)

/-- A grid: `edges`, `dist`, `distperp`. -/
structure Grid (F : Type*) where
  edges : Edges
  dist : List F
  distperp : List F

/-- `build_grid` for a matrix, `/repo/neutralocean/grid/graph.py` lines 235-243. -/
def buildGridMat (N : ℕ) (A : ℕ → ℕ → F) : Grid F :=
  let B := if symStructure N A then triu A else A
  let e := (find N B).map fun x => (x.1, x.2.1)
  ⟨e, e.map fun _ => lit 1, e.map fun _ => lit 1⟩

/-- `build_grid` for a dict of two matrices, `/repo/neutralocean/grid/graph.py` lines 214-233, 243.  Simplification: a dict without
`dist` or `distperp` (line 216) is not modelled, nor is the restriction of `scipy.linalg.issymmetric` to dense arrays. -/
def buildGridDict (N : ℕ) (D P : ℕ → ℕ → F) : Res (Grid F) :=
  let D' := if isSymmetric N D then triu D else D
  let P' := if isSymmetric N P then triu P else P
  let ed := (find N D').map fun x => (x.1, x.2.1)
  let ep := (find N P').map fun x => (x.1, x.2.1)
  if ed ≠ ep then .valueError
  else .ok ⟨ed, (find N D').map fun x => x.2.2, (find N P').map fun x => x.2.2⟩

end Graph
