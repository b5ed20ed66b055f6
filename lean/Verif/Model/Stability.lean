import Verif.Model.Interp

/-!
# Model of `/repo/neutralocean/stability.py`
-/

namespace Stability
open FloatLike Interp
variable {F : Type*} [FloatLike F]

/-- Entry `i` of `calc_dLRPDdp_fd_1(S, T, P, eos)`, `/repo/neutralocean/stability.py` lines 237-243. -/
def grad (eos : F → F → F → F) (S T P : ℕ → F) (i : ℕ) : F :=
  let pavg := (P i + P (i + 1)) / lit 2
  (eos (S (i + 1)) (T (i + 1)) pavg - eos (S i) (T i) pavg) / (P (i + 1) - P i)

/-- Entry `i` of the constraint function `perturb_dLRPDdp_fd_1`, `/repo/neutralocean/stability.py` lines 183-192;
`x` is the perturbation vector, salinities first. -/
def con (eos : F → F → F → F) (S T P minG : ℕ → F) (n : ℕ) (x : ℕ → F) (i : ℕ) : F :=
  grad eos (fun j => S j + x j) (fun j => T j + x (n + j)) P i - minG i

/-- The objective `f(Δx, w)`, `/repo/neutralocean/stability.py` lines 168-174; `m` is the length of `Δx`.
Simplification: the order in which `np.sum` adds. -/
def objective (w : F) (m : ℕ) (x : ℕ → F) : F :=
  (List.range (m / 2)).foldl (fun s i => s + (w * x i * x i + x (m / 2 + i) * x (m / 2 + i))) (lit 0)

/-- Entry `i` of `jac(Δx, w)`, `/repo/neutralocean/stability.py` lines 176-181. -/
def jac (w : F) (m : ℕ) (x : ℕ → F) (i : ℕ) : F :=
  if i < m / 2 then lit 2 * x i * w else lit 2 * x i

/-- `any(calc_dLRPDdp_fd_1(S1, T1, P1, eos) < min_dLRPDdp_1)` for `n` bottles,
`/repo/neutralocean/stability.py` line 210. -/
def unstable (eos : F → F → F → F) (S T P minG : ℕ → F) (n : ℕ) : Bool :=
  (List.range (n - 1)).any fun i => lt (grad eos S T P i) (minG i)

/-- What `scipy.optimize.minimize` returns for a cast of `n` bottles: `none` if `res.success` is false, else `res.x`.
It is a parameter of the model: `/repo/neutralocean/stability.py` lines 213-222. -/
abbrev Minimiser (F : Type*) := (n : ℕ) → (S T P minG : ℕ → F) → Option (ℕ → F)

/-- The body of the loop over casts, `/repo/neutralocean/stability.py` lines 203-229, on one cast; `none` is the
`RuntimeError`.  Printing is not modelled. -/
def castStep (eos : F → F → F → F) (mini : Minimiser F) (minG : ℕ → F) (S T P : Arr F) : Option (Arr F × Arr F) :=
  let kK := validRange S
  let k := kK.1
  let n := kK.2 - kK.1
  let S1 := (S.slice k kK.2).get
  let T1 := (T.slice k kK.2).get
  let P1 := (P.slice k kK.2).get
  let m1 := fun i => minG (k + i)
  if decide (1 < n) && unstable eos S1 T1 P1 m1 n then
    match mini n S1 T1 P1 m1 with
    | none => none
    | some x => some
      (⟨S.size, fun i => if k ≤ i ∧ i < kK.2 then S.get i + x (i - k) else S.get i⟩,
       ⟨T.size, fun i => if k ≤ i ∧ i < kK.2 then T.get i + x (n + (i - k)) else T.get i⟩)
  else some (S, T)

/-- The loop over casts, `/repo/neutralocean/stability.py` lines 203-234.  Casts are handled in turn; at a failure
the exception leaves the casts already handled modified.  `false`: `RuntimeError` was raised. -/
def loop (eos : F → F → F → F) (mini : Minimiser F) (minG : ℕ → F) :
    List (Arr F × Arr F × Arr F) → List (Arr F × Arr F) × Bool
  | [] => ([], true)
  | c :: cs =>
    match castStep eos mini minG c.1 c.2.1 c.2.2 with
    | none => ((c.1, c.2.1) :: cs.map (fun c => (c.1, c.2.1)), false)
    | some st =>
      let r := loop eos mini minG cs
      (st :: r.1, r.2)

/-! ## What happens to the caller's arrays -/

/-- A numpy array: shape, strides (in elements), whether the dtype is `float64`, and the memory it looks at. -/
structure Ndarray (F : Type*) where
  shape : List ℕ
  strides : List ℕ
  f64 : Bool
  data : ℕ → F

/-- numpy's C-contiguity test, last dimension first (dimensions of length 1 do not count). -/
def contigRev : ℕ → List (ℕ × ℕ) → Bool
  | _, [] => true
  | e, (n, s) :: r => if n = 1 then contigRev e r else decide (s = e) && contigRev (e * n) r

/-- `a.flags.c_contiguous`. -/
def isC (shape strides : List ℕ) : Bool := contigRev 1 (shape.zip strides).reverse

/-- Strides of a freshly allocated array. -/
def cStrides : List ℕ → List ℕ
  | [] => []
  | _ :: r => r.prod :: cStrides r

/-- `np.moveaxis(a, v, -1)` on shape or strides. -/
def moveLast (l : List ℕ) (v : ℕ) : List ℕ := l.eraseIdx v ++ [l.getD v 0]

/-- `_contiguous_casts`, `/repo/neutralocean/lib.py` lines 262-282 (already resolved `vert_dim`): shape and strides
of the rearranged array, and whether it still looks at the caller's memory (`np.require` copies otherwise). -/
def contiguous (A : Ndarray F) (v : ℕ) : List ℕ × List ℕ × Bool :=
  let moved := decide (1 < A.shape.length) && decide (v ≠ A.shape.length - 1)
  let sh := if moved then moveLast A.shape v else A.shape
  let st := if moved then moveLast A.strides v else A.strides
  (sh, st, A.f64 && isC sh st)

/-- Multi-index of flat position `c` in an array of the given shape (C order). -/
def unravel : List ℕ → ℕ → List ℕ
  | [], _ => []
  | _ :: r, c => c / r.prod :: unravel r (c % r.prod)

/-- Entry of an array: the memory at the strided offset. -/
def entry (data : ℕ → F) (strides idx : List ℕ) : F := data (List.zipWith (· * ·) strides idx).sum

/-- Cast number `c` of the rearranged array. -/
def castOf (data : ℕ → F) (shape strides : List ℕ) (c : ℕ) : Arr F :=
  ⟨shape.getLastD 0, fun i => entry data strides (unravel shape (c * shape.getLastD 0 + i))⟩

/-- The caller's memory after the casts have been replaced: unchanged unless the rearranged array still looks
at it, in which case (C order) level `i` of cast `c` is at position `c * nk + i`. -/
def writeBack (same : Bool) (shape : List ℕ) (data : ℕ → F) (new : ℕ → Arr F) : ℕ → F :=
  if same then fun j => if j < shape.prod then (new (j / shape.getLastD 0)).get (j % shape.getLastD 0) else data j
  else data

/-- `stabilize_ST(S, T, P, eos, ...)`, `/repo/neutralocean/stability.py` lines 67-234, as seen by the caller: the
memory of `S` and of `T` afterwards, and whether it returned (`None`) rather than raised.
Simplifications: numpy arrays; `v` the resolved vertical dimension; `P` already as casts; scalar or full `min_dLRPDdp`. -/
def stabilizeST (eos : F → F → F → F) (mini : Minimiser F) (minG : ℕ → F) (S T : Ndarray F) (P : ℕ → Arr F) (v : ℕ) :
    (ℕ → F) × (ℕ → F) × Bool :=
  let cS := contiguous S v
  let cT := contiguous T v
  let ncast := cS.1.dropLast.prod
  let r := loop eos mini minG ((List.range ncast).map fun c =>
    (castOf S.data cS.1 cS.2.1 c, castOf T.data cT.1 cT.2.1 c, P c))
  (writeBack cS.2.2 cS.1 S.data (fun c => (r.1.map Prod.fst).getD c (castOf S.data cS.1 cS.2.1 c)),
   writeBack cT.2.2 cT.1 T.data (fun c => (r.1.map Prod.snd).getD c (castOf T.data cT.1 cT.2.1 c)), r.2)

/-! ## `count_unstable` -/

/-- `count_unstable` without `interp_two` on one cast of `nk` bottles, `/repo/neutralocean/stability.py` lines 50-56. -/
def countPairs (eos : F → F → F → F) (S T P : ℕ → F) (nk : ℕ) : ℕ :=
  (List.range (nk - 1)).countP fun k =>
    let pavg := (P k + P (k + 1)) / lit 2
    le (eos (S (k + 1)) (T (k + 1)) pavg) (eos (S k) (T k) pavg)

/-- `count_unstable` with `interp_two` on one cast, `/repo/neutralocean/stability.py` lines 50-51, 58-62.
Simplification: a `ZeroDivisionError` of the interpolator (repeated pressures) counts as stable. -/
def countInterp (interpTwo : F → Arr F → Arr F → Arr F → ℕ → Option (F × F)) (eosST : F → F → F → F × F)
    (S T P : Arr F) : ℕ :=
  (List.range (S.size - 1)).countP fun k =>
    match interpTwo (P.get k) P S T 1 with
    | none => false
    | some d =>
      let r := eosST (S.get k) (T.get k) (P.get k)
      lt (r.1 * d.1 + r.2 * d.2) (lit 0)

end Stability
