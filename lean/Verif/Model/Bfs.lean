import Verif.Model.Traj
import Mathlib.Logic.Function.Basic

/-! # Model of `/repo/neutralocean/bfs.py` -/

/-- A graph as the two index arrays of a `csr_matrix`, `/repo/neutralocean/bfs.py` lines 17-24. -/
structure Csr where
  indptr : ℕ → ℕ
  indices : ℕ → ℕ

/-- `indices[indptr[m] : indptr[m + 1]]`, `/repo/neutralocean/bfs.py` line 61. -/
def Csr.nbrs (G : Csr) (m : ℕ) : List ℕ :=
  (List.range' (G.indptr m) (G.indptr (m + 1) - G.indptr m)).map G.indices

namespace Bfs
open FloatLike

/-! ## `bfs_conncomp1` -/

/-- Variables of `bfs_conncomp1`: `q = qu[0:qt+1]` and `good`.  Simplification: the preallocated array `qu` of length `N`
is a list to which nodes are appended; `Bfs.bfs_component` shows its length never exceeds `N`. -/
structure St where
  q : List ℕ
  good : ℕ → Bool

/-- `/repo/neutralocean/bfs.py` lines 62-66. -/
def visit (st : St) (n : ℕ) : St :=
  if st.good n then ⟨st.q ++ [n], Function.update st.good n false⟩ else st

/-- `while qt > qh`, `/repo/neutralocean/bfs.py` lines 56-66; `hd = qh + 1`.  `none`: more than `fuel` passes. -/
def loop (G : Csr) : ℕ → ℕ → St → Option St
  | 0, _, _ => none
  | fuel + 1, hd, st =>
    if h : hd < st.q.length then loop G fuel (hd + 1) ((G.nbrs st.q[hd]).foldl visit st) else some st

/-- `bfs_conncomp1`, `/repo/neutralocean/bfs.py` lines 9-70: the list returned and the mutated `good`. -/
def bfs (G : Csr) (root : ℕ) (good : ℕ → Bool) (fuel : ℕ) : Option St :=
  if good root then loop G fuel 0 ⟨[root], Function.update good root false⟩ else some ⟨[], good⟩

/-! ## `bfs_conncomp1_wet` -/

variable {F : Type*} [FloatLike F]

/-- The parts of the ocean used by the wetting searches.
* `data n`: cast `n` has two or more valid sites (`K - k > 1`);
* `ntp b n`: what `_ntp_bottle_to_cast` returns for the bottle `b = (s, t, p)` and cast `n`;
* `ntpP b n`: what `_ntp_bottle_to_cast_ppc` returns;
* `st n p`: what `ppval_1_two` returns on cast `n`;
* `pml n`: mixed layer pressure.
Simplification: these calls are assumed to return; `Bfs.Ocean.ofCasts` builds them from the modelled functions. -/
structure Ocean (F : Type*) where
  data : ℕ → Bool
  ntp : F × F × F → ℕ → F × F × F
  ntpP : F × F × F → ℕ → F
  st : ℕ → F → F × F
  pml : ℕ → F

/-- The value of a call that returns; NaN in place of an exception or of an endless loop (simplification; the calls return
on well formed casts, `Traj.ntp_total`). -/
def valueOr {A : Type*} (d : A) : Fzero.Outcome A → A
  | .ret a => a
  | _ => d

/-- The ocean made of the casts `c n`, with the calls as in `/repo/neutralocean/bfs.py` lines 187, 200-202, 317-337, 353. -/
def Ocean.ofCasts (fuel : ℕ) (tol : F) (eos : F → F → F → F) (kind : PPKind) (c : ℕ → Cast F) (pml : ℕ → F) : Ocean F where
  data n := decide (1 < (Interp.validRange2 (c n).S (c n).P).2 - (Interp.validRange2 (c n).S (c n).P).1)
  ntp b n := valueOr (nan, nan, nan) (Traj.ntpBottleToCast fuel tol eos kind b.1 b.2.1 b.2.2 (c n))
  ntpP b n :=
    let k := (Interp.validRange2 (c n).S (c n).P).1
    let K := (Interp.validRange2 (c n).S (c n).P).2
    let P := (c n).P.slice k K
    match Traj.ppcFn kind P ((c n).S.slice k K), Traj.ppcFn kind P ((c n).T.slice k K) with
    | some Sp, some Tp => valueOr nan (Traj.ntpPpc fuel tol eos b.1 b.2.1 b.2.2 P Sp Tp)
    | _, _ => nan
  st n p :=
    let k := (Interp.validRange2 (c n).S (c n).P).1
    let K := (Interp.validRange2 (c n).S (c n).P).2
    let P := (c n).P.slice k K
    match Traj.ppcFn kind P ((c n).S.slice k K), Traj.ppcFn kind P ((c n).T.slice k K) with
    | some Sp, some Tp => Interp.ppval1Two p P Sp Tp 0
    | _, _ => (nan, nan)
  pml := pml

/-- Variables of `bfs_conncomp1_wet`.  `calls` is a ghost: the NTP calculations `(m, n)` made so far. -/
structure WSt (F : Type*) where
  q : List ℕ
  good : ℕ → Bool
  dry : ℕ → Bool
  stp : ℕ → F × F × F
  newly : ℕ
  calls : List (ℕ × ℕ)

/-- Acceptance of a link: `np.isfinite(p_) and p_ > p_ml[n]`, `/repo/neutralocean/bfs.py` lines 207, 339. -/
def accept (O : Ocean F) (n : ℕ) (p : F) : Bool := isFinite p && lt (O.pml n) p

/-- `/repo/neutralocean/bfs.py` lines 176-214: look at neighbour `n` of `m`. -/
def visitW (O : Ocean F) (m : ℕ) (st : WSt F) (n : ℕ) : WSt F :=
  if st.good n then { st with q := st.q ++ [n], good := Function.update st.good n false }
  else if st.dry n then
    if O.data n then
      let r := O.ntp (st.stp m) n
      if accept O n r.2.2 then
        { st with q := st.q ++ [n], dry := Function.update st.dry n false, newly := st.newly + 1,
                  stp := Function.update st.stp n r, calls := st.calls ++ [(m, n)] }
      else { st with calls := st.calls ++ [(m, n)] }
    else { st with dry := Function.update st.dry n false }
  else st

/-- `/repo/neutralocean/bfs.py` lines 170-214. -/
def loopW (G : Csr) (O : Ocean F) : ℕ → ℕ → WSt F → Option (WSt F)
  | 0, _, _ => none
  | fuel + 1, hd, st =>
    if h : hd < st.q.length then loopW G O fuel (hd + 1) ((G.nbrs st.q[hd]).foldl (visitW O st.q[hd]) st) else some st

/-- `bfs_conncomp1_wet`, `/repo/neutralocean/bfs.py` lines 74-216. -/
def bfsWet (G : Csr) (O : Ocean F) (root : ℕ) (stp : ℕ → F × F × F) (fuel : ℕ) : Option (WSt F) :=
  let good := fun n => isFinite (stp n).2.2
  let dry := fun n => !isFinite (stp n).2.2
  if good root then loopW G O fuel 0 ⟨[root], Function.update good root false, dry, stp, 0, []⟩
  else some ⟨[], good, dry, stp, 0, []⟩

/-! ## `bfs_conncomp1_wet_perim` -/

/-- First-phase variables of `bfs_conncomp1_wet_perim`, `/repo/neutralocean/bfs.py` lines 267-276, with the one array `qu`
of length `N` used from both ends: `cnt = qt + 1` nodes from the left, `per = N - 1 - qT` nodes from the right. -/
structure ASt where
  qu : ℕ → ℕ
  cnt : ℕ
  per : ℕ
  good : ℕ → Bool
  wadj : ℕ → Bool

/-- `qu[qT] = n; qT -= 1; wet_adj[n] = True`, `/repo/neutralocean/bfs.py` lines 299-302, 358-360. -/
def pushPer (N : ℕ) (st : ASt) (n : ℕ) : ASt :=
  { st with qu := Function.update st.qu (N - 1 - st.per) n, per := st.per + 1, wadj := Function.update st.wadj n true }

/-- `/repo/neutralocean/bfs.py` lines 293-302. -/
def visitA (N : ℕ) (st : ASt) (n : ℕ) : ASt :=
  if st.good n then
    { st with qu := Function.update st.qu st.cnt n, cnt := st.cnt + 1, good := Function.update st.good n false }
  else if !st.wadj n then pushPer N st n
  else st

/-- `/repo/neutralocean/bfs.py` lines 286-302. -/
def loopA (G : Csr) (N : ℕ) : ℕ → ℕ → ASt → Option ASt
  | 0, _, _ => none
  | fuel + 1, hd, st =>
    if hd < st.cnt then loopA G N fuel (hd + 1) ((G.nbrs (st.qu hd)).foldl (visitA N) st) else some st

/-- Lines 267-284, 286-302: the search for the component and its perimeter. `garbage` is the content of `np.empty`. -/
def searchA (G : Csr) (N root : ℕ) (fin0 : ℕ → Bool) (garbage : ℕ → ℕ) (fuel : ℕ) : Option ASt :=
  if fin0 root then
    loopA G N fuel 0 ⟨Function.update garbage 0 root, 1, 0, Function.update fin0 root false, fin0⟩
  else loopA G N fuel 0 ⟨garbage, 0, 0, fin0, fin0⟩

/-- Accumulation over the neighbours of a perimeter cast, `/repo/neutralocean/bfs.py` lines 330-343.
Note that the mixed layer test uses the neighbour's `p_ml[n]`. -/
def gather (O : Ocean F) (stp : ℕ → F × F × F) (m : ℕ) (nb : List ℕ) : F × ℕ :=
  nb.foldl (fun (acc : F × ℕ) n =>
    if isFinite (stp n).2.2 then
      let p := O.ntpP (stp n) m
      if accept O n p then (acc.1 + p, acc.2 + 1) else acc
    else acc) (lit 0, 0)

/-- Second-phase variables: the array program state, the surface, and `newly_wet`. -/
structure PSt (F : Type*) where
  a : ASt
  stp : ℕ → F × F × F
  newly : ℕ

/-- Body of the loop over perimeter casts, `/repo/neutralocean/bfs.py` lines 314-361, for the cast in `qu[i]`. -/
def wetOne (G : Csr) (O : Ocean F) (N : ℕ) (st : PSt F) (i : ℕ) : PSt F :=
  let m := st.a.qu i
  if O.data m then
    let acc := gather O st.stp m (G.nbrs m)
    if acc.2 ≠ 0 then
      let p := acc.1 / lit acc.2
      let r := O.st m p
      { a := (G.nbrs m).foldl (fun a n => if !a.wadj n then pushPer N a n else a) st.a
        stp := Function.update st.stp m (r.1, r.2, p)
        newly := st.newly + 1 }
    else st
  else st

/-- `while qH > qT and rep < n_rep`, `/repo/neutralocean/bfs.py` lines 309-365.  `reps` is `n_rep - rep` and
`done = N - 1 - qH`: perimeter entries `done .. per-1`, stored at positions `N - 1 - j`, are processed in one pass. -/
def wetLoop (G : Csr) (O : Ocean F) (N : ℕ) : ℕ → ℕ → PSt F → PSt F
  | 0, _, st => st
  | reps + 1, done, st =>
    if done < st.a.per then
      wetLoop G O N reps st.a.per
        ((List.range' done (st.a.per - done)).foldl (fun st j => wetOne G O N st (N - 1 - j)) st)
    else st

/-- `bfs_conncomp1_wet_perim`, `/repo/neutralocean/bfs.py` lines 220-367: the mutated surface and `newly_wet`.
Only `p` is set to NaN outside the component (line 308). -/
def wetPerim (G : Csr) (O : Ocean F) (N root : ℕ) (stp : ℕ → F × F × F) (garbage : ℕ → ℕ) (nrep fuel : ℕ) : Option (PSt F) :=
  match searchA G N root (fun n => isFinite (stp n).2.2) garbage fuel with
  | none => none
  | some a =>
    let comp := (List.range a.cnt).map a.qu
    let stp' := fun n => if comp.contains n then stp n else ((stp n).1, (stp n).2.1, nan)
    some (wetLoop G O N nrep 0 ⟨a, stp', 0⟩)

end Bfs
