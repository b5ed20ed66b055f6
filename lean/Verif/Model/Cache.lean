import Mathlib.Data.List.Basic

/-!
# Model of the caches, and of `_make_vertsolve`

`functools.lru_cache(maxsize=10)` decorates `_make_eos`, `make_bsq`, `vectorize_eos` (`/repo/neutralocean/eos/tools.py` lines 11, 127,
182), `make_pp` (`/repo/neutralocean/ppinterp/tools.py` line 5) and `_make_vertsolve` (`/repo/neutralocean/surface/_vertsolve.py` line 11).
The decorator belongs to the standard library of Python; it is modelled here after its documentation and source: results of
calls that return are kept with the most recently used first, at most `maxsize` of them; calls that raise are not kept.
-/

namespace Cache

/-- The content of a cache, most recently used first, and the keys for which the function was called (most recent first).
Simplification: keys that Python regards as equal (`1`, `1.0`, `True`) are one key, and all keys are hashable. -/
structure Lru (K V : Type*) where
  entries : List (K × V)
  computed : List K

variable {K V E : Type*} [DecidableEq K]

/-- the cache when the program starts -/
def Lru.empty : Lru K V := ⟨[], []⟩

/-- `cache.get(key)` -/
def lookup (l : List (K × V)) (k : K) : Option V := (l.find? fun e => e.1 = k).map Prod.snd

/-- move the entry of `k` to the front -/
def touch (l : List (K × V)) (k : K) (v : V) : List (K × V) := (k, v) :: l.filter fun e => e.1 ≠ k

/-- put in a new entry, and drop the least recently used one if the cache is full -/
def insert (max : ℕ) (l : List (K × V)) (k : K) (v : V) : List (K × V) := ((k, v) :: l).take max

/-- A call of the decorated function: the result, and the cache afterwards. -/
def call (max : ℕ) (f : K → Except E V) (k : K) (c : Lru K V) : Except E V × Lru K V :=
  match lookup c.entries k with
  | some v => (.ok v, ⟨touch c.entries k v, c.computed⟩)
  | none =>
    match f k with
    | .ok v => (.ok v, ⟨insert max c.entries k v, k :: c.computed⟩)
    | .error e => (.error e, ⟨c.entries, k :: c.computed⟩)

/-- A sequence of calls: the results in order, and the cache at the end. -/
def calls (max : ℕ) (f : K → Except E V) : List K → Lru K V → List (Except E V) × Lru K V
  | [], c => ([], c)
  | k :: ks, c =>
    let r := call max f k c
    let rs := calls max f ks r.2
    (r.1 :: rs.1, rs.2)

/-! ## Several threads

The cache is looked up and changed under a lock, but the function is called without it, so that other threads may call in between,
and may even put in the same key. -/

/-- State of the program: the cache; the calls that have looked up their key in vain and run the function (thread, key); the calls that are finished (thread, key, result),
last first. -/
structure Conc (K V E : Type*) where
  entries : List (K × V)
  pending : List (ℕ × K)
  done : List (ℕ × K × Except E V)

/-- One atomic step of some thread. -/
inductive Step (max : ℕ) (f : K → Except E V) : Conc K V E → Conc K V E → Prop where
  /-- the key is found -/
  | hit (s : Conc K V E) (t : ℕ) (k : K) (v : V) (h : lookup s.entries k = some v) :
      Step max f s ⟨touch s.entries k v, s.pending, (t, k, .ok v) :: s.done⟩
  /-- the key is not found; the function starts -/
  | miss (s : Conc K V E) (t : ℕ) (k : K) (h : lookup s.entries k = none) :
      Step max f s ⟨s.entries, (t, k) :: s.pending, s.done⟩
  /-- the function returned; its result is kept, unless another thread has put in the key -/
  | store (s : Conc K V E) (t : ℕ) (k : K) (v : V) (h : (t, k) ∈ s.pending) (hf : f k = .ok v) :
      Step max f s ⟨if (lookup s.entries k).isSome then s.entries else insert max s.entries k v, s.pending.erase (t, k),
        (t, k, .ok v) :: s.done⟩
  /-- the function raised -/
  | raised (s : Conc K V E) (t : ℕ) (k : K) (e : E) (h : (t, k) ∈ s.pending) (hf : f k = .error e) :
      Step max f s ⟨s.entries, s.pending.erase (t, k), (t, k, .error e) :: s.done⟩

/-- States that occur in some execution. -/
inductive Reachable (max : ℕ) (f : K → Except E V) : Conc K V E → Prop where
  | start : Reachable max f ⟨[], [], []⟩
  | step {s s' : Conc K V E} (h : Reachable max f s) (hs : Step max f s s') : Reachable max f s'

/-! ## `_make_vertsolve` -/

/-- What `_make_vertsolve` builds: a solver for omega surfaces, or the general one with its zero function. -/
inductive Solver where
  | omega | potential | anomaly
  deriving DecidableEq

/-- `_make_vertsolve`, `/repo/neutralocean/surface/_vertsolve.py` lines 12-36, with the functions it is given (`eos`, `ppc_fn`) as they
are; `.error`: `NameError`. -/
def makeVertsolve {A B : Type*} : A × B × String → Except Unit (A × B × Solver)
  | (eos, ppc, ty) =>
    if ty = "omega" then .ok (eos, ppc, .omega)
    else if ty = "potential" then .ok (eos, ppc, .potential)
    else if ty = "anomaly" then .ok (eos, ppc, .anomaly)
    else .error ()

end Cache
