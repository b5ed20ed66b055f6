import Verif.Model.Graph
import Mathlib.Data.Rat.Floor

/-!
# `graph_binary_fcn` with the indices and the types of numba

`Graph.binaryFcn` is this function for node numbers in range and values of a type that holds the results.  Here node numbers
are any integers, and the array of results has the type of the node values.
-/

namespace GraphFcn

/-- The node values, `nodevals.reshape(-1)`, `/repo/neutralocean/grid/graph.py` line 50: an array of floats or of integers. -/
inductive Vals where
  | float (d : ℕ → Fl ℚ)
  | int (d : ℕ → ℤ)

/-- What numba reads for `d[i]` with an array of `N` values, line 52: a negative `i` counts from the end; there is no bounds check,
so `none` (anything may be read) if `i` is not in range after this. -/
def index (N : ℕ) (i : ℤ) : Option ℕ :=
  let j := if i < 0 then i + N else i
  if 0 ≤ j ∧ j < N then some j.toNat else none

/-- The value at a node, as the number that `binary_fcn` receives. -/
def Vals.at : Vals → ℕ → Fl ℚ
  | .float d, n => d n
  | .int d, n => .fin (d n)

/-- `ev[i] = x`, line 52, with `ev` of the type of `nodevals` (line 49): a float stored in an array of integers is truncated towards
zero.  `junk` is what the processor gives for NaN and infinities.  Integers are not limited to 64 bits. -/
def store (junk : Fl ℚ → ℤ) : Vals → Fl ℚ → Fl ℚ
  | .float _, x => x
  | .int _, .fin q => .fin (q.num.tdiv q.den : ℤ)
  | .int _, x => .fin (junk x : ℤ)

/-- `graph_binary_fcn`, `/repo/neutralocean/grid/graph.py` lines 9-53; `none` for a read outside of the array. -/
def graphBinaryFcn (junk : Fl ℚ → ℤ) (edges : List (ℤ × ℤ)) (N : ℕ) (vals : Vals) (f : Fl ℚ → Fl ℚ → Fl ℚ) : Option (List (Fl ℚ)) :=
  edges.mapM fun e => do
    let a ← index N e.1
    let b ← index N e.2
    return store junk vals (f (vals.at a) (vals.at b))

end GraphFcn
