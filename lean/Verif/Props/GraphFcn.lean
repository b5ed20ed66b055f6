import Verif.Model.GraphFcn

/-!
# C170: the values of a function on the edges of a graph

The documentation: entry `e` is the function of the values at the two ends of edge `e`; NaN if a node number is negative.
-/

namespace GraphFcn

open FloatLike

/-- The specification: entry `i` of the result is the function of the values at the ends of edge `i`. -/
def Edgewise (edges : List (ℤ × ℤ)) (v : ℤ → Fl ℚ) (f : Fl ℚ → Fl ℚ → Fl ℚ) (ev : List (Fl ℚ)) : Prop :=
  ev.length = edges.length ∧ ∀ (i : ℕ) (a b : ℤ), edges[i]? = some (a, b) → ev[i]? = some (f (v a) (v b))

theorem index_of_nonneg {N : ℕ} {i : ℤ} (h0 : 0 ≤ i) (h1 : i < N) : index N i = some i.toNat := by
  simp only [index, if_neg (not_lt.2 h0), if_pos (And.intro h0 h1)]

theorem mapM_map {A B : Type*} {f : A → Option B} {g : A → B} : ∀ {l : List A}, (∀ a ∈ l, f a = some (g a)) → l.mapM f = some (l.map g)
  | [], _ => rfl
  | a :: l, h => by
    rw [List.mapM_cons, h a (by simp), mapM_map fun b hb => h b (by simp [hb])]
    rfl

theorem store_int (junk : Fl ℚ → ℤ) (v : Vals) (n : ℤ) : store junk v (.fin n) = .fin n := by
  cases v with
  | float d => rfl
  | int d => simp [store]

/-- C170, what holds: with node numbers in range, if the node values are floats or the function maps these integers to integers, each
entry is the function of the values at the ends of its edge, whatever is stored for NaN. -/
theorem graphBinaryFcn_partial (junk : Fl ℚ → ℤ) {edges : List (ℤ × ℤ)} {N : ℕ} (he : ∀ e ∈ edges, 0 ≤ e.1 ∧ e.1 < N ∧ 0 ≤ e.2 ∧ e.2 < N)
    (f : Fl ℚ → Fl ℚ → Fl ℚ) :
    (∀ d : ℕ → Fl ℚ, ∃ ev, graphBinaryFcn junk edges N (.float d) f = some ev ∧ Edgewise edges (fun n => d n.toNat) f ev) ∧
    (∀ d : ℕ → ℤ, (∀ m n : ℤ, ∃ r : ℤ, f (.fin m) (.fin n) = .fin r) →
      ∃ ev, graphBinaryFcn junk edges N (.int d) f = some ev ∧ Edgewise edges (fun n => .fin (d n.toNat)) f ev) := by
  have key : ∀ vals : Vals, (∀ a b, store junk vals (f (vals.at a) (vals.at b)) = f (vals.at a) (vals.at b)) →
      ∃ ev, graphBinaryFcn junk edges N vals f = some ev ∧ Edgewise edges (fun n => vals.at n.toNat) f ev := by
    intro vals hv
    refine ⟨edges.map fun e => f (vals.at e.1.toNat) (vals.at e.2.toNat), mapM_map fun e h => ?_, by simp, fun i a b h => by simp [h]⟩
    obtain ⟨h1, h2, h3, h4⟩ := he e h
    simp [index_of_nonneg h1 h2, index_of_nonneg h3 h4, hv]
  refine ⟨fun d => key (.float d) fun _ _ => rfl, fun d hf => key (.int d) fun a b => ?_⟩
  obtain ⟨r, hr⟩ := hf (d a) (d b)
  show store junk (.int d) (f (.fin (d a)) (.fin (d b))) = f (.fin (d a)) (.fin (d b))
  rw [hr, store_int]

/-- C170 is violated by negative node numbers: the value of a node at the end of the list is used, for every graph with such an edge,
all values and functions. -/
theorem graphBinaryFcn_negative_false (junk : Fl ℚ → ℤ) {N : ℕ} (d : ℕ → Fl ℚ) (f : Fl ℚ → Fl ℚ → Fl ℚ) {k b : ℕ} (hk : 0 < k) (hN : k ≤ N)
    (hb : b < N) : graphBinaryFcn junk [(-(k : ℤ), (b : ℤ))] N (.float d) f = some [f (d (N - k)) (d b)] := by
  have h1 : index N (-(k : ℤ)) = some (N - k) := by
    have e : -(k : ℤ) + N = ((N - k : ℕ) : ℤ) := by omega
    simp only [index, if_pos (show -(k : ℤ) < 0 by omega), e]
    rw [if_pos (by omega)]
    simp
  simp [graphBinaryFcn, h1, index_of_nonneg (show (0 : ℤ) ≤ b by omega) (show (b : ℤ) < N by omega), store, Vals.at]

/-- The average of two numbers. -/
def mean (x y : Fl ℚ) : Fl ℚ := (x + y) / lit 2

/-- C170 is violated by arrays of integers: the average of 1 and 2 on an edge comes out as 1. -/
theorem graphBinaryFcn_int_false (junk : Fl ℚ → ℤ) :
    graphBinaryFcn junk [(0, 1)] 2 (.int fun n => n + 1) mean = some [.fin 1] ∧ mean (.fin 1) (.fin 2) = .fin (3 / 2) := by
  have h : mean (.fin 1) (.fin 2) = .fin (3 / 2) := by decide +kernel
  refine ⟨?_, h⟩
  have e : graphBinaryFcn junk [(0, 1)] 2 (.int fun n => n + 1) mean = some [store junk (.int fun n => n + 1) (mean (.fin 1) (.fin 2))] := by
    simp [graphBinaryFcn, index, Vals.at]
    norm_num
  rw [e, h]
  have h2 : (3 / 2 : ℚ).num.tdiv (3 / 2 : ℚ).den = 1 := by decide +kernel
  simp only [store, h2]
  norm_num

/-- Concrete cases of `graphBinaryFcn_partial`: a triangle with floats, and with integers and the difference. -/
example : ∃ ev, graphBinaryFcn (fun _ => 0) [(0, 1), (1, 2), (2, 0)] 3 (.float fun n => .fin (n + 1 / 2)) mean = some ev ∧
    Edgewise [(0, 1), (1, 2), (2, 0)] (fun n => .fin (n.toNat + 1 / 2)) mean ev :=
  (graphBinaryFcn_partial (fun _ => 0) (N := 3) (by decide) mean).1 _

example : ∃ ev, graphBinaryFcn (fun _ => 0) [(0, 1), (1, 2), (2, 0)] 3 (.int fun n => n * n) (fun x y => x - y) = some ev ∧
    Edgewise [(0, 1), (1, 2), (2, 0)] (fun n => .fin ((n.toNat * n.toNat : ℤ) : ℚ)) (fun x y => x - y) ev :=
  (graphBinaryFcn_partial (fun _ => 0) (N := 3) (by decide) fun x y => x - y).2 (fun n => n * n) fun m n => ⟨m - n, by
    show Fl.fin _ = _
    push_cast
    rw [sub_eq_add_neg]⟩

/-- A case of `graphBinaryFcn_negative_false` in which the documented NaN is a number. -/
example : graphBinaryFcn (fun _ => 0) [(-1, 0)] 3 (.float fun n => .fin n) (fun x y => x - y) = some [.fin 2] := by
  have h := graphBinaryFcn_negative_false (fun _ => 0) (N := 3) (fun n => .fin n) (fun x y => x - y) (k := 1) (b := 0) (by decide) (by decide) (by decide)
  refine h.trans ?_
  decide +kernel

end GraphFcn
