import Verif.Lemmas.Graph
import Verif.Props.Bfs
import Mathlib.Data.List.Nodup
import Mathlib.Data.List.ProdSigma

/-! # Properties of `/repo/neutralocean/grid/graph.py` -/

namespace Graph
open FloatLike

set_option linter.unusedSectionVars false

/-! ## C18 -/

/-- Specification: the other end of every edge at `m`, in edge order. -/
def otherEnds (m : ℕ) : Edges → List ℕ
  | [] => []
  | (a, b) :: e => (if a = m then [b] else []) ++ (if b = m then [a] else []) ++ otherEnds m e

theorem otherEnds_eq (m : ℕ) (e : Edges) : otherEnds m e = at_ (ins e) m := by
  induction e with
  | nil => rfl
  | cons x e ih =>
    rw [ins_cons, otherEnds, ih]
    by_cases h1 : x.1 = m <;> by_cases h2 : x.2 = m <;> simp [at_, List.filter_cons, h1, h2]

/-- **C18.** For node numbers below `N`, `edges_to_csr` returns (no access out of range, whatever was in the uninitialised
arrays), `indptr` starts at 0 and is nondecreasing, and the neighbours of `m` are, in edge order, the other end of every
edge at `m`. -/
theorem edgesToCsr_spec (e : Edges) (N : ℕ) (garbage : ℕ → ℕ) (h : ∀ x ∈ e, x.1 < N ∧ x.2 < N) :
    ∃ G, edgesToCsr e N garbage = .ok G ∧ G.indptr 0 = 0 ∧ Monotone G.indptr ∧
      ∀ m, G.nbrs m = otherEnds m e := by
  obtain ⟨deg, hdeg, hd⟩ := degrees_spec e N h
  obtain ⟨st, hst, I⟩ := fill_spec (deg := deg) (N := N) e [] (garbage, indptrOf deg) (by simpa using hd) h
    ⟨by simp [at_], by simp [at_]⟩
  refine ⟨⟨indptrOf deg, st.1⟩, by unfold edgesToCsr; simp [hdeg, hst], rfl, indptr_mono deg, ?_⟩
  intro m
  rw [otherEnds_eq]
  rw [List.nil_append] at I
  have hl : indptrOf deg (m + 1) - indptrOf deg m = (at_ (ins e) m).length := by
    rw [indptrOf, hd m]; omega
  unfold Csr.nbrs
  simp only [hl]
  apply List.ext_getElem
  · simp
  · intro j h1 h2
    simp only [List.getElem_map, List.getElem_range', one_mul]
    exact I.val m j h2

/-- **C18.** The neighbour lists are symmetric with multiplicity: `n` is listed for `m` as often as `m` for `n`. -/
theorem edgesToCsr_symm (e : Edges) (N : ℕ) (garbage : ℕ → ℕ) (h : ∀ x ∈ e, x.1 < N ∧ x.2 < N) (G : Csr)
    (hG : edgesToCsr e N garbage = .ok G) (m n : ℕ) : (G.nbrs m).count n = (G.nbrs n).count m := by
  obtain ⟨G', h1, _, _, h2⟩ := edgesToCsr_spec e N garbage h
  rw [hG] at h1
  obtain rfl := Res.ok.inj h1
  rw [h2, h2]
  clear h2 hG h h1
  induction e with
  | nil => rfl
  | cons x e ih =>
    simp only [otherEnds, List.count_append, ih]
    by_cases h1 : x.1 = m <;> by_cases h2 : x.2 = m <;> by_cases h3 : x.1 = n <;> by_cases h4 : x.2 = n <;>
      simp_all [List.count_cons] <;> split_ifs <;> simp_all <;> omega

/-- **C18.** `n` is a neighbour of `m` iff there is an edge between them; all neighbours are below `N`, so the result can
be handed to the searches (`Bfs.InRange`). -/
theorem edgesToCsr_mem (e : Edges) (N : ℕ) (garbage : ℕ → ℕ) (h : ∀ x ∈ e, x.1 < N ∧ x.2 < N) (G : Csr)
    (hG : edgesToCsr e N garbage = .ok G) :
    (∀ m n, n ∈ G.nbrs m ↔ (m, n) ∈ e ∨ (n, m) ∈ e) ∧ Bfs.InRange G N := by
  obtain ⟨G', h1, _, _, h2⟩ := edgesToCsr_spec e N garbage h
  rw [hG] at h1
  obtain rfl := Res.ok.inj h1
  have key : ∀ m n, n ∈ G.nbrs m ↔ (m, n) ∈ e ∨ (n, m) ∈ e := by
    intro m n
    rw [h2]
    clear h2 hG h h1
    induction e with
    | nil => simp [otherEnds]
    | cons x e ih =>
      simp only [otherEnds, List.mem_append, ih, List.mem_cons, Prod.ext_iff]
      by_cases h1 : x.1 = m <;> by_cases h2 : x.2 = m <;> simp [h1, h2] <;> grind
  refine ⟨key, ?_⟩
  intro m hm n hn
  rcases (key m n).1 hn with h' | h'
  · exact (h _ h').2
  · exact (h _ h').1

/-- **C18.** With the default `N` (`-1`) the number of nodes is one more than the largest node number in a nonempty edge
list; an empty edge list is an error. -/
theorem numNodes_spec (e : Edges) :
    (e = [] → numNodes e = .valueError) ∧
    (e ≠ [] → ∃ N, numNodes e = .ok (N + 1) ∧ (∀ x ∈ e, x.1 ≤ N ∧ x.2 ≤ N) ∧ ∃ x ∈ e, x.1 = N ∨ x.2 = N) := by
  have key : ∀ (e : Edges) (m0 : ℕ), let N := e.foldl (fun m x => max m (max x.1 x.2)) m0
      m0 ≤ N ∧ (∀ x ∈ e, x.1 ≤ N ∧ x.2 ≤ N) ∧ (N = m0 ∨ ∃ x ∈ e, x.1 = N ∨ x.2 = N) := by
    intro e
    induction e with
    | nil => intro m0; simp
    | cons x e ih =>
      intro m0
      obtain ⟨h1, h2, h3⟩ := ih (max m0 (max x.1 x.2))
      simp only [List.foldl_cons]
      refine ⟨by omega, ?_, ?_⟩
      · intro y hy
        rcases List.mem_cons.1 hy with rfl | hy
        · exact ⟨le_trans (le_trans (le_max_left _ _) (le_max_right _ _)) h1,
            le_trans (le_trans (le_max_right _ _) (le_max_right _ _)) h1⟩
        · exact h2 y hy
      · rcases h3 with h3 | ⟨y, hy, h3⟩
        · rw [h3]
          rcases le_total m0 (max x.1 x.2) with h | h
          · right
            refine ⟨x, by simp, ?_⟩
            omega
          · left; omega
        · right
          exact ⟨y, by simp [hy], h3⟩
  constructor
  · rintro rfl; rfl
  · intro he
    obtain ⟨x, e', rfl⟩ := List.exists_cons_of_ne_nil he
    obtain ⟨_, h2, h3⟩ := key (x :: e') 0
    refine ⟨_, rfl, h2, ?_⟩
    rcases h3 with h3 | h3
    · refine ⟨x, by simp, ?_⟩
      have := h2 x (by simp)
      omega
    · exact h3

/-- A triangle 0-1-2 with a pendant node 3 and a double edge. -/
example : ∀ x ∈ [(0, 1), (1, 2), (2, 0), (3, 2), (1, 0)], x.1 < 4 ∧ x.2 < 4 := by decide
example : otherEnds 1 [(0, 1), (1, 2), (2, 0), (3, 2), (1, 0)] = [0, 2, 0] := by decide
example : (match edgesToCsr [(0, 1), (1, 2), (2, 0), (3, 2), (1, 0)] 4 (fun _ => 77) with
    | .ok G => some (G.nbrs 1, G.nbrs 2, G.nbrs 3) | _ => none) = some ([0, 2, 0], [1, 0, 3], [2]) := by decide
/-- node number out of range: the hypothesis is needed -/
example : (match edgesToCsr [(0, 5)] 4 (fun _ => 77) with | .oob => true | _ => false) = true := by decide

/-! ## C68: `edges_to_graph` -/

/-- **C68.** The matrix is symmetric. -/
theorem toGraph_symm {α : Type*} [AddCommMonoid α] (we : List ((ℕ × ℕ) × α)) (m n : ℕ) :
    toGraph we m n = toGraph we n m := by
  unfold toGraph; rw [add_comm]

/-- **C68.** If exactly one edge joins the distinct nodes `m` and `n`, both entries are its weight. -/
theorem toGraph_weight {α : Type*} [AddCommMonoid α] (l1 l2 : List ((ℕ × ℕ) × α)) (m n : ℕ) (w : α) (hmn : m ≠ n)
    (h1 : ∀ x ∈ l1 ++ l2, x.1 ≠ (m, n) ∧ x.1 ≠ (n, m)) :
    toGraph (l1 ++ ((m, n), w) :: l2) m n = w ∧ toGraph (l1 ++ ((m, n), w) :: l2) n m = w := by
  have key : toGraph (l1 ++ ((m, n), w) :: l2) m n = w := by
    have e1 : ∀ l : List ((ℕ × ℕ) × α), (∀ x ∈ l, x.1 ≠ (m, n) ∧ x.1 ≠ (n, m)) →
        (l.filter fun x => x.1 = (m, n)) = [] ∧ (l.filter fun x => x.1 = (n, m)) = [] := by
      intro l hl
      constructor <;> rw [List.filter_eq_nil_iff] <;> intro x hx <;> simp [hl x hx]
    obtain ⟨a1, a2⟩ := e1 l1 (fun x hx => h1 x (by simp [hx]))
    obtain ⟨b1, b2⟩ := e1 l2 (fun x hx => h1 x (by simp [hx]))
    have hne : ¬ ((m, n) = (n, m)) := by
      intro h
      exact hmn (Prod.ext_iff.1 h).1
    simp [toGraph, List.filter_append, a1, a2, b1, b2, hmn]
  exact ⟨key, by rw [toGraph_symm]; exact key⟩

/-- **C68.** An entry is zero if no edge joins the nodes; with positive weights it is positive if one does.  So the two
graph representations have the same neighbours (`edgesToCsr_mem`). -/
theorem toGraph_support (we : List ((ℕ × ℕ) × ℚ)) (hw : ∀ x ∈ we, 0 < x.2) (m n : ℕ) :
    toGraph we m n ≠ 0 ↔ (m, n) ∈ we.map Prod.fst ∨ (n, m) ∈ we.map Prod.fst := by
  have key : ∀ k : ℕ × ℕ, 0 ≤ ((we.filter fun x => x.1 = k).map Prod.snd).sum ∧
      (k ∈ we.map Prod.fst → 0 < ((we.filter fun x => x.1 = k).map Prod.snd).sum) ∧
      (k ∉ we.map Prod.fst → ((we.filter fun x => x.1 = k).map Prod.snd).sum = 0) := by
    intro k
    induction we with
    | nil => simp
    | cons x we ih =>
      obtain ⟨i1, i2, i3⟩ := ih (fun y hy => hw y (by simp [hy]))
      have hx := hw x (by simp)
      by_cases hk : x.1 = k
      · simp only [List.filter_cons, hk, decide_true, if_true, List.map_cons, List.sum_cons, List.mem_cons]
        refine ⟨by linarith, fun _ => by linarith, fun h => absurd (Or.inl trivial) h⟩
      · have hk' : ¬ k = x.1 := fun h => hk h.symm
        simp only [List.filter_cons, hk, decide_false, List.map_cons, List.mem_cons, hk', false_or]
        exact ⟨i1, i2, i3⟩
  obtain ⟨a1, a2, a3⟩ := key (m, n)
  obtain ⟨b1, b2, b3⟩ := key (n, m)
  unfold toGraph
  by_cases h1 : (m, n) ∈ we.map Prod.fst
  · have := a2 h1
    exact ⟨fun _ => Or.inl h1, fun _ => by linarith⟩
  · by_cases h2 : (n, m) ∈ we.map Prod.fst
    · have := b2 h2
      exact ⟨fun _ => Or.inr h2, fun _ => by linarith⟩
    · rw [a3 h1, b3 h2]
      simp [h1, h2]

/-- The documentation says `G[m,n] = weights[i]` for edge `i = (m,n)`: false for repeated edges (as on the tripolar north
fold) and for self loops, whose weights are added. -/
theorem toGraph_weight_false :
    toGraph [((0, 1), (3 : ℚ)), ((1, 0), 3)] 0 1 = 6 ∧ toGraph [((2, 2), (3 : ℚ))] 2 2 = 6 := by decide +kernel

example : ∀ x ∈ ([((0, 1), (3 : ℚ)), ((1, 2), 4)] : List _), 0 < x.2 := by decide +kernel
example : toGraph [((0, 1), (3 : ℚ)), ((1, 2), 4)] 2 1 = 4 := by decide +kernel

/-- **C69.** `graph_binary_fcn` evaluates the function on each edge separately: entry `i` depends only on edge `i` and the
values at its two ends. -/
theorem binaryFcn_spec {V W : Type*} (e : Edges) (d : ℕ → V) (f : V → V → W) :
    (binaryFcn e d f).length = e.length ∧
    ∀ (e' : Edges) (d' : ℕ → V) (i : ℕ) (a b : ℕ), e[i]? = some (a, b) → e'[i]? = some (a, b) → d' a = d a → d' b = d b →
      (binaryFcn e d f)[i]? = some (f (d a) (d b)) ∧ (binaryFcn e' d' f)[i]? = (binaryFcn e d f)[i]? := by
  refine ⟨by simp [binaryFcn], ?_⟩
  intro e' d' i a b h1 h2 ha hb
  simp [binaryFcn, List.getElem?_map, h1, h2, ha, hb]

/-! ## C58: `build_grid` -/

section Grid
variable {α : Type*} [Field α] [LinearOrder α] [IsStrictOrderedRing α]
open Fl hiding nan

theorem find_eq {F : Type*} [FloatLike F] (N : ℕ) (A : ℕ → ℕ → F) :
    find N A = ((List.range N ×ˢ List.range N).filter fun x => !(feq (A x.1 x.2) (lit 0))).map
      fun x => (x.1, x.2, A x.1 x.2) := by
  unfold find
  show _ = List.map _ (List.filter _ ((List.range N).flatMap fun i => (List.range N).map (Prod.mk i)))
  rw [List.filter_flatMap, List.map_flatMap]
  congr 1
  funext i
  rw [List.filter_map, List.map_map]
  induction List.range N with
  | nil => rfl
  | cons j l ih =>
    rw [List.filterMap_cons, List.filter_cons]
    rcases Bool.eq_false_or_eq_true (feq (A i j) (lit 0)) with h | h
    · simp only [h, if_true, ih, Function.comp, Bool.not_true, Bool.false_eq_true, if_false]
    · simp only [h, Bool.false_eq_true, if_false, ih, Function.comp, Bool.not_false, if_true, List.map_cons]

theorem find_pos {F : Type*} [FloatLike F] (N : ℕ) (A : ℕ → ℕ → F) :
    ((find N A).map fun x => (x.1, x.2.1)) =
      (List.range N ×ˢ List.range N).filter fun x => !(feq (A x.1 x.2) (lit 0)) := by
  rw [find_eq, List.map_map]
  convert List.map_id _
  rfl

theorem find_val {F : Type*} [FloatLike F] (N : ℕ) (A : ℕ → ℕ → F) :
    ((find N A).map fun x => x.2.2) = ((find N A).map fun x => (x.1, x.2.1)).map fun x => A x.1 x.2 := by
  rw [find_eq]; simp [List.map_map, Function.comp]

/-- entry is not zero (NaN counts as not zero) -/
def Nz (A : ℕ → ℕ → Fl α) (i j : ℕ) : Prop := A i j ≠ .fin 0

theorem feq_zero (x : Fl α) : feq x (lit 0) = true ↔ x = fin 0 := by
  cases x with
  | fin x => simp
  | _ => simp; try rfl

theorem mem_find (N : ℕ) (A : ℕ → ℕ → Fl α) (i j : ℕ) :
    (i, j) ∈ ((find N A).map fun x => (x.1, x.2.1)) ↔ i < N ∧ j < N ∧ Nz A i j := by
  rw [find_pos, List.mem_filter, List.mem_product, List.mem_range, List.mem_range]
  simp only [Nz, ne_eq, ← feq_zero, Bool.not_eq_true, and_assoc, Bool.not_eq_eq_eq_not, Bool.not_true]

theorem nodup_find (N : ℕ) (A : ℕ → ℕ → Fl α) : ((find N A).map fun x => (x.1, x.2.1)).Nodup := by
  rw [find_pos]
  exact (List.nodup_range.product List.nodup_range).filter _

theorem symStructure_iff (N : ℕ) (A : ℕ → ℕ → Fl α) :
    symStructure N A = true ↔ ∀ i < N, ∀ j < N, (Nz A i j ↔ Nz A j i) := by
  unfold symStructure
  simp only [List.all_eq_true, List.mem_range, beq_iff_eq, Nz, ne_eq, ← feq_zero]
  constructor
  · intro h i hi j hj; rw [h i hi j hj]
  · intro h i hi j hj
    have := h i hi j hj
    rw [Bool.eq_iff_iff]
    tauto

theorem nz_triu (A : ℕ → ℕ → Fl α) (i j : ℕ) : Nz (triu A) i j ↔ i ≤ j ∧ Nz A i j := by
  unfold Nz triu
  by_cases h : j < i
  · simp [h]
  · simp [h]; intro; omega

/-- Number of edges between `i` and `j`, in either direction. -/
def joins (e : Edges) (i j : ℕ) : ℕ := (e.filter fun x => x = (i, j) ∨ x = (j, i)).length

theorem joins_nodup (e : Edges) (h : e.Nodup) (i j : ℕ) (hn : (i, j) ∈ e → (j, i) ∈ e → i = j) :
    joins e i j = if (i, j) ∈ e ∨ (j, i) ∈ e then 1 else 0 := by
  induction e with
  | nil => rfl
  | cons x e ih =>
    rw [List.nodup_cons] at h
    have ih := ih h.2 (fun a b => hn (by simp [a]) (by simp [b]))
    unfold joins at ih ⊢
    rw [List.filter_cons]
    by_cases h1 : x = (i, j) ∨ x = (j, i)
    · simp only [h1, decide_true, if_true, List.length_cons]
      have hx : ¬ ((i, j) ∈ e ∨ (j, i) ∈ e) := by
        rintro (h' | h')
        · rcases h1 with h1 | h1
          · exact h.1 (h1 ▸ h')
          · have := hn (by simp [h']) (by simp [h1])
            subst this; exact h.1 (h1 ▸ h')
        · rcases h1 with h1 | h1
          · have := hn (by simp [h1]) (by simp [h'])
            subst this; exact h.1 (h1 ▸ h')
          · exact h.1 (h1 ▸ h')
      rw [if_neg hx] at ih
      rw [ih, if_pos]
      rcases h1 with h1 | h1
      · left; simp [h1]
      · right; simp [h1]
    · simp only [h1, decide_false, Bool.false_eq_true, if_false]
      rw [ih]
      push Not at h1
      simp [h1.1.symm, h1.2.symm]

/-- **C58.** A matrix that is either symmetric in structure, or has for each pair of different nodes at most one of the two
entries nonzero, is turned into exactly one edge for each unordered pair of nodes with a nonzero entry, and no others; all
distances are 1. -/
theorem buildGridMat_spec (N : ℕ) (A : ℕ → ℕ → Fl α)
    (h : (∀ i < N, ∀ j < N, Nz A i j → Nz A j i) ∨ (∀ i < N, ∀ j < N, Nz A i j → Nz A j i → i = j)) :
    let g := buildGridMat N A
    (∀ x ∈ g.edges, x.1 < N ∧ x.2 < N ∧ Nz A x.1 x.2) ∧
    (∀ i j, i < N → j < N → (Nz A i j ∨ Nz A j i) → joins g.edges i j = 1) ∧
    (∀ i j, i < N → j < N → ¬ (Nz A i j ∨ Nz A j i) → joins g.edges i j = 0) ∧
    g.dist = List.replicate g.edges.length (.fin 1) ∧ g.distperp = List.replicate g.edges.length (.fin 1) := by
  intro g
  have hd : ∀ l : Edges, (l.map fun _ => (lit 1 : Fl α)) = List.replicate l.length (.fin 1) := by
    intro l; simp
  suffices H : g.edges.Nodup ∧ (∀ i j, (i, j) ∈ g.edges → (j, i) ∈ g.edges → i = j) ∧
      (∀ i j, (i, j) ∈ g.edges → i < N ∧ j < N ∧ Nz A i j) ∧
      (∀ i j, i < N → j < N → Nz A i j → (i, j) ∈ g.edges ∨ (j, i) ∈ g.edges) by
    obtain ⟨h1, h2, h3, h4⟩ := H
    refine ⟨fun x hx => h3 x.1 x.2 hx, ?_, ?_, hd _, hd _⟩
    · intro i j hi hj hn
      rw [joins_nodup _ h1 _ _ (h2 i j), if_pos]
      rcases hn with hn | hn
      · exact h4 i j hi hj hn
      · exact (h4 j i hj hi hn).symm
    · intro i j hi hj hn
      rw [joins_nodup _ h1 _ _ (h2 i j), if_neg]
      rintro (h' | h')
      · exact hn (Or.inl (h3 _ _ h').2.2)
      · exact hn (Or.inr (h3 _ _ h').2.2)
  have hg : g.edges = (find N (if symStructure N A then triu A else A)).map fun x => (x.1, x.2.1) := rfl
  rw [hg]
  refine ⟨nodup_find _ _, ?_⟩
  simp only [mem_find]
  by_cases hs : symStructure N A = true
  · rw [if_pos hs]
    rw [symStructure_iff] at hs
    simp only [nz_triu]
    refine ⟨fun i j a b => le_antisymm a.2.2.1 b.2.2.1, fun i j a => ⟨a.1, a.2.1, a.2.2.2⟩, ?_⟩
    intro i j hi hj hn
    rcases le_total i j with h' | h'
    · exact Or.inl ⟨hi, hj, h', hn⟩
    · exact Or.inr ⟨hj, hi, h', (hs i hi j hj).1 hn⟩
  · rw [if_neg hs]
    rcases h with h | h
    · exact absurd ((symStructure_iff N A).2 fun i hi j hj => ⟨h i hi j hj, h j hj i hi⟩) hs
    · refine ⟨fun i j a b => h i a.1 j a.2.1 a.2.2 b.2.2, fun i j a => a, fun i j hi hj hn => Or.inl ⟨hi, hj, hn⟩⟩

/-- **C58.** A symmetric structure gives only edges from the lower to the higher node number; a structure that is not
symmetric is kept as it is, with its directions. -/
theorem buildGridMat_direction (N : ℕ) (A : ℕ → ℕ → Fl α) :
    ((∀ i < N, ∀ j < N, Nz A i j → Nz A j i) →
      ∀ i j, (i, j) ∈ (buildGridMat N A).edges ↔ i < N ∧ j < N ∧ i ≤ j ∧ Nz A i j) ∧
    ((∃ i < N, ∃ j < N, Nz A i j ∧ ¬ Nz A j i) →
      ∀ i j, (i, j) ∈ (buildGridMat N A).edges ↔ i < N ∧ j < N ∧ Nz A i j) := by
  have hg : (buildGridMat N A).edges = (find N (if symStructure N A then triu A else A)).map fun x => (x.1, x.2.1) := rfl
  rw [hg]
  constructor
  · intro h i j
    rw [if_pos ((symStructure_iff N A).2 fun i hi j hj => ⟨h i hi j hj, h j hj i hi⟩), mem_find, nz_triu]
  · rintro ⟨a, ha, b, hb, h1, h2⟩ i j
    rw [if_neg, mem_find]
    rw [symStructure_iff]
    intro h
    exact h2 ((h a ha b hb).1 h1)

/-- **C58 (`dict` case), partial.** For two numerically symmetric matrices of the same structure each pair of joined nodes
becomes one edge carrying the two given distances.  Missing: the documented case of matrices of the same structure of which
only one is numerically symmetric, see `buildGridDict_false`. -/
theorem buildGridDict_spec_partial (N : ℕ) (D P : ℕ → ℕ → Fl α)
    (hD : ∀ i < N, ∀ j < N, ∃ x : α, D i j = .fin x ∧ D j i = .fin x)
    (hP : ∀ i < N, ∀ j < N, ∃ x : α, P i j = .fin x ∧ P j i = .fin x)
    (hs : ∀ i < N, ∀ j < N, (Nz D i j ↔ Nz P i j)) :
    ∃ g, buildGridDict N D P = .ok g ∧
      (∀ x ∈ g.edges, x.1 < N ∧ x.2 < N ∧ Nz D x.1 x.2) ∧
      (∀ i j, i < N → j < N → Nz D i j → joins g.edges i j = 1) ∧
      g.dist = g.edges.map (fun x => D x.1 x.2) ∧ g.distperp = g.edges.map (fun x => P x.1 x.2) := by
  have sym : ∀ A : ℕ → ℕ → Fl α, (∀ i < N, ∀ j < N, ∃ x : α, A i j = .fin x ∧ A j i = .fin x) →
      isSymmetric N A = true := by
    intro A hA
    unfold isSymmetric
    simp only [List.all_eq_true, List.mem_range]
    intro i hi j hj
    obtain ⟨x, h1, h2⟩ := hA i hi j hj
    rw [h1, h2]; simp
  have hnz : ∀ i < N, ∀ j < N, Nz D i j → Nz D j i := by
    intro i hi j hj h
    obtain ⟨x, h1, h2⟩ := hD i hi j hj
    unfold Nz at h ⊢
    rwa [h2, ← h1]
  have heq : ((find N (triu D)).map fun x => (x.1, x.2.1)) = (find N (triu P)).map fun x => (x.1, x.2.1) := by
    rw [find_pos, find_pos]
    apply List.filter_congr
    rintro ⟨i, j⟩ hx
    rw [List.mem_product, List.mem_range, List.mem_range] at hx
    have : Nz (triu D) i j ↔ Nz (triu P) i j := by rw [nz_triu, nz_triu, hs i hx.1 j hx.2]
    unfold Nz at this
    rw [← not_iff_not, not_not, not_not, ← feq_zero, ← feq_zero, ← Bool.eq_iff_iff] at this
    simp only [this]
  have val : ∀ A : ℕ → ℕ → Fl α, ((find N (triu A)).map fun x => x.2.2) =
      ((find N (triu A)).map fun x => (x.1, x.2.1)).map fun x => A x.1 x.2 := by
    intro A
    rw [find_val]
    apply List.map_congr_left
    rintro ⟨i, j⟩ hx
    rw [mem_find, nz_triu] at hx
    simp [triu, Nat.not_lt.2 hx.2.2.1]
  refine ⟨⟨(find N (triu D)).map fun x => (x.1, x.2.1), (find N (triu D)).map fun x => x.2.2,
    (find N (triu P)).map fun x => x.2.2⟩, ?_, ?_, ?_, val D, ?_⟩
  · unfold buildGridDict
    simp only [sym D hD, sym P hP, if_true]
    rw [if_neg (by rw [heq]; simp)]
  · intro x hx
    have := (mem_find N (triu D) x.1 x.2).1 hx
    rw [nz_triu] at this
    exact ⟨this.1, this.2.1, this.2.2.2⟩
  · intro i j hi hj hn
    show joins ((find N (triu D)).map fun x => (x.1, x.2.1)) i j = 1
    rw [joins_nodup _ (nodup_find _ _), if_pos]
    · rw [mem_find, mem_find, nz_triu, nz_triu]
      rcases le_total i j with h' | h'
      · exact Or.inl ⟨hi, hj, h', hn⟩
      · exact Or.inr ⟨hj, hi, h', hnz i hi j hj hn⟩
    · rw [mem_find, mem_find, nz_triu, nz_triu]
      intro a b
      exact le_antisymm a.2.2.1 b.2.2.1
  · show _ = List.map _ ((find N (triu D)).map fun x => (x.1, x.2.1))
    rw [heq]; exact val P

end Grid

/-- **C58 (`dict` case) is false as documented:** two matrices of the same sparsity structure, `dist` numerically symmetric
and `distperp` not: the call raises `ValueError("Given matrices have different sparsity structure.")`. -/
theorem buildGridDict_false :
    ∃ D P : ℕ → ℕ → Fl ℚ, (∀ i < 2, ∀ j < 2, (Nz D i j ↔ Nz P i j)) ∧
      (match buildGridDict 2 D P with | .valueError => true | _ => false) = true := by
  refine ⟨fun i j => if i = j then .fin 0 else .fin 5, fun i j => if i = j then .fin 0 else .fin (1 + (i : ℚ)), ?_, ?_⟩
  · unfold Nz
    decide +kernel
  · decide +kernel

/-- path 0-1-2 -/
def exAdj (i j : ℕ) : Fl ℚ := if i + 1 = j ∨ j + 1 = i then .fin 1 else .fin 0
example : (∀ i < 3, ∀ j < 3, Nz exAdj i j → Nz exAdj j i) := by unfold Nz; decide +kernel
example : (buildGridMat 3 exAdj).edges = [(0, 1), (1, 2)] := by decide +kernel
example : ∀ i < 3, ∀ j < 3, ∃ x, exAdj i j = .fin x ∧ exAdj j i = .fin x := by
  intro i _ j _
  refine ⟨if i + 1 = j ∨ j + 1 = i then 1 else 0, ?_, ?_⟩
  · unfold exAdj; split_ifs <;> rfl
  · unfold exAdj; split_ifs <;> first | rfl | (exfalso; tauto)

end Graph
