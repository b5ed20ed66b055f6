import Verif.Props.OneTile
import Verif.Props.Graph

/-! # A grid written as matrices and read back (C189) -/

set_option linter.unusedSectionVars false

namespace Graph

theorem joins_count {i j : ℕ} (h : i ≠ j) (e : Edges) : joins e i j = e.count (i, j) + e.count (j, i) := by
  have hne : ((i, j) : ℕ × ℕ) ≠ (j, i) := fun e => h (Prod.mk.inj e).1
  induction e with
  | nil => rfl
  | cons x e ih =>
    unfold joins at ih ⊢
    simp only [Bool.decide_or] at ih
    rw [List.filter_cons, List.count_cons, List.count_cons]
    by_cases h1 : x = (i, j)
    · subst h1
      simp [hne]
      omega
    · by_cases h2 : x = (j, i)
      · subst h2
        simp [hne.symm]
        omega
      · simp [h1, h2, ih]

/-- a nonzero entry comes from an edge -/
theorem toGraph_edge {α : Type*} [AddCommMonoid α] {we : List ((ℕ × ℕ) × α)} {m n : ℕ} (h : toGraph we m n ≠ 0) : ∃ x ∈ we, x.1 = (m, n) ∨ x.1 = (n, m) := by
  by_contra hc
  push Not at hc
  apply h
  unfold toGraph
  have e1 : (we.filter fun x => x.1 = (m, n)) = [] := by rw [List.filter_eq_nil_iff]; intro x hx; simp [(hc x hx).1]
  have e2 : (we.filter fun x => x.1 = (n, m)) = [] := by rw [List.filter_eq_nil_iff]; intro x hx; simp [(hc x hx).2]
  rw [e1, e2]
  simp

/-- Repeated edges (as on the fold of a tripolar grid) do not survive: two edges between two casts, of distance 1 and face length 3, become one of distance 2 and face length 6. -/
theorem graph_round_repeated :
    (match buildGridDict 2 (fun m n => (Fl.fin (toGraph [((0, 1), (1 : ℚ)), ((1, 0), 1)] m n) : Fl ℚ)) (fun m n => Fl.fin (toGraph [((0, 1), (3 : ℚ)), ((1, 0), 3)] m n)) with
      | .ok g => decide (g.edges = [(0, 1)] ∧ g.dist = [.fin 2] ∧ g.distperp = [.fin 6])
      | _ => false) = true := by
  decide +kernel

end Graph

namespace Omega

open FloatLike Lib Traj Bfs VertSolve
open Fl hiding nan

/-- Specification: links between different ones of `N` casts, with positive lengths, and at most one between any two casts. -/
structure Simple (N : ℕ) (L : List Link) : Prop where
  within : ∀ x ∈ L, x.ends.1 < N ∧ x.ends.2 < N
  proper : ∀ x ∈ L, x.ends.1 ≠ x.ends.2
  pos : ∀ x ∈ L, 0 < x.dist ∧ 0 < x.perp
  single : L.Pairwise fun x y => x.ends ≠ y.ends ∧ x.ends ≠ y.ends.swap

/-- the matrix that `edges_to_graph` makes of one of the lengths -/
noncomputable def matrixOf (f : Link → ℝ) (L : List Link) : ℕ → ℕ → Fl ℝ := fun m n => fin (Graph.toGraph (L.map fun x => (x.ends, f x)) m n)

theorem matrix_entry {N : ℕ} {L : List Link} (H : Simple N L) (f : Link → ℝ) {x : Link} (hx : x ∈ L) :
    Graph.toGraph (L.map fun x => (x.ends, f x)) x.ends.1 x.ends.2 = f x ∧ Graph.toGraph (L.map fun x => (x.ends, f x)) x.ends.2 x.ends.1 = f x := by
  obtain ⟨l1, l2, rfl⟩ := List.append_of_mem hx
  have hs := H.single
  rw [List.pairwise_append, List.pairwise_cons] at hs
  obtain ⟨-, ⟨h2, -⟩, h3⟩ := hs
  have := Graph.toGraph_weight (l1.map fun x => (x.ends, f x)) (l2.map fun x => (x.ends, f x)) x.ends.1 x.ends.2 (f x) (H.proper x hx) (by
    intro y hy
    rw [← List.map_append] at hy
    obtain ⟨z, hz, rfl⟩ := List.mem_map.1 hy
    rcases List.mem_append.1 hz with hz | hz
    · obtain ⟨a, b⟩ := h3 z hz x List.mem_cons_self
      exact ⟨a, b⟩
    · obtain ⟨a, b⟩ := h2 z hz
      exact ⟨fun e => a e.symm, fun e => b (by show _ = (z.ends.2, z.ends.1); show x.ends = _; have e : z.ends = (x.ends.2, x.ends.1) := e; rw [e])⟩)
  simpa only [List.map_append, List.map_cons] using this

/-- the link, or the link turned round, whichever is an edge -/
noncomputable def turned (e : List (ℕ × ℕ)) (x : Link) : Link := open Classical in if x.ends ∈ e then x else ⟨x.ends.swap, x.dist, x.perp⟩

/-- **C189** A grid without loops and repeated edges and with positive lengths, turned into two symmetric matrices of lengths by `edges_to_graph`, is returned by `build_grid`, up to
the order and direction of its edges. -/
theorem graph_round {N : ℕ} {L : List Link} (H : Simple N L) :
    ∃ g L', Graph.buildGridDict N (matrixOf Link.dist L) (matrixOf Link.perp L) = .ok g ∧
      (⟨g.edges, some g.dist, some g.distperp⟩ : GridDict (Fl ℝ)) = gridOf L' ∧
      ∃ L₂, List.Forall₂ (SameLink fun k => k) L L₂ ∧ L₂.Perm L' := by
  have hsym : ∀ f : Link → ℝ, ∀ i < N, ∀ j < N, ∃ x : ℝ, matrixOf f L i j = .fin x ∧ matrixOf f L j i = .fin x :=
    fun f i _ j _ => ⟨_, rfl, congrArg fin (Graph.toGraph_symm _ _ _)⟩
  have hnz : ∀ (f : Link → ℝ) (i j : ℕ), Graph.Nz (matrixOf f L) i j → ∃ x ∈ L, x.ends = (i, j) ∨ x.ends = (j, i) := by
    intro f i j h
    obtain ⟨y, hy, h⟩ := Graph.toGraph_edge (we := L.map fun x => (x.ends, f x)) (m := i) (n := j) (fun e => h (congrArg fin e))
    obtain ⟨x, hx, rfl⟩ := List.mem_map.1 hy
    exact ⟨x, hx, h⟩
  have hent : ∀ (f : Link → ℝ), (∀ x ∈ L, 0 < f x) → ∀ x ∈ L, ∀ i j, x.ends = (i, j) ∨ x.ends = (j, i) →
      Graph.toGraph (L.map fun x => (x.ends, f x)) i j = f x ∧ Graph.Nz (matrixOf f L) i j := by
    intro f hf x hx i j h
    have e : Graph.toGraph (L.map fun x => (x.ends, f x)) i j = f x := by
      obtain ⟨h1, h2⟩ := matrix_entry H f hx
      rcases h with h | h <;> rw [h] at h1 h2
      · exact h1
      · exact h2
    refine ⟨e, fun h0 => ?_⟩
    have h0 : (fin (Graph.toGraph (L.map fun x => (x.ends, f x)) i j) : Fl ℝ) = fin 0 := h0
    rw [e] at h0
    injection h0 with h0
    exact (hf x hx).ne' h0
  obtain ⟨g, h1, h2, h3, h4, h5⟩ := Graph.buildGridDict_spec_partial N (matrixOf Link.dist L) (matrixOf Link.perp L) (hsym _) (hsym _) (by
    intro i _ j _
    constructor
    · intro h
      obtain ⟨x, hx, h⟩ := hnz _ i j h
      exact (hent Link.perp (fun x hx => (H.pos x hx).2) x hx i j h).2
    · intro h
      obtain ⟨x, hx, h⟩ := hnz _ i j h
      exact (hent Link.dist (fun x hx => (H.pos x hx).1) x hx i j h).2)
  -- an edge and a link with these ends
  have hboth : ∀ x ∈ L, g.edges.count x.ends + g.edges.count x.ends.swap = 1 := by
    intro x hx
    obtain ⟨a, b⟩ := H.within x hx
    have := h3 x.ends.1 x.ends.2 a b (hent Link.dist (fun x hx => (H.pos x hx).1) x hx _ _ (.inl rfl)).2
    rwa [Graph.joins_count (H.proper x hx)] at this
  have hlink : ∀ ab ∈ g.edges, ∃ x ∈ L, x.ends = ab ∨ x.ends = ab.swap := by
    intro ab h
    exact hnz _ _ _ (h2 ab h).2.2
  have hnd : g.edges.Nodup := by
    rw [List.nodup_iff_count_le_one]
    intro ab
    by_cases h : ab ∈ g.edges
    · obtain ⟨x, hx, e⟩ := hlink ab h
      have := hboth x hx
      rcases e with e | e <;> rw [e] at this
      · omega
      · rw [Prod.swap_swap] at this; omega
    · rw [List.count_eq_zero_of_not_mem h]; omega
  have hturn : ∀ x ∈ L, (turned g.edges x).ends ∈ g.edges ∧ ((turned g.edges x).ends = x.ends ∨ (turned g.edges x).ends = x.ends.swap) ∧
      (turned g.edges x).dist = x.dist ∧ (turned g.edges x).perp = x.perp := by
    intro x hx
    unfold turned
    split
    · rename_i h; exact ⟨h, .inl rfl, rfl, rfl⟩
    · rename_i h
      refine ⟨?_, .inr rfl, rfl, rfl⟩
      have := hboth x hx
      rw [List.count_eq_zero_of_not_mem h] at this
      exact List.count_pos_iff.1 (show 0 < g.edges.count x.ends.swap by omega)
  refine ⟨g, g.edges.map fun ab => ⟨ab, Graph.toGraph (L.map fun x => (x.ends, x.dist)) ab.1 ab.2, Graph.toGraph (L.map fun x => (x.ends, x.perp)) ab.1 ab.2⟩, h1, ?_,
    L.map (turned g.edges), ?_, ?_⟩
  · unfold gridOf
    rw [h4, h5]
    simp only [List.map_map, Function.comp_def, List.map_id']
    rfl
  · rw [List.forall₂_map_right_iff, List.forall₂_same]
    intro x hx
    obtain ⟨-, a, b, c⟩ := hturn x hx
    exact ⟨b, c, a⟩
  · rw [List.perm_ext_iff_of_nodup]
    · intro y
      rw [List.mem_map, List.mem_map]
      have key : ∀ x ∈ L, (⟨(turned g.edges x).ends, Graph.toGraph (L.map fun x => (x.ends, x.dist)) (turned g.edges x).ends.1 (turned g.edges x).ends.2,
          Graph.toGraph (L.map fun x => (x.ends, x.perp)) (turned g.edges x).ends.1 (turned g.edges x).ends.2⟩ : Link) = turned g.edges x := by
        intro x hx
        obtain ⟨-, a, b, c⟩ := hturn x hx
        have hor : x.ends = ((turned g.edges x).ends.1, (turned g.edges x).ends.2) ∨ x.ends = ((turned g.edges x).ends.2, (turned g.edges x).ends.1) := by
          rcases a with a | a
          · exact .inl a.symm
          · right; rw [a]; rfl
        rw [(hent Link.dist (fun x hx => (H.pos x hx).1) x hx _ _ hor).1, (hent Link.perp (fun x hx => (H.pos x hx).2) x hx _ _ hor).1, ← b, ← c]
      constructor
      · rintro ⟨x, hx, rfl⟩
        exact ⟨_, (hturn x hx).1, key x hx⟩
      · rintro ⟨ab, hab, rfl⟩
        obtain ⟨x, hx, e⟩ := hlink ab hab
        refine ⟨x, hx, ?_⟩
        have et : (turned g.edges x).ends = ab := by
          rcases e with e | e
          · unfold turned; rw [if_pos (by rw [e]; exact hab)]; exact e
          · have h0 := hboth x hx
            rw [e, Prod.swap_swap] at h0
            have h1 : 0 < g.edges.count ab := List.count_pos_iff.2 hab
            have h2 : x.ends ∉ g.edges := by
              intro h
              have : 0 < g.edges.count ab.swap := List.count_pos_iff.2 (by rw [← e]; exact h)
              omega
            unfold turned
            rw [if_neg h2]
            show x.ends.swap = ab
            rw [e, Prod.swap_swap]
        have := key x hx
        rw [et] at this
        exact this.symm
    · refine List.Pairwise.map _ ?_ (List.Pairwise.and_mem.1 H.single)
      rintro x y ⟨hx, hy, h1, h2⟩ e
      obtain ⟨-, a, -⟩ := hturn x hx
      obtain ⟨-, b, -⟩ := hturn y hy
      rw [e] at a
      rcases a with a | a <;> rcases b with b | b
      · exact h1 (a.symm.trans b)
      · exact h2 (a.symm.trans b)
      · have := a.symm.trans b
        exact h2 (by rw [← this, Prod.swap_swap])
      · have := congrArg Prod.swap (a.symm.trans b)
        rw [Prod.swap_swap, Prod.swap_swap] at this
        exact h1 this
    · exact hnd.map (fun x y e => congrArg Link.ends e)

/-- a call on a grid is one on a grid of the same links, in any order and direction -/
theorem Call.relink {o : Opts (Fl ℝ)} {dims : Option (List String)} {coord : String → Option (List ℚ)} {S T : Nd (Fl ℝ)} {P : PArg (Fl ℝ)}
    {v : ℕ} {pr : List ℕ → ℕ → Fl ℝ} {L L₂ L' : List Link} {pc : PinCast} {m0 : List ℕ} {p0 : ℝ} {e : ℝ → ℝ → ℝ → ℝ} {smin tol : ℝ} {n : ℕ} {b : List ℕ → ℕ → ℝ}
    (C : Call o dims coord S T P v pr L pc m0 p0 e smin tol n b) (h : List.Forall₂ (SameLink fun k => k) L L₂) (hp : L₂.Perm L') :
    Call o dims coord S T P v pr L' pc m0 p0 e smin tol n b := by
  have hm : ∀ {A B : List Link}, List.Forall₂ (SameLink fun k => k) A B → ∀ y ∈ B, ∃ x ∈ A, SameLink (fun k => k) x y := by
    intro A B hAB
    induction hAB with
    | nil => intro y hy; simp at hy
    | cons hd _ ih =>
      intro y hy
      rcases List.mem_cons.1 hy with rfl | hy
      · exact ⟨_, List.mem_cons_self, hd⟩
      · obtain ⟨x, hx, h⟩ := ih y hy
        exact ⟨x, List.mem_cons_of_mem _ hx, h⟩
  refine Call.reorder (L := L₂) ?_ hp
  refine { C with within := ?_, dist := ?_, solver := ?_ }
  · intro y hy
    obtain ⟨x, hx, -, -, h⟩ := hm h y hy
    have := C.within x hx
    rcases h with h | h <;> rw [h]
    · exact this
    · exact ⟨this.2, this.1⟩
  · intro y hy
    obtain ⟨x, hx, h, -, -⟩ := hm h y hy
    rw [h]; exact C.dist x hx
  · obtain ⟨w, hw, h1, h2⟩ := C.solver
    refine ⟨w, hw, fun y hy => ?_, h2⟩
    obtain ⟨x, hx, h, h', -⟩ := hm h y hy
    rw [h, h']; exact h1 x hx

/-- **C189** `omega_surf` on the grid that `build_grid` makes of the matrices that `edges_to_graph` made of a grid returns the surface that it returns on the grid itself. -/
theorem omegaSurf_graph_round {o : Opts (Fl ℝ)} {dims : Option (List String)} {coord : String → Option (List ℚ)} {S T : Nd (Fl ℝ)}
    {P : PArg (Fl ℝ)} {v : ℕ} {pr : List ℕ → ℕ → Fl ℝ} {L : List Link} {pc : PinCast} {m0 : List ℕ} {p0 : ℝ}
    {e : ℝ → ℝ → ℝ → ℝ} {smin tol : ℝ} {n : ℕ} {b : List ℕ → ℕ → ℝ} {p : Nd (Fl ℝ)}
    (C : Call o dims coord S T P v pr L pc m0 p0 e smin tol n b) (H : Simple (S.shape.eraseIdx v).prod L) (hwet : o.iterMax < o.startWet) (hx : Exact o)
    (hpml : ∀ x, o.pml = some x → x.shape = S.shape.eraseIdx v) (hp : p.shape = S.shape.eraseIdx v) (hp0 : p.get m0 = fin p0) :
    ∃ g out out' st st', Graph.buildGridDict (S.shape.eraseIdx v).prod (matrixOf Link.dist L) (matrixOf Link.perp L) = .ok g ∧
      omegaSurf o dims coord S T P (gridOf L) pc (.array p) = .ok (S.shape.eraseIdx v, out, st) ∧
      omegaSurf o dims coord S T P ⟨g.edges, some g.dist, some g.distperp⟩ pc (.array p) = .ok (S.shape.eraseIdx v, out', st') ∧
      (∀ m, Valid (S.shape.eraseIdx v) m → out' m = out m) ∧ st'.last = st.last := by
  obtain ⟨g, L', e1, e2, L₂, h1, h2⟩ := graph_round H
  have hk : ∀ k < (S.shape.eraseIdx v).prod, ravel (S.shape.eraseIdx v) (unravel (S.shape.eraseIdx v) k) = k := fun k hk => (valid_unravel hk).2
  have hL : SameLinks (S.shape.eraseIdx v) (S.shape.eraseIdx v) (fun m => m) L L' := by
    refine ⟨L₂, ?_, h2⟩
    have hw := H.within
    clear h2 e1 e2 C H
    induction h1 with
    | nil => exact .nil
    | @cons x y A B hd _ ih =>
      refine .cons ?_ (ih fun z hz => hw z (List.mem_cons_of_mem _ hz))
      obtain ⟨a, b⟩ := hw x List.mem_cons_self
      unfold SameLink at hd ⊢
      simp only [hk _ a, hk _ b]
      exact hd
  obtain ⟨out, out', st, st', r1, r2, r3, r4⟩ := omegaSurf_relabel (σ := fun m => m) (τ := fun m => m) ⟨fun _ h => h, fun _ h => h, fun _ _ => rfl, fun _ _ => rfl, rfl⟩ C
    (C.relink h1 h2) (p := p) (p' := p) {
      casts := fun _ _ => rfl
      opts := ⟨rfl, rfl, rfl, rfl, rfl, rfl, rfl, rfl, rfl, hwet, hwet⟩
      pml := by
        cases hh : o.pml with
        | none => trivial
        | some x => exact ⟨hpml x hh, hpml x hh, fun _ _ => rfl⟩
      exact := hx
      exact' := hx
      shape := hp
      shape' := hp
      pin := hp0
      init := fun _ _ => rfl } hL
  rw [← e2] at r2
  exact ⟨g, out, out', st, st', e1, r1, r2, r3, r4⟩

/-- **C189** Rectilinear grids are such grids, unless a periodic dimension has fewer than three casts. -/
theorem rect_simple_links {ni nj : ℕ} {p0 p1 : Bool} (h0 : p0 = true → 3 ≤ ni) (h1 : p1 = true → 3 ≤ nj) {x y yg xg : ℕ → ℕ → ℝ}
    (hpos : ∀ i < ni, ∀ j < nj, 0 < x i j ∧ 0 < y i j ∧ 0 < yg i j ∧ 0 < xg i j) : Simple (ni * nj) (rectLinks ni nj p0 p1 x y yg xg) := by
  obtain ⟨hn, hr⟩ := Grid.rect_simple ni nj p0 p1 h0 h1
  have he : (rectLinks ni nj p0 p1 x y yg xg).map Link.ends = Grid.rectEdges ni nj p0 p1 := by
    rw [Grid.rectEdges_eq]; unfold rectLinks; simp only [List.map_append, flat_map]
  have hin : ∀ l ∈ rectLinks ni nj p0 p1 x y yg xg, l.ends ∈ Grid.rectEdges ni nj p0 p1 := fun l hl => by rw [← he]; exact List.mem_map_of_mem hl
  have ho : ∀ p, Grid.off p ≤ 1 := by intro p; cases p <;> decide
  refine ⟨?_, ?_, ?_, ?_⟩
  · intro l hl
    have hlt : ∀ i < ni, ∀ j < nj, Grid.cell nj i j < ni * nj := by
      intro i hi j hj
      unfold Grid.cell
      calc i * nj + j < i * nj + nj := by omega
        _ = (i + 1) * nj := by ring
        _ ≤ ni * nj := Nat.mul_le_mul_right _ hi
    obtain ⟨i, j, hi, hj, ha, hb⟩ := (Grid.rect_mem ni nj p0 p1 l.ends.1 l.ends.2).1 (hin l hl)
    rw [ha]
    refine ⟨hlt i hi j hj, ?_⟩
    rcases hb with ⟨i', h, hb⟩ | ⟨j', h, hb⟩ <;> rw [hb]
    · exact hlt i' (Grid.before_lt h) j hj
    · exact hlt i hi j' (Grid.before_lt h)
  · intro l hl
    exact (hr _ _ (hin l hl)).1
  · intro l hl
    unfold rectLinks at hl
    rcases List.mem_append.1 hl with hl | hl
    · obtain ⟨i, hi, j, hj, rfl⟩ := (Grid.mem_flat _ _ _ _).1 hl
      obtain ⟨a, -, b, -⟩ := hpos (i + Grid.off p0) (by omega) j hj
      exact ⟨a, b⟩
    · obtain ⟨i, hi, j, hj, rfl⟩ := (Grid.mem_flat _ _ _ _).1 hl
      obtain ⟨-, a, -, b⟩ := hpos i hi (j + Grid.off p1) (by omega)
      exact ⟨a, b⟩
  · rw [← he] at hn
    have := (List.Pairwise.and_mem.1 (List.pairwise_map.1 hn))
    refine this.imp ?_
    rintro a b ⟨ha, hb, h⟩
    refine ⟨h, fun e => ?_⟩
    have h2 := (hr _ _ (hin b hb)).2
    apply h2
    have := hin a ha
    rw [e] at this
    exact this

/-- the four casts of `sq_call` on the grid itself and on the grid that went through matrices -/
example : ∃ spsolve lsqr g out out' st st',
    Graph.buildGridDict 4 (matrixOf Link.dist (rectLinks 2 2 false false (fun _ _ => 1) (fun _ _ => 2) (fun _ _ => 6) (fun _ _ => 6)))
      (matrixOf Link.perp (rectLinks 2 2 false false (fun _ _ => 1) (fun _ _ => 2) (fun _ _ => 6) (fun _ _ => 6))) = .ok g ∧
    omegaSurf (ringO "poisson" spsolve lsqr) none (fun _ => none) sqS sqT (.small 5 exCast.P.get)
      (gridOf (rectLinks 2 2 false false (fun _ _ => 1) (fun _ _ => 2) (fun _ _ => 6) (fun _ _ => 6))) (.tuple [0, 1])
      (.array ⟨[2, 2], fun m => fin (if m = [0, 0] then 2 else 1)⟩) = .ok ([2, 2], out, st) ∧
    omegaSurf (ringO "poisson" spsolve lsqr) none (fun _ => none) sqS sqT (.small 5 exCast.P.get) ⟨g.edges, some g.dist, some g.distperp⟩ (.tuple [0, 1])
      (.array ⟨[2, 2], fun m => fin (if m = [0, 0] then 2 else 1)⟩) = .ok ([2, 2], out', st') ∧
    out' [0, 0] = out [0, 0] ∧ out' [1, 0] = out [1, 0] := by
  obtain ⟨⟨spsolve, hs⟩, ⟨lsqr, hl⟩⟩ := OmegaMat.exact_solvers_exist (α := ℝ)
  have C := sq_call (S := sqS) (T := sqT) (m0 := [0, 1]) (.inl ⟨rfl, rfl⟩) (valid_pair (by norm_num) (by norm_num)) (by
    intro m hm
    refine ⟨decide (m = [1, 1]), ?_, ?_⟩
    · rintro rfl; rfl
    · unfold castAt sqS sqT; simp; rfl) (f := "poisson") (spsolve := spsolve) (lsqr := lsqr)
    (.inl ⟨by show "poisson".toLower = _; decide +kernel, 0, le_rfl, hs.near, rfl⟩)
  obtain ⟨g, out, out', st, st', e1, r1, r2, r3, -⟩ := omegaSurf_graph_round (p := ⟨[2, 2], fun m => fin (if m = [0, 0] then 2 else 1)⟩) C
    (rect_simple_links (ni := 2) (nj := 2) (by simp) (by simp) (fun _ _ _ _ => by norm_num)) (by show 10 < 11; norm_num)
    (.inl ⟨by show "poisson".toLower = _; decide +kernel, hs⟩) (by intro x h; cases h) rfl (by simp)
  exact ⟨spsolve, lsqr, g, out, out', st, st', e1, r1, r2, r3 [0, 0] (valid_pair (by norm_num) (by norm_num)), r3 [1, 0] (valid_pair (by norm_num) (by norm_num))⟩

end Omega
