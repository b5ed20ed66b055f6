import Verif.Props.Omega
import Verif.Props.Ntp
import Mathlib.Data.List.Forall2
import Mathlib.Logic.Equiv.Basic

/-!
# Numbering of the casts, order and direction of the edges do not matter (C136)

Two descriptions of the same ocean are compared: the casts are renumbered by a permutation `π`, the neighbours of a cast may be listed in
another order, the edges may be listed in another order and each may be given from either end, and one problem may be solved in the
Poisson formulation and the other in the gradient formulation.  Exact arithmetic, exact solvers, no wetting (which does depend on
the order of neighbours, C31).
-/

namespace OmegaMat
open FloatLike
open Fl hiding nan

set_option linter.unusedSectionVars false

variable {α : Type*} [Field α] [LinearOrder α] [IsStrictOrderedRing α]

/-- `y` is the edge `x` with renumbered ends, possibly turned around. -/
def SameEdge (π : ℕ → ℕ) (x y : (ℕ × ℕ) × α) : Prop :=
  y = ((π x.1.1, π x.1.2), x.2) ∨ y = ((π x.1.2, π x.1.1), x.2)

/-- `E'` lists the renumbered edges of `E`, in any order. -/
def SameEdges (π : ℕ → ℕ) (E E' : List ((ℕ × ℕ) × α)) : Prop := ∃ E₂, List.Forall₂ (SameEdge π) E E₂ ∧ E₂.Perm E'

/-- The net flow of corrected error out of a cast along an edge of the region. -/
def flow (m : List ℕ) (ε : ℕ × ℕ → α) (φ : ℕ → α) (n : ℕ) (x : (ℕ × ℕ) × α) : α :=
  if x.1.1 ∈ m ∧ x.1.2 ∈ m then
    (if x.1.1 = n then x.2 * corr ε φ x.1 else 0) - (if x.1.2 = n then x.2 * corr ε φ x.1 else 0)
  else 0

theorem balanced_flow {E : List ((ℕ × ℕ) × α)} {m : List ℕ} {ε : ℕ × ℕ → α} {φ : ℕ → α} :
    Balanced E m ε φ ↔ ∀ n ∈ m, (E.map (flow m ε φ n)).sum = 0 := by
  have key : ∀ n, (E.map (flow m ε φ n)).sum = ((inner E m).map fun x => if x.1.1 = n then x.2 * corr ε φ x.1 else 0).sum -
      ((inner E m).map fun x => if x.1.2 = n then x.2 * corr ε φ x.1 else 0).sum := by
    intro n
    unfold inner
    induction E with
    | nil => simp
    | cons x E ih =>
      rw [List.map_cons, List.sum_cons, ih, List.filter_cons]
      by_cases h : x.1.1 ∈ m ∧ x.1.2 ∈ m
      · rw [if_pos (by simpa using h), List.map_cons, List.map_cons, List.sum_cons, List.sum_cons]
        unfold flow
        rw [if_pos h]; ring
      · rw [if_neg (by simpa using h)]
        unfold flow
        rw [if_neg h]; ring
  unfold Balanced
  refine forall_congr' fun n => forall_congr' fun _ => ?_
  rw [key, sub_eq_zero]

/-- The errors of the renumbered problem are the errors of the original one, with opposite sign on edges turned around. -/
def SameErrors (π : ℕ → ℕ) (E : List ((ℕ × ℕ) × α)) (m : List ℕ) (ε ε' : ℕ × ℕ → α) : Prop :=
  ∀ x ∈ inner E m, ε' (π x.1.1, π x.1.2) = ε x.1 ∧ ε' (π x.1.2, π x.1.1) = -ε x.1

theorem mem_inner_iff {E : List ((ℕ × ℕ) × α)} {m : List ℕ} {x : (ℕ × ℕ) × α} : x ∈ inner E m ↔ x ∈ E ∧ x.1.1 ∈ m ∧ x.1.2 ∈ m := by
  unfold inner; rw [List.mem_filter, decide_eq_true_iff]

theorem balanced_relabel {π : ℕ → ℕ} (hπ : Function.Injective π) {E E' : List ((ℕ × ℕ) × α)} (hE : SameEdges π E E') {m m' : List ℕ}
    (hm : ∀ n, n ∈ m ↔ π n ∈ m') (hm' : ∀ n ∈ m', ∃ k, π k = n) {ε ε' : ℕ × ℕ → α} (hε : SameErrors π E m ε ε') {φ φ' : ℕ → α} (hφ : ∀ n, φ' (π n) = φ n) :
    Balanced E m ε φ ↔ Balanced E' m' ε' φ' := by
  obtain ⟨E₂, h1, h2⟩ := hE
  have key : ∀ n, (E.map (flow m ε φ n)).sum = (E'.map (flow m' ε' φ' (π n))).sum := by
    intro n
    rw [← (h2.map _).sum_eq]
    congr 1
    have gen : ∀ (A B : List ((ℕ × ℕ) × α)), List.Forall₂ (SameEdge π) A B → (∀ x ∈ A, x ∈ E) →
        A.map (flow m ε φ n) = B.map (flow m' ε' φ' (π n)) := by
      intro A B h
      induction h with
      | nil => intro _; rfl
      | @cons x y A B hxy _ ih =>
        intro hA
        rw [List.map_cons, List.map_cons, ih fun z hz => hA z (List.mem_cons_of_mem _ hz)]
        congr 1
        have hx := hA x List.mem_cons_self
        by_cases hin : x.1.1 ∈ m ∧ x.1.2 ∈ m
        · obtain ⟨e1, e2⟩ := hε x (mem_inner_iff.2 ⟨hx, hin⟩)
          have i1 := (hm _).1 hin.1
          have i2 := (hm _).1 hin.2
          rcases hxy with rfl | rfl
          · unfold flow corr
            simp only [hin, i1, i2, and_self, if_true, hπ.eq_iff, e1, hφ]
          · unfold flow corr
            simp only [hin, i1, i2, and_self, if_true, hπ.eq_iff, e2, hφ]
            by_cases a1 : x.1.1 = n <;> by_cases a2 : x.1.2 = n <;> simp only [a1, a2, if_true, if_false] <;> ring
        · have hin' : ¬ (π x.1.1 ∈ m' ∧ π x.1.2 ∈ m') := by rw [← hm, ← hm]; exact hin
          have hin'' : ¬ (π x.1.2 ∈ m' ∧ π x.1.1 ∈ m') := fun h => hin' ⟨h.2, h.1⟩
          unfold flow
          rw [if_neg hin]
          rcases hxy with rfl | rfl
          · rw [if_neg hin']
          · rw [if_neg hin'']
    exact gen E E₂ h1 fun _ h => h
  rw [balanced_flow, balanced_flow]
  constructor
  · intro h n hn
    obtain ⟨k, rfl⟩ := hm' n hn
    rw [← key]; exact h k ((hm k).2 hn)
  · intro h n hn
    rw [key]; exact h _ ((hm n).1 hn)

theorem SameEdges.mem {π : ℕ → ℕ} {E E' : List ((ℕ × ℕ) × α)} (h : SameEdges π E E') :
    (∀ x ∈ E, ∃ y ∈ E', SameEdge π x y) ∧ (∀ y ∈ E', ∃ x ∈ E, SameEdge π x y) := by
  obtain ⟨E₂, h1, h2⟩ := h
  constructor
  · intro x hx
    have : ∃ y ∈ E₂, SameEdge π x y := by
      clear h2
      induction h1 with
      | nil => cases hx
      | cons a _ ih =>
        rcases List.mem_cons.1 hx with rfl | hx
        · exact ⟨_, List.mem_cons_self, a⟩
        · obtain ⟨y, hy, e⟩ := ih hx
          exact ⟨y, List.mem_cons_of_mem _ hy, e⟩
    obtain ⟨y, hy, e⟩ := this
    exact ⟨y, h2.mem_iff.1 hy, e⟩
  · intro y hy
    have hy := h2.mem_iff.2 hy
    clear h2
    induction h1 with
    | nil => cases hy
    | cons a _ ih =>
      rcases List.mem_cons.1 hy with rfl | hy
      · exact ⟨_, List.mem_cons_self, a⟩
      · obtain ⟨x, hx, e⟩ := ih hy
        exact ⟨x, List.mem_cons_of_mem _ hx, e⟩

/-- The number in a finite value. -/
def num : Fl α → α
  | .fin x => x
  | _ => 0

/-- A region on which the problem is posed stays one under renumbering. -/
theorem Region.relabel {π : ℕ → ℕ} (hπ : Function.Injective π) {E E' : List ((ℕ × ℕ) × α)} (hE : SameEdges π E E') {m m' : List ℕ}
    (hm : ∀ n, n ∈ m ↔ π n ∈ m') (hm' : ∀ n ∈ m', ∃ k, π k = n) (hn : m'.Nodup) {mref : ℕ} {eos : Ntp.EosST (Fl α)}
    {s t p s' t' p' : ℕ → Fl α} (hs : ∀ n ∈ m, s' (π n) = s n) (ht : ∀ n ∈ m, t' (π n) = t n) (hp : ∀ n ∈ m, p' (π n) = p n)
    {ε : ℕ × ℕ → α} (H : Region E m mref eos s t p ε) :
    ∃ ε', Region E' m' (π mref) eos s' t' p' ε' ∧ SameErrors π E m ε ε' := by
  have hsame : SameErrors π E m ε (fun y => num (Ntp.epsErr eos s' t' p' y)) := by
    intro x hx
    obtain ⟨_, h1, h2⟩ := mem_inner hx
    have e := H.err x hx
    have e1 : Ntp.epsErr eos s' t' p' (π x.1.1, π x.1.2) = .fin (ε x.1) := by
      rw [← e]; unfold Ntp.epsErr; simp only [hs _ h1, hs _ h2, ht _ h1, ht _ h2, hp _ h1, hp _ h2]
    dsimp only
    refine ⟨by rw [e1]; rfl, ?_⟩
    rw [Ntp.epsErr_reverse, e1]; rfl
  refine ⟨_, ⟨hn, (hm _).1 H.ref, ?_, ?_, ?_, ?_⟩, hsame⟩
  · have : (m.map π).Nodup := H.nodup.map hπ
    have hsub : m.map π ⊆ m' := by
      intro y hy
      obtain ⟨n, hn, rfl⟩ := List.mem_map.1 hy
      exact (hm n).1 hn
    have := (List.subperm_of_subset this hsub).length_le
    rw [List.length_map] at this
    exact H.two.trans this
  · intro y hy
    obtain ⟨h1, h2, h3⟩ := mem_inner hy
    obtain ⟨x, hx, rfl | rfl⟩ := hE.mem.2 y h1
    · exact H.pos x (mem_inner_iff.2 ⟨hx, (hm _).2 h2, (hm _).2 h3⟩)
    · exact H.pos x (mem_inner_iff.2 ⟨hx, (hm _).2 h3, (hm _).2 h2⟩)
  · intro n hn'
    obtain ⟨k, rfl⟩ := hm' n hn'
    have := H.conn k ((hm k).2 hn')
    clear hn'
    induction this with
    | refl => exact .refl
    | @tail a b _ hab ih =>
      refine ih.tail ?_
      obtain ⟨j1, j2, x, hx, hj⟩ := hab
      refine ⟨(hm _).1 j1, (hm _).1 j2, ?_⟩
      obtain ⟨y, hy, hxy⟩ := hE.mem.1 x hx
      refine ⟨y, hy, ?_⟩
      rcases hj with hj | hj <;> rcases hxy with rfl | rfl <;> simp [hj]
  · intro y hy
    obtain ⟨h1, h2, h3⟩ := mem_inner hy
    obtain ⟨x, hx, rfl | rfl⟩ := hE.mem.2 y h1
    · have hin := mem_inner_iff.2 ⟨hx, (hm _).2 h2, (hm _).2 h3⟩
      have e := H.err x hin
      have : Ntp.epsErr eos s' t' p' (π x.1.1, π x.1.2) = .fin (ε x.1) := by
        rw [← e]; unfold Ntp.epsErr; simp only [hs _ ((hm _).2 h2), hs _ ((hm _).2 h3), ht _ ((hm _).2 h2), ht _ ((hm _).2 h3), hp _ ((hm _).2 h2), hp _ ((hm _).2 h3)]
      dsimp only
      rw [this]; rfl
    · have hin := mem_inner_iff.2 ⟨hx, (hm _).2 h3, (hm _).2 h2⟩
      have e := H.err x hin
      have : Ntp.epsErr eos s' t' p' (π x.1.1, π x.1.2) = .fin (ε x.1) := by
        rw [← e]; unfold Ntp.epsErr; simp only [hs _ ((hm _).2 h2), hs _ ((hm _).2 h3), ht _ ((hm _).2 h2), ht _ ((hm _).2 h3), hp _ ((hm _).2 h2), hp _ ((hm _).2 h3)]
      dsimp only
      rw [Ntp.epsErr_reverse, this]; rfl

/-- Specification of a global solver for the edges `E` with their weights: on a region on which the problem is posed it gives the solution of the
Poisson equation that vanishes at the reference cast, NaN elsewhere; on a single cast it gives 0 there. -/
structure Solver (E : List ((ℕ × ℕ) × α)) (eos : Ntp.EosST (Fl α))
    (solver : (ℕ → Fl α) → (ℕ → Fl α) → (ℕ → Fl α) → List ℕ → ℕ → Res (ℕ → Fl α)) : Prop where
  posed : ∀ s t p m r ε, Region E m r eos s t p ε → ∃ φ : ℕ → α,
    solver s t p m r = .ok (fun n => if n ∈ m then .fin (φ n) else nan) ∧ φ r = 0 ∧ Balanced E m ε φ
  single : ∀ s t p r, solver s t p [r] r = .ok (fun n => if n = r then lit 0 else nan)

theorem poisson_solver (E : List ((ℕ × ℕ) × α)) (eos : Ntp.EosST (Fl α))
    {spsolve : ℕ → (ℕ → ℕ → Fl α) → (ℕ → Fl α) → ℕ → Fl α} (hs : ExactSolve spsolve) :
    Solver E eos fun s t p m r => poisson spsolve eos s t p (E.map Prod.fst) (.arr (E.map fun x => .fin x.2)) m r := by
  constructor
  · intro s t p m r ε H
    obtain ⟨φ, h1, h2, h3, _⟩ := poisson_spec H hs
    exact ⟨φ, h1, h2, h3⟩
  · intro s t p r
    unfold poisson
    rw [if_pos (by simp)]
    dsimp only
    congr 1
    funext n
    by_cases h : n = r
    · subst h; simp
    · rw [Function.update_of_ne h, if_neg h]

theorem gradient_solver (V : List ((ℕ × ℕ) × α)) (eos : Ntp.EosST (Fl α))
    {lsqr : ℕ → ℕ → (ℕ → ℕ → Fl α) → (ℕ → Fl α) → ℕ → Fl α} (hl : ExactLsqr lsqr) :
    Solver (squared V) eos fun s t p m r => gradient lsqr eos s t p (V.map Prod.fst) (.arr (V.map fun x => .fin x.2)) m r := by
  obtain ⟨⟨spsolve, hs⟩, _⟩ := exact_solvers_exist (α := α)
  constructor
  · intro s t p m r ε H
    obtain ⟨φ, h1, h2, h3, _⟩ := poisson_spec H hs
    refine ⟨φ, ?_, h2, h3⟩
    rw [gradient_eq_poisson V H hs hl, ← h1]
    unfold squared
    rw [List.map_map, List.map_map]; rfl
  · intro s t p r
    unfold gradient
    rw [if_pos (by simp)]
    dsimp only
    congr 1
    funext n
    by_cases h : n = r
    · subst h; simp
    · rw [Function.update_of_ne h, if_neg h]

/-- **C136** The matrix problem: renumbering the casts, listing the edges in another order, turning edges around and exchanging the
formulations renumbers the correction and does not change it otherwise. -/
theorem solver_relabel {π : ℕ → ℕ} (hπ : Function.Injective π) {E E' : List ((ℕ × ℕ) × α)} (hE : SameEdges π E E') {m m' : List ℕ}
    (hm : ∀ n, n ∈ m ↔ π n ∈ m') (hm' : ∀ n ∈ m', ∃ k, π k = n) (hn : m'.Nodup) {mref : ℕ} {eos : Ntp.EosST (Fl α)}
    {s t p s' t' p' : ℕ → Fl α} (hs : ∀ n ∈ m, s' (π n) = s n) (ht : ∀ n ∈ m, t' (π n) = t n) (hp : ∀ n ∈ m, p' (π n) = p n)
    {ε : ℕ × ℕ → α} (H : Region E m mref eos s t p ε)
    {f f' : (ℕ → Fl α) → (ℕ → Fl α) → (ℕ → Fl α) → List ℕ → ℕ → Res (ℕ → Fl α)} (hf : Solver E eos f) (hf' : Solver E' eos f') :
    ∃ φ φ', f s t p m mref = .ok φ ∧ f' s' t' p' m' (π mref) = .ok φ' ∧ ∀ n, φ' (π n) = φ n := by
  obtain ⟨ε', H', hε⟩ := H.relabel hπ hE hm hm' hn hs ht hp
  obtain ⟨φ, a1, a2, a3⟩ := hf.posed _ _ _ _ _ _ H
  obtain ⟨φ', b1, b2, b3⟩ := hf'.posed _ _ _ _ _ _ H'
  refine ⟨_, _, a1, b1, ?_⟩
  obtain ⟨ψ, _, _, _, hu⟩ := balanced_unique H
  have hb : Balanced E m ε fun n => φ' (π n) := (balanced_relabel hπ hE hm hm' hε (fun _ => rfl)).2 b3
  intro n
  by_cases hmem : n ∈ m
  · rw [if_pos hmem, if_pos ((hm n).1 hmem), hu _ a3 a2 n hmem, ← hu (fun n => φ' (π n)) hb b2 n hmem]
  · rw [if_neg hmem, if_neg fun h => hmem ((hm n).2 h)]

end OmegaMat

namespace Omega
open FloatLike Fzero Interp Traj VertSolve Bfs
open Fl hiding nan

set_option linter.unusedSectionVars false

variable {α : Type*} [Field α] [LinearOrder α] [IsStrictOrderedRing α]

/-- `c'` describes the same ocean and the same options as `c` with the casts renumbered by `π`; neighbours may be listed in another
order.  No wetting. -/
structure Renumbered (π : Equiv.Perm ℕ) (c c' : Cfg (Fl α)) : Prop where
  N : c'.N = c.N
  range : ∀ n, π n < c.N ↔ n < c.N
  pin : c'.pin = π c.pin
  casts : ∀ n < c.N, c'.casts (π n) = c.casts n
  nbrs : ∀ a < c.N, ∀ b, π b ∈ c'.G.nbrs (π a) ↔ b ∈ c.G.nbrs a
  pml : ∀ n < c.N, c'.pml (π n) = c.pml n
  kind : c'.kind = c.kind
  eos : c'.eos = c.eos
  sqrt : c'.sqrt = c.sqrt
  tol : c'.tol = c.tol
  tolPhi : c'.tolPhi = c.tolPhi
  tolP : c'.tolP = c.tolP
  diags : c'.diags = c.diags
  iterMin : c'.iterMin = c.iterMin
  iterMax : c'.iterMax = c.iterMax
  fuel : c'.fuel = c.fuel
  noWet : c.iterMax < c.startWet
  noWet' : c.iterMax < c'.startWet

/-- The surface `stp'` is `stp` renumbered. -/
def SameSurf (π : Equiv.Perm ℕ) (N : ℕ) (stp stp' : Surf (Fl α)) : Prop := ∀ n < N, stp' (π n) = stp n

/-- The matrix problem of a pass is posed: finite errors and positive weights on the edges of the region, which are those of the graph; or
the region is just the pinning cast. -/
def Posed (E : List ((ℕ × ℕ) × α)) (eosST : Ntp.EosST (Fl α)) (pin : ℕ) (r : Iter (Fl α)) : Prop :=
  r.qu = [pin] ∨ ∃ ε, OmegaMat.Region E r.qu pin eosST (fun n => (r.old n).1) (fun n => (r.old n).2.1) (fun n => (r.old n).2.2) ε

theorem reach_relabel {π : Equiv.Perm ℕ} {c c' : Cfg (Fl α)} (H : Renumbered π c c') (C : Ok c) {good good' : ℕ → Bool}
    (hg : ∀ n < c.N, good' (π n) = good n) (n : ℕ) : Reach c'.G good' c'.pin (π n) ↔ Reach c.G good c.pin n := by
  constructor
  · rintro ⟨k, w⟩
    have : ∀ k v, Walk c'.G good' c'.pin k v → (π.symm v) < c.N ∧ Walk c.G good c.pin k (π.symm v) := by
      intro k v w
      induction w with
      | root h =>
        rw [H.pin, Equiv.symm_apply_apply]
        rw [H.pin, hg _ C.pin] at h
        exact ⟨C.pin, .root h⟩
      | @step k m v _ hv hgv ih =>
        obtain ⟨i1, i2⟩ := ih
        have hm : v ∈ c'.G.nbrs (π (π.symm m)) := by rwa [Equiv.apply_symm_apply]
        have hv' : π.symm v ∈ c.G.nbrs (π.symm m) := by
          rw [← H.nbrs _ i1, Equiv.apply_symm_apply π v]; exact hm
        have hlt := C.graph _ i1 _ hv'
        refine ⟨hlt, .step i2 hv' ?_⟩
        rw [← hg _ hlt, Equiv.apply_symm_apply]; exact hgv
    have := (this k _ w).2
    rw [Equiv.symm_apply_apply] at this
    exact ⟨k, this⟩
  · rintro ⟨k, w⟩
    have : n < c.N ∧ Walk c'.G good' c'.pin k (π n) := by
      induction w with
      | root h =>
        refine ⟨C.pin, ?_⟩
        rw [← H.pin]
        refine .root ?_
        rw [H.pin, hg _ C.pin]; exact h
      | @step k m v _ hv hgv ih =>
        obtain ⟨i1, i2⟩ := ih
        have hlt := C.graph _ i1 _ hv
        exact ⟨hlt, .step i2 ((H.nbrs _ i1 _).2 hv) (by rw [hg _ hlt]; exact hgv)⟩
    exact ⟨k, this.2⟩

theorem bfs_in_range {c : Cfg (Fl α)} (C : Ok c) {good : ℕ → Bool} {n : ℕ} (h : Reach c.G good c.pin n) : n < c.N := by
  obtain ⟨k, w⟩ := h
  induction w with
  | root _ => exact C.pin
  | step _ hn _ ih => exact C.graph _ ih _ hn

/-- The region of a pass without wetting. -/
theorem region_search {c : Cfg (Fl α)} (C : Ok c) {iter : ℕ} (hw : ¬ (c.startWet ≤ iter ∧ iter ≤ c.stopWet)) (stp : Surf (Fl α)) :
    ∃ qu, region c iter stp = .ok (stp, qu, 0) ∧ qu.Nodup ∧ ∀ n, n ∈ qu ↔ Reach c.G (wet stp) c.pin n := by
  obtain ⟨q, h3, h4, _, h6, _⟩ := bfs_component c.G c.N c.pin (wet stp) C.graph C.pin c.fuel C.fuel
  refine ⟨q.q.insertionSort (· ≤ ·), ?_, (List.perm_insertionSort _ _).nodup_iff.2 h4, fun n => ?_⟩
  · unfold region
    rw [if_neg hw]
    have : Bfs.bfs c.G c.pin (fun n => isFinite (stp n).2.2) c.fuel = some q := h3
    rw [this]; rfl
  · rw [List.mem_insertionSort]; exact h6 n

/-- **C136** One pass: renumbered, with any order and direction of edges and either formulation, it does the same. -/
theorem step_relabel {π : Equiv.Perm ℕ} {c c' : Cfg (Fl α)} (H : Renumbered π c c') (C : Ok c) (C' : Ok c')
    {E E' : List ((ℕ × ℕ) × α)} (hE : OmegaMat.SameEdges π E E') {eosST : Ntp.EosST (Fl α)} (hs : OmegaMat.Solver E eosST c.solver)
    (hs' : OmegaMat.Solver E' eosST c'.solver) {pinP : Fl α} {iter : ℕ} (hi : iter ≤ c.iterMax) {stp stp' : Surf (Fl α)}
    (hst : SameSurf π c.N stp stp') {r : Iter (Fl α)} (h : step c pinP iter stp = .ok r) (hW : Posed E eosST c.pin r) :
    ∃ r', step c' pinP iter stp' = .ok r' ∧ SameSurf π c.N r.old r'.old ∧ SameSurf π c.N r.new r'.new ∧
      (∀ n < c.N, r'.phi (π n) = r.phi n) := by
  have hml : SameSurf π c.N (removeML c iter stp) (removeML c' iter stp') := by
    intro n hn
    unfold removeML
    split_ifs
    · dsimp only
      rw [hst n hn, H.pml n hn]
    · exact hst n hn
  obtain ⟨qu, q1, q2, q3⟩ := region_search C (iter := iter) (fun hh => by have := H.noWet; omega) (removeML c iter stp)
  obtain ⟨qu', p1, p2, p3⟩ := region_search C' (iter := iter) (fun hh => by have := H.noWet'; omega) (removeML c' iter stp')
  have hmem : ∀ n, n ∈ qu ↔ π n ∈ qu' := by
    intro n
    rw [q3, p3]
    exact (reach_relabel H C (fun k hk => by unfold wet; rw [hml k hk]) n).symm
  have hqN : ∀ n ∈ qu, n < c.N := fun n hn => bfs_in_range C ((q3 n).1 hn)
  unfold step at h
  rw [q1] at h
  obtain ⟨⟨stp1, qu1, nw⟩, h1, h2⟩ := bind_ok h
  cases h1
  obtain ⟨phi, h3, h4⟩ := bind_ok h2
  obtain ⟨stp2, h5, h6⟩ := bind_ok h4
  cases h6
  have h3 := ofMat_ok h3
  dsimp only at h3 h5 hW
  have h5 := ofOutcome_ok h5
  obtain ⟨phi', e', hphi⟩ : ∃ phi', c'.solver (fun n => (removeML c' iter stp' n).1) (fun n => (removeML c' iter stp' n).2.1)
      (fun n => (removeML c' iter stp' n).2.2) qu' c'.pin = .ok phi' ∧ ∀ n, phi' (π n) = phi n := by
    rcases hW with hW | ⟨ε, hR⟩
    · have hq' : qu' = [c'.pin] := by
        have : ∀ n, n ∈ qu' ↔ n = c'.pin := by
          intro n
          rw [← Equiv.apply_symm_apply π n, ← hmem, H.pin, π.injective.eq_iff]
          have : qu = [c.pin] := hW
          rw [this]; simp
        have hperm : qu'.Perm [c'.pin] := (List.perm_ext_iff_of_nodup p2 (List.nodup_singleton _)).2 fun n => by rw [this n]; simp
        exact List.perm_singleton.1 hperm
      have hW : qu = [c.pin] := hW
      rw [hq']
      refine ⟨_, hs'.single _ _ _ _, ?_⟩
      rw [hW, hs.single] at h3
      cases h3
      intro n
      rw [H.pin]
      simp only [π.injective.eq_iff]
    · obtain ⟨φ, φ', a1, a2, a3⟩ := OmegaMat.solver_relabel π.injective hE hmem (fun n _ => ⟨π.symm n, π.apply_symm_apply n⟩) p2
        (s' := fun n => (removeML c' iter stp' n).1) (t' := fun n => (removeML c' iter stp' n).2.1)
        (p' := fun n => (removeML c' iter stp' n).2.2)
        (fun n hn => by dsimp only; rw [hml n (hqN n hn)]) (fun n hn => by dsimp only; rw [hml n (hqN n hn)])
        (fun n hn => by dsimp only; rw [hml n (hqN n hn)]) hR hs hs'
      rw [h3] at a1
      cases a1
      exact ⟨φ', by rw [H.pin]; exact a2, a3⟩
  obtain ⟨v1, v2⟩ := (vertsolveOmega_pointwise _ _ _ _ _ _ _ _ _).1 h5
  let out' : Surf (Fl α) := fun n => if n < c.N then stp2 (π.symm n) else removeML c' iter stp' n
  have hsym : ∀ n, π.symm n < c.N ↔ n < c.N := fun n => by rw [← H.range, Equiv.apply_symm_apply]
  have hv' : vertsolveOmega c'.fuel c'.tol c'.kind c'.eos phi' c'.casts (removeML c' iter stp') c'.N = .ret out' := by
    rw [vertsolveOmega_pointwise]
    rw [H.N, H.fuel, H.tol, H.kind, H.eos]
    constructor
    · intro n hn
      have hk := (hsym n).2 hn
      have := v1 _ hk
      show _ = Outcome.ret (if n < c.N then _ else _)
      rw [if_pos hn, ← this, ← hphi, ← H.casts _ hk, ← hml _ hk, Equiv.apply_symm_apply]
    · intro n hn
      show (if n < c.N then _ else _) = _
      rw [if_neg (by omega)]
  have hout : ∀ n < c.N, out' (π n) = stp2 n := by
    intro n hn
    show (if π n < c.N then _ else _) = _
    rw [if_pos ((H.range n).2 hn), Equiv.symm_apply_apply]
  refine ⟨⟨removeML c' iter stp', Function.update out' c'.pin ((out' c'.pin).1, (out' c'.pin).2.1, pinP), qu', phi', 0⟩, ?_, hml, ?_,
    fun n _ => hphi n⟩
  · unfold step
    rw [p1]
    show (ofMat (c'.solver _ _ _ qu' c'.pin)).bind _ = _
    rw [e']
    show (ofOutcome _).bind _ = _
    rw [hv']
    rfl
  · intro n hn
    dsimp only
    rw [H.pin]
    by_cases hp : n = c.pin
    · subst hp
      rw [Function.update_self, Function.update_self, hout _ hn]
    · rw [Function.update_of_ne (fun h => hp (π.injective h)), Function.update_of_ne hp, hout _ hn]

/-! ## Means do not depend on the numbering -/

theorem fl_right_comm (a b c : Fl α) : a + b + c = a + c + b := by
  cases a <;> cases b <;> cases c <;> first | rfl | (show fin _ = fin _; rw [add_right_comm])

theorem sum_perm {l l' : List (Fl α)} (h : l.Perm l') : Ntp.sum l = Ntp.sum l' := by
  unfold Ntp.sum
  have : RightCommutative (fun a b : Fl α => a + b) := ⟨fl_right_comm⟩
  exact h.foldl_eq _

theorem range_perm {π : Equiv.Perm ℕ} {N : ℕ} (hr : ∀ n, π n < N ↔ n < N) : ((List.range N).map π).Perm (List.range N) := by
  rw [List.perm_ext_iff_of_nodup (List.nodup_range.map π.injective) List.nodup_range]
  intro n
  rw [List.mem_map, List.mem_range]
  constructor
  · rintro ⟨k, hk, rfl⟩; exact (hr k).2 (List.mem_range.1 hk)
  · intro hn; exact ⟨π.symm n, List.mem_range.2 (by rw [← hr, Equiv.apply_symm_apply]; exact hn), π.apply_symm_apply n⟩

theorem nanmean_relabel {π : Equiv.Perm ℕ} {N : ℕ} (hr : ∀ n, π n < N ↔ n < N) {f f' : ℕ → Fl α} (h : ∀ n < N, f' (π n) = f n) :
    nanmean N f' = nanmean N f := by
  have hp : (((List.range N).map f').filter fun x => !isNaN x).Perm (((List.range N).map f).filter fun x => !isNaN x) := by
    have e : (List.range N).map f = ((List.range N).map π).map f' := by
      rw [List.map_map]
      exact List.map_congr_left fun n hn => (h n (List.mem_range.1 hn)).symm
    rw [e]
    exact ((range_perm hr).symm.map f').filter _
  unfold nanmean
  dsimp only
  rw [hp.length_eq, sum_perm hp]

/-! ## The whole run -/

/-- `stp` is the surface before pass `k + 1` of a run that starts from `stp0`. -/
inductive Before (c : Cfg (Fl α)) (pinP : Fl α) (stp0 : Surf (Fl α)) : ℕ → Surf (Fl α) → Prop
  | start : Before c pinP stp0 0 stp0
  | pass {k stp r} : Before c pinP stp0 k stp → step c pinP (k + 1) stp = .ok r → Before c pinP stp0 (k + 1) r.new

/-- Every pass of the run is posed. -/
def AllPosed (E : List ((ℕ × ℕ) × α)) (eosST : Ntp.EosST (Fl α)) (c : Cfg (Fl α)) (pinP : Fl α) (stp0 : Surf (Fl α)) : Prop :=
  ∀ k stp r, k < c.iterMax → Before c pinP stp0 k stp → step c pinP (k + 1) stp = .ok r → Posed E eosST c.pin r

theorem loop_relabel {π : Equiv.Perm ℕ} {c c' : Cfg (Fl α)} (H : Renumbered π c c') (C : Ok c) (C' : Ok c')
    {E E' : List ((ℕ × ℕ) × α)} (hE : OmegaMat.SameEdges π E E') {eosST : Ntp.EosST (Fl α)} (hs : OmegaMat.Solver E eosST c.solver)
    (hs' : OmegaMat.Solver E' eosST c'.solver) {pinP : Fl α} {stp0 : Surf (Fl α)} (hP : AllPosed E eosST c pinP stp0) :
    ∀ (left k : ℕ) (s s1 s' : State (Fl α)), k + left ≤ c.iterMax → Before c pinP stp0 k s.stp → SameSurf π c.N s.stp s1.stp →
      s1.rms = s.rms → s1.last = s.last → loop c pinP left (k + 1) s = .ok s' →
      ∃ s1', loop c' pinP left (k + 1) s1 = .ok s1' ∧ SameSurf π c.N s'.stp s1'.stp ∧ s1'.rms = s'.rms ∧ s1'.last = s'.last := by
  intro left
  induction left with
  | zero => intro k s s1 s' _ _ h1 h2 h3 h; cases h; exact ⟨s1, rfl, h1, h2, h3⟩
  | succ left ih =>
    intro k s s1 s' hk hb h1 h2 h3 h
    unfold loop at h
    obtain ⟨r, g1, g2⟩ := bind_ok h
    obtain ⟨r', e1, e2, e3, e4⟩ := step_relabel H C C' hE hs hs' (by omega) h1 g1 (hP _ _ _ (by omega) hb g1)
    have m1 : phiMAV c' r' = phiMAV c r := by
      unfold phiMAV
      rw [H.N]
      exact nanmean_relabel H.range fun n hn => by rw [e4 n hn]
    have m2 : dpRMS c' s1.rms r' = dpRMS c s.rms r := by
      unfold dpRMS dp
      rw [H.diags, H.tolP, H.sqrt, H.N, h2]
      split_ifs
      · congr 1
        exact nanmean_relabel H.range fun n hn => by rw [e2 n hn, e3 n hn]
      · rfl
    have m3 : converged c' (k + 1) r' (dpRMS c' s1.rms r') = converged c (k + 1) r (dpRMS c s.rms r) := by
      unfold converged
      rw [m1, m2, H.tolPhi, H.tolP, H.iterMin]
    unfold loop
    rw [e1]
    show ∃ s1', (if converged c' (k + 1) r' (dpRMS c' s1.rms r') = true then _ else _) = _ ∧ _
    rw [m3]
    split_ifs at g2 ⊢ with hc
    · cases g2
      exact ⟨_, rfl, e3, m2, rfl⟩
    · exact ih (k + 1) (after c (k + 1) s r) _ _ (by omega) (.pass hb g1) e3 m2 rfl g2

/-- **C136** The whole of `omega_surf` from a given initial surface: with the casts renumbered, the neighbours and edges listed in another
order, edges turned around and either formulation of the matrix problem, it makes the same number of passes and returns the same surface,
renumbered. -/
theorem omega_relabel {π : Equiv.Perm ℕ} {c c' : Cfg (Fl α)} (H : Renumbered π c c') (C : Ok c) (C' : Ok c')
    {E E' : List ((ℕ × ℕ) × α)} (hE : OmegaMat.SameEdges π E E') {eosST : Ntp.EosST (Fl α)} (hs : OmegaMat.Solver E eosST c.solver)
    (hs' : OmegaMat.Solver E' eosST c'.solver) {p p' : ℕ → Fl α} (hp : ∀ n < c.N, p' (π n) = p n) {s : State (Fl α)}
    (h : omega c (.array p) = .ok s) (hP : ∀ stp0, init c (.array p) = .ok stp0 → AllPosed E eosST c (p c.pin) stp0) :
    ∃ s', omega c' (.array p') = .ok s' ∧ SameSurf π c.N s.stp s'.stp ∧ s'.last = s.last := by
  have hit : ∀ n < c.N, interpTwo c' (p' (π n)) (π n) = interpTwo c (p n) n := by
    intro n hn
    unfold interpTwo
    rw [H.kind, H.casts n hn, hp n hn]
  have hsym : ∀ n, π.symm n < c.N ↔ n < c.N := fun n => by rw [← H.range, Equiv.apply_symm_apply]
  have hraw : ∀ raw, initRaw c (.array p) = .ok raw → ∃ raw', initRaw c' (.array p') = .ok raw' ∧ SameSurf π c.N raw raw' := by
    intro raw g1
    unfold initRaw at g1
    dsimp only at g1
    split_ifs at g1 with hall
    cases g1
    have hall' : ∀ n < c'.N, (interpTwo c' (p' n) n).isSome := by
      intro n hn
      rw [H.N] at hn
      have := hall _ ((hsym n).2 hn)
      rw [← hit _ ((hsym n).2 hn), Equiv.apply_symm_apply] at this
      exact this
    unfold initRaw
    dsimp only
    rw [if_pos hall']
    refine ⟨_, rfl, ?_⟩
    intro n hn
    dsimp only
    rw [H.N, if_pos ((H.range n).2 hn), if_pos hn, hit n hn, hp n hn]
  have hinit : ∀ stp0, init c (.array p) = .ok stp0 → ∃ stp0', init c' (.array p') = .ok stp0' ∧ SameSurf π c.N stp0 stp0' := by
    intro stp0 h0
    unfold init at h0
    obtain ⟨raw, g1, g2⟩ := bind_ok h0
    obtain ⟨raw', r1, r2⟩ := hraw raw g1
    unfold init
    rw [r1]
    show ∃ stp0', (if isNaN (raw' c'.pin).1 = true then _ else _) = _ ∧ _
    have e : isNaN (raw' c'.pin).1 = isNaN (raw c.pin).1 := by rw [H.pin, r2 _ C.pin]
    rw [e]
    split_ifs at g2 ⊢ with hn
    cases g2
    refine ⟨_, rfl, ?_⟩
    intro n hn
    dsimp only
    rw [r2 n hn]
  unfold omega at h
  obtain ⟨stp0, g1, g2⟩ := bind_ok h
  obtain ⟨stp0', i1, i2⟩ := hinit stp0 g1
  obtain ⟨s1, g3, g4⟩ := bind_ok g2
  have hpin : pinPOf c' (.array p') = pinPOf c (.array p) := by
    show p' c'.pin = p c.pin
    rw [H.pin, hp _ C.pin]
  obtain ⟨s1', k1, k2, k3, k4⟩ := loop_relabel H C C' hE hs hs' (hP _ g1) c.iterMax 0
    ⟨stp0, lit 0, if c.diags then [diag0 c stp0] else [], 0⟩ ⟨stp0', lit 0, if c'.diags then [diag0 c' stp0'] else [], 0⟩ s1 (by omega) .start i2 rfl rfl g3
  unfold omega
  rw [i1]
  show ∃ s', (loop c' (pinPOf c' (.array p')) c'.iterMax 1 _).bind _ = _ ∧ _
  rw [hpin, H.iterMax]
  rw [show (1 : ℕ) = 0 + 1 from rfl]
  show ∃ s', (loop c' (p c.pin) c.iterMax (0 + 1) _).bind _ = _ ∧ _
  rw [k1]
  show ∃ s', (if (c'.diags && decide (s1'.last = 0)) = true then _ else _) = _ ∧ _
  rw [H.diags, k4]
  split_ifs at g4 ⊢ with hd
  cases g4
  exact ⟨_, rfl, k2, k4⟩

end Omega
