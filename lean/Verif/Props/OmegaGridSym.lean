import Verif.Props.OmegaApi
import Verif.Props.Grid

/-!
# Transposing, turning round and rolling the arrays does the same to an omega surface (C145)

Two calls of `omega_surf` on gridded data that describe the same ocean, laid out differently.  Exact arithmetic and exact solvers, no wetting.
-/

namespace Omega
open FloatLike Lib Traj Bfs VertSolve
open Fl hiding nan

/-! ## Any one-to-one correspondence of the horizontal indices -/

/-- `σ` and `τ` are inverse maps between the horizontal indices of arrays of shapes `hs` and `hs'`. -/
structure Matching (hs hs' : List ℕ) (σ τ : List ℕ → List ℕ) : Prop where
  there : ∀ m, Valid hs m → Valid hs' (σ m)
  back : ∀ m, Valid hs' m → Valid hs (τ m)
  left : ∀ m, Valid hs m → τ (σ m) = m
  right : ∀ m, Valid hs' m → σ (τ m) = m
  size : hs'.prod = hs.prod

/-- `y` is the link `x` between the corresponding casts, possibly turned round, with the same lengths. -/
def SameLink (f : ℕ → ℕ) (x y : Link) : Prop :=
  y.dist = x.dist ∧ y.perp = x.perp ∧ (y.ends = (f x.ends.1, f x.ends.2) ∨ y.ends = (f x.ends.2, f x.ends.1))

/-- `L'` lists the links of `L` between corresponding casts, in any order. -/
def SameLinks (hs hs' : List ℕ) (σ : List ℕ → List ℕ) (L L' : List Link) : Prop :=
  ∃ L₂, List.Forall₂ (SameLink fun k => ravel hs' (σ (unravel hs k))) L L₂ ∧ L₂.Perm L'

/-- The same options, but for the vertical dimension, the formulation, the solvers and the mixed layer; no wetting. -/
structure SameOpts (o o' : Opts (Fl ℝ)) : Prop where
  eos : o'.eos = o.eos
  eosST : o'.eosST = o.eosST
  sqrt : o'.sqrt = o.sqrt
  kind : o'.kind = o.kind
  tolPhi : o'.tolPhi = o.tolPhi
  tolP : o'.tolP = o.tolP
  diags : o'.diags = o.diags
  iterMin : o'.iterMin = o.iterMin
  iterMax : o'.iterMax = o.iterMax
  noWet : o.iterMax < o.startWet
  noWet' : o.iterMax < o'.startWet

/-- The same mixed layer. -/
def SamePml (hs hs' : List ℕ) (σ : List ℕ → List ℕ) : Option (Nd (Fl ℝ)) → Option (Nd (Fl ℝ)) → Prop
  | none, none => True
  | some x, some x' => x.shape = hs ∧ x'.shape = hs' ∧ ∀ m, Valid hs m → x'.get (σ m) = x.get m
  | _, _ => False

/-- Either formulation, with an exact solver. -/
def Exact (o : Opts (Fl ℝ)) : Prop :=
  (o.formulation.toLower = "poisson" ∧ OmegaMat.ExactSolve o.spsolve) ∨
  (o.formulation.toLower = "gradient" ∧ OmegaMat.ExactLsqr o.lsqr ∧ ∀ x : ℝ, 0 < x → o.sqrt (fin x) = fin (√x))

theorem solver_exact {o : Opts (Fl ℝ)} {L : List Link} (hpos : ∀ x ∈ weighted L, 0 < x.2) (h : Exact o)
    {solver} (hs : solverOf o (gridOf L).edges ((weighted L).map fun x => fin x.2) = .ok solver) : OmegaMat.Solver (weighted L) o.eosST solver := by
  have hE : (gridOf L).edges = (weighted L).map Prod.fst := by simp [gridOf, weighted]
  rcases h with ⟨hf, h1⟩ | ⟨hf, h1, hsq⟩
  · unfold solverOf at hs
    rw [if_pos hf, hE] at hs
    cases hs
    exact OmegaMat.poisson_solver _ _ h1
  · unfold solverOf at hs
    rw [if_neg (by rw [hf]; decide), if_pos hf, hE] at hs
    cases hs
    obtain ⟨V, hV⟩ : ∃ V, V = (weighted L).map fun x => (x.1, √x.2) := ⟨_, rfl⟩
    have h2 : (weighted L).map Prod.fst = V.map Prod.fst := by rw [hV, List.map_map]; rfl
    have h3 : ((weighted L).map fun x => fin x.2).map o.sqrt = V.map fun x => fin x.2 := by
      rw [hV, List.map_map, List.map_map]
      exact List.map_congr_left fun x hx => hsq _ (hpos x hx)
    have h4 : OmegaMat.squared V = weighted L := by
      unfold OmegaMat.squared
      rw [hV, List.map_map]
      conv_rhs => rw [← List.map_id (weighted L)]
      exact List.map_congr_left fun x hx => by
        show (x.1, √x.2 ^ 2) = x
        rw [Real.sq_sqrt (hpos x hx).le]
    rw [h2, h3]
    have := OmegaMat.gradient_solver V o.eosST h1
    rw [h4] at this
    exact this

/-- The correspondence of the numbers of the casts. -/
def Matching.perm {hs hs' : List ℕ} {σ τ : List ℕ → List ℕ} (M : Matching hs hs' σ τ) : Equiv.Perm ℕ where
  toFun k := if k < hs.prod then ravel hs' (σ (unravel hs k)) else k
  invFun k := if k < hs.prod then ravel hs (τ (unravel hs' k)) else k
  left_inv k := by
    dsimp only
    by_cases h : k < hs.prod
    · obtain ⟨h1, h2⟩ := valid_unravel h
      have h3 := M.there _ h1
      rw [if_pos h, if_pos (by rw [← M.size]; exact ravel_lt h3), unravel_ravel h3, M.left _ h1, h2]
    · rw [if_neg h, if_neg h]
  right_inv k := by
    dsimp only
    by_cases h : k < hs.prod
    · obtain ⟨h1, h2⟩ := valid_unravel (s := hs') (n := k) (by rw [M.size]; exact h)
      have h3 := M.back _ h1
      rw [if_pos h, if_pos (ravel_lt h3), unravel_ravel h3, M.right _ h1, h2]
    · rw [if_neg h, if_neg h]

theorem Matching.perm_apply {hs hs' : List ℕ} {σ τ : List ℕ → List ℕ} (M : Matching hs hs' σ τ) {k : ℕ} (h : k < hs.prod) :
    M.perm k = ravel hs' (σ (unravel hs k)) := if_pos h

theorem Matching.perm_ravel {hs hs' : List ℕ} {σ τ : List ℕ → List ℕ} (M : Matching hs hs' σ τ) {m : List ℕ} (h : Valid hs m) :
    M.perm (ravel hs m) = ravel hs' (σ m) := by
  rw [M.perm_apply (ravel_lt h), unravel_ravel h]

theorem Matching.perm_range {hs hs' : List ℕ} {σ τ : List ℕ → List ℕ} (M : Matching hs hs' σ τ) (k : ℕ) : M.perm k < hs.prod ↔ k < hs.prod := by
  by_cases h : k < hs.prod
  · rw [M.perm_apply h]
    exact ⟨fun _ => h, fun _ => by rw [← M.size]; exact ravel_lt (M.there _ (valid_unravel h).1)⟩
  · have : M.perm k = k := if_neg h
    rw [this]

theorem same_edges {hs hs' : List ℕ} {σ τ : List ℕ → List ℕ} (M : Matching hs hs' σ τ) {L L' : List Link}
    (hw : ∀ x ∈ L, x.ends.1 < hs.prod ∧ x.ends.2 < hs.prod) (h : SameLinks hs hs' σ L L') :
    OmegaMat.SameEdges M.perm (weighted L) (weighted L') := by
  obtain ⟨L₂, h1, h2⟩ := h
  refine ⟨weighted L₂, ?_, h2.map _⟩
  clear h2
  induction h1 with
  | nil => exact .nil
  | @cons x y L L₂ hxy _ ih =>
    refine .cons ?_ (ih fun z hz => hw z (List.mem_cons_of_mem _ hz))
    obtain ⟨w1, w2⟩ := hw x List.mem_cons_self
    obtain ⟨d, q, e | e⟩ := hxy
    · left
      show (y.ends, y.perp / y.dist) = ((M.perm x.ends.1, M.perm x.ends.2), x.perp / x.dist)
      rw [d, q, e, M.perm_apply w1, M.perm_apply w2]
    · right
      show (y.ends, y.perp / y.dist) = ((M.perm x.ends.2, M.perm x.ends.1), x.perp / x.dist)
      rw [d, q, e, M.perm_apply w1, M.perm_apply w2]

theorem same_nbrs {hs hs' : List ℕ} {σ τ : List ℕ → List ℕ} (M : Matching hs hs' σ τ) {L L' : List Link}
    (hw : ∀ x ∈ L, x.ends.1 < hs.prod ∧ x.ends.2 < hs.prod) (h : SameLinks hs hs' σ L L') (a q : ℕ) :
    (∃ x ∈ L', x.ends = (M.perm a, M.perm q) ∨ x.ends = (M.perm q, M.perm a)) ↔ ∃ x ∈ L, x.ends = (a, q) ∨ x.ends = (q, a) := by
  obtain ⟨L₂, h1, h2⟩ := h
  have hperm : (∃ x ∈ L', x.ends = (M.perm a, M.perm q) ∨ x.ends = (M.perm q, M.perm a)) ↔
      ∃ x ∈ L₂, x.ends = (M.perm a, M.perm q) ∨ x.ends = (M.perm q, M.perm a) := by
    constructor <;> rintro ⟨x, hx, h⟩
    · exact ⟨x, h2.mem_iff.2 hx, h⟩
    · exact ⟨x, h2.mem_iff.1 hx, h⟩
  rw [hperm]
  clear h2 hperm
  induction h1 with
  | nil => simp
  | @cons x y L L₂ hxy _ ih =>
    have ih := ih fun z hz => hw z (List.mem_cons_of_mem _ hz)
    obtain ⟨w1, w2⟩ := hw x List.mem_cons_self
    simp only [List.mem_cons, exists_eq_or_imp, ih]
    refine or_congr ?_ Iff.rfl
    obtain ⟨-, -, e⟩ := hxy
    simp only [← M.perm_apply w1, ← M.perm_apply w2] at e
    have hi : ∀ u v, M.perm u = M.perm v ↔ u = v := fun u v => M.perm.injective.eq_iff
    rcases e with e | e
    · rw [e]; simp only [Prod.ext_iff, hi]
    · rw [e]; simp only [Prod.ext_iff, hi]; tauto

/-- Two calls describe the same ocean, with the cast at `m` of the first at `σ m` of the second, the same options and corresponding initial surfaces through the
pinning point. -/
structure SameOcean (o o' : Opts (Fl ℝ)) (S T S' T' : Nd (Fl ℝ)) (v v' : ℕ) (pr pr' : List ℕ → ℕ → Fl ℝ) (hs hs' : List ℕ) (σ : List ℕ → List ℕ) (p p' : Nd (Fl ℝ))
    (m0 : List ℕ) (p0 : ℝ) : Prop where
  casts : ∀ m, Valid hs m → castAt S' T' pr' v' (σ m) = castAt S T pr v m
  opts : SameOpts o o'
  pml : SamePml hs hs' σ o.pml o'.pml
  exact : Exact o
  exact' : Exact o'
  shape : p.shape = hs
  shape' : p'.shape = hs'
  pin : p.get m0 = fin p0
  init : ∀ m, Valid hs m → p'.get (σ m) = p.get m

/-- **C145** Two calls of `omega_surf` that describe the same ocean, with the casts at corresponding places of two arrays, the same links between
corresponding casts, either formulation, and corresponding initial surfaces, return corresponding surfaces, after the same number of passes. -/
theorem omegaSurf_relabel {o o' : Opts (Fl ℝ)} {dims dims' : Option (List String)} {coord coord' : String → Option (List ℚ)} {S T S' T' : Nd (Fl ℝ)}
    {P P' : PArg (Fl ℝ)} {v v' : ℕ} {pr pr' : List ℕ → ℕ → Fl ℝ} {L L' : List Link} {pc pc' : PinCast} {m0 : List ℕ} {p0 : ℝ}
    {e : ℝ → ℝ → ℝ → ℝ} {smin tol : ℝ} {n : ℕ} {b b' : List ℕ → ℕ → ℝ} {σ τ : List ℕ → List ℕ} {p p' : Nd (Fl ℝ)}
    (M : Matching (S.shape.eraseIdx v) (S'.shape.eraseIdx v') σ τ)
    (C : Call o dims coord S T P v pr L pc m0 p0 e smin tol n b) (C' : Call o' dims' coord' S' T' P' v' pr' L' pc' (σ m0) p0 e smin tol n b')
    (hS : SameOcean o o' S T S' T' v v' pr pr' (S.shape.eraseIdx v) (S'.shape.eraseIdx v') σ p p' m0 p0)
    (hL : SameLinks (S.shape.eraseIdx v) (S'.shape.eraseIdx v') σ L L') :
    ∃ out out' st st', omegaSurf o dims coord S T P (gridOf L) pc (.array p) = .ok (S.shape.eraseIdx v, out, st) ∧
      omegaSurf o' dims' coord' S' T' P' (gridOf L') pc' (.array p') = .ok (S'.shape.eraseIdx v', out', st') ∧
      (∀ m, Valid (S.shape.eraseIdx v) m → out' (σ m) = out m) ∧ st'.last = st.last := by
  obtain ⟨hcast, hO, hml, hx, hx', hp, hp', hp0, hpp⟩ := hS
  obtain ⟨c, K, hrun⟩ := call_core C
  obtain ⟨c', K', hrun'⟩ := call_core C'
  have hv := C.valid
  have hw := C.within
  obtain ⟨hs, hhs⟩ : ∃ hs, hs = S.shape.eraseIdx v := ⟨_, rfl⟩
  obtain ⟨hs', hhs'⟩ : ∃ hs', hs' = S'.shape.eraseIdx v' := ⟨_, rfl⟩
  rw [← hhs] at M K hrun hcast hL hml hp hpp hv hw ⊢
  rw [← hhs'] at M K' hrun' hL hml hp' ⊢
  have hcov : ∀ k < hs.prod, ∃ m, Valid hs m ∧ ravel hs m = k := fun k hk => ⟨_, valid_unravel hk⟩
  have H : Renumbered M.perm c c' :=
    { N := by rw [K'.N, K.N, M.size]
      range := fun k => by rw [K.N]; exact M.perm_range k
      pin := by rw [K'.pin, K.pin, M.perm_ravel hv]
      casts := by
        intro k hk
        rw [K.N] at hk
        obtain ⟨m, hm, rfl⟩ := hcov k hk
        rw [M.perm_ravel hm, K'.casts _ (M.there _ hm), K.casts _ hm, hcast m hm]
      nbrs := by
        intro a _ q
        rw [K'.nbrs, K.nbrs]
        exact same_nbrs M hw hL a q
      pml := by
        intro k hk
        rw [K.N] at hk
        obtain ⟨m, hm, rfl⟩ := hcov k hk
        rw [M.perm_ravel hm]
        cases h1 : o.pml with
        | none =>
          cases h2 : o'.pml with
          | none => rw [K'.follows.noml h2, K.follows.noml h1]
          | some x' => rw [h1, h2] at hml; exact absurd hml id
        | some x =>
          cases h2 : o'.pml with
          | none => rw [h1, h2] at hml; exact absurd hml id
          | some x' =>
            rw [h1, h2] at hml
            obtain ⟨a1, a2, a3⟩ := hml
            rw [K'.follows.pml x' h2 a2 _ (M.there _ hm), K.follows.pml x h1 a1 _ hm, a3 m hm]
      kind := by rw [K'.kind, K.kind, hO.kind]
      eos := by rw [K'.follows.eos, K.follows.eos, hO.eos]
      sqrt := by rw [K'.follows.sqrt, K.follows.sqrt, hO.sqrt]
      tol := by rw [K'.world.tolEq, K.world.tolEq]
      tolPhi := by rw [K'.follows.tolPhi, K.follows.tolPhi, hO.tolPhi, hO.eos]
      tolP := by rw [K'.follows.tolP, K.follows.tolP, hO.tolP]
      diags := by rw [K'.follows.diags, K.follows.diags, hO.diags]
      iterMin := by rw [K'.follows.iterMin, K.follows.iterMin, hO.iterMin]
      iterMax := by rw [K'.follows.iterMax, K.follows.iterMax, hO.iterMax]
      fuel := by rw [K'.world.fuel, K.world.fuel]
      noWet := by rw [K.follows.iterMax, K.follows.startWet]; exact hO.noWet
      noWet' := by rw [K.follows.iterMax, K'.follows.startWet]; exact hO.noWet' }
  have hpin : flatten p c.pin = fin p0 := by rw [K.pin, flatten, hp, unravel_ravel hv, hp0]
  obtain ⟨st, stp0, s0, t0, r1, r2, -, -, -, r6, -⟩ := omega_total K.world (flatten p) hpin K.start K.below K.diags
  have hs1 := solver_exact K.world.weights hx K.solver
  have hs2 := solver_exact K'.world.weights hx' K'.solver
  rw [hO.eosST] at hs2
  obtain ⟨st', g1, g2, g3⟩ := omega_relabel H K.world.ok K'.world.ok (same_edges M hw hL) hs1 hs2 (p := flatten p) (p' := flatten p') (by
      intro k hk
      rw [K.N] at hk
      obtain ⟨m, hm, rfl⟩ := hcov k hk
      rw [M.perm_ravel hm, flatten, flatten, hp, hp', unravel_ravel hm, unravel_ravel (M.there _ hm), hpp m hm]) r1 (by
      intro stp1 h1
      rw [r2] at h1
      cases h1
      rw [hpin]
      exact r6)
  refine ⟨reshapeGet hs st.stp, reshapeGet hs' st'.stp, st, st', ?_, ?_, ?_, g3⟩
  · rw [hrun _ (.array (flatten p)) (by rw [checkInit, if_pos hp]), r1]; rfl
  · rw [hrun' _ (.array (flatten p')) (by rw [checkInit, if_pos hp']), g1]; rfl
  · intro m hm
    rw [reshape_ravel _ hm, reshape_ravel _ (M.there _ hm), ← M.perm_ravel hm]
    exact g2 _ (by rw [K.N]; exact ravel_lt hm)

/-! ## Rectilinear grids -/

open Grid in
/-- Specification: the links of a rectilinear grid.  The cell `(i, j)` is linked with the one before it in the first dimension, at distance `x i j` through a face of length
`yg i j`, and with the one before it in the second dimension, at distance `y i j` through a face of length `xg i j`. -/
def rectLinks (ni nj : ℕ) (p0 p1 : Bool) (x y yg xg : ℕ → ℕ → ℝ) : List Link :=
  flat (ni - off p0) nj (fun i j => ⟨(cell nj (i + off p0) j, cell nj (prev ni p0 (i + off p0)) j), x (i + off p0) j, yg (i + off p0) j⟩) ++
  flat ni (nj - off p1) (fun i j => ⟨(cell nj i (j + off p1), cell nj i (prev nj p1 (j + off p1))), y i (j + off p1), xg i (j + off p1)⟩)

theorem flat_map {A B : Type*} (f : A → B) (n m : ℕ) (g : ℕ → ℕ → A) : (Grid.flat n m g).map f = Grid.flat n m fun i j => f (g i j) := by
  unfold Grid.flat
  rw [List.map_flatMap]
  congr 1
  funext i
  rw [List.map_map]
  rfl

/-- `build_grid` of `rectilinear` returns these links. -/
theorem rectGrid_links {ni nj : ℕ} {p0 p1 : Bool} {dxC dyC dyG dxG : Grid.Data (Fl ℝ)} {x y yg xg : ℕ → ℕ → ℝ}
    (hx : Grid.broadcastTo ni nj dxC = .ok fun i j => fin (x i j)) (hy : Grid.broadcastTo ni nj dyC = .ok fun i j => fin (y i j))
    (hyg : Grid.broadcastTo ni nj dyG = .ok fun i j => fin (yg i j)) (hxg : Grid.broadcastTo ni nj dxG = .ok fun i j => fin (xg i j)) :
    ∃ g, Grid.rectGrid ni nj p0 p1 dxC dyC dyG dxG = .ok g ∧ (⟨g.edges, some g.dist, some g.distperp⟩ : GridDict (Fl ℝ)) = gridOf (rectLinks ni nj p0 p1 x y yg xg) := by
  have h : Grid.rectGrid ni nj p0 p1 dxC dyC dyG dxG = .ok ⟨Grid.rectEdges ni nj p0 p1,
      Grid.flat (ni - Grid.off p0) nj (fun i j => fin (x (i + Grid.off p0) j)) ++ Grid.flat ni (nj - Grid.off p1) (fun i j => fin (y i (j + Grid.off p1))),
      Grid.flat (ni - Grid.off p0) nj (fun i j => fin (yg (i + Grid.off p0) j)) ++ Grid.flat ni (nj - Grid.off p1) (fun i j => fin (xg i (j + Grid.off p1)))⟩ := by
    unfold Grid.rectGrid Grid.rectData; simp only [hx, hy, hyg, hxg]
  refine ⟨_, h, ?_⟩
  unfold gridOf rectLinks
  rw [Grid.rectEdges_eq]
  simp only [List.map_append, flat_map]

/-- A symmetry of a dimension of length `n`: `f` maps the indices one to one, with inverse `g`, and the face before the index `i` to the face before `F i`, one to one, with inverse `H`. -/
structure DimSym (n : ℕ) (per : Bool) (f g F H : ℕ → ℕ) : Prop where
  there : ∀ i < n, f i < n
  back : ∀ i < n, g i < n
  left : ∀ i < n, g (f i) = i
  right : ∀ i < n, f (g i) = i
  face : ∀ i i', Grid.Before n per i i' → Grid.Before n per (F i) (f i') ∧ F i = f i ∨ Grid.Before n per (F i) (f i) ∧ F i = f i'
  faceBack : ∀ i i', Grid.Before n per i i' → H (F i) = i ∧ F (H i) = i ∧ ∃ k, Grid.Before n per (H i) k

theorem DimSym.id (n : ℕ) (per : Bool) : DimSym n per (fun i => i) (fun i => i) (fun i => i) (fun i => i) where
  there _ h := h
  back _ h := h
  left _ _ := rfl
  right _ _ := rfl
  face _ _ h := .inl ⟨h, rfl⟩
  faceBack _ i' h := ⟨rfl, rfl, i', h⟩

/-- Rolling a periodic dimension by `r`. -/
theorem DimSym.roll (n r : ℕ) : DimSym n true (fun i => (i + r) % n) (fun i => (i + (n - r % n)) % n) (fun i => (i + r) % n)
    (fun i => (i + (n - r % n)) % n) := by
  have key : ∀ a b i, i < n → (a + b) % n = 0 → ((i + a) % n + b) % n = i := by
    intro a b i hi h
    rw [Nat.mod_add_mod, Nat.add_assoc, Nat.add_mod, h, Nat.add_zero, Nat.mod_mod, Nat.mod_eq_of_lt hi]
  have h1 : ∀ i < n, (r + (n - r % n)) % n = 0 := by
    intro i hi
    have hr := Nat.mod_lt r (show 0 < n by omega)
    rw [Nat.add_mod]
    rcases Nat.eq_zero_or_pos (r % n) with h | h
    · rw [h]; simp
    · rw [Nat.mod_eq_of_lt (show n - r % n < n by omega), show r % n + (n - r % n) = n by omega, Nat.mod_self]
  have h2 : ∀ i < n, ((n - r % n) + r) % n = 0 := fun i hi => by rw [Nat.add_comm]; exact h1 i hi
  have hb : ∀ a i i', Grid.Before n true i i' → Grid.Before n true ((i + a) % n) ((i' + a) % n) := by
    intro a i i' h
    rw [Grid.before_iff] at h ⊢
    obtain ⟨-, hi, rfl⟩ := h
    refine ⟨Nat.zero_le _, Nat.mod_lt _ (by omega), ?_⟩
    simp only [Grid.prev, if_true]
    rw [Nat.mod_add_mod, show (i + a) % n + n - 1 = (i + a) % n + (n - 1) by omega, Nat.mod_add_mod]
    congr 1
    omega
  refine ⟨fun i h => Nat.mod_lt _ (by omega), fun i h => Nat.mod_lt _ (by omega), fun i h => key _ _ i h (h1 i h), fun i h => key _ _ i h (h2 i h),
    fun i i' h => .inl ⟨hb _ _ _ h, rfl⟩, fun i i' h => ⟨key _ _ i h.1 (h1 i h.1), key _ _ i h.1 (h2 i h.1), _, hb _ _ _ h⟩⟩

/-- Turning a dimension round: index `i` becomes `n - 1 - i`, and the face before `i` the face before `n - i` (that before 0, in a periodic dimension, stays). -/
theorem DimSym.flip (n : ℕ) (per : Bool) : DimSym n per (fun i => n - 1 - i) (fun i => n - 1 - i) (fun i => (n - i) % n) (fun i => (n - i) % n) := by
  have hF : ∀ i < n, (n - i) % n = if i = 0 then 0 else n - i := by
    intro i hi
    split_ifs with h
    · rw [h, Nat.sub_zero, Nat.mod_self]
    · exact Nat.mod_eq_of_lt (by omega)
  have hFF : ∀ i < n, (n - (n - i) % n) % n = i := by
    intro i hi
    rw [hF i hi]
    split_ifs with h
    · rw [h, Nat.sub_zero, Nat.mod_self]
    · rw [show n - (n - i) = i by omega, Nat.mod_eq_of_lt hi]
  have hb : ∀ i i', Grid.Before n per i i' → Grid.Before n per ((n - i) % n) (n - 1 - i) ∧ (n - i) % n = n - 1 - i' := by
    intro i i' h
    obtain ⟨hi, h⟩ := h
    rw [hF i hi]
    unfold Grid.Before
    split_ifs with h0
    · rcases h with h | ⟨h1, h2, h3⟩
      · omega
      · refine ⟨⟨by omega, .inr ⟨h1, rfl, by omega⟩⟩, by omega⟩
    · refine ⟨⟨by omega, .inl (by omega)⟩, by omega⟩
  refine ⟨fun i h => by omega, fun i h => by omega, fun i h => by omega, fun i h => by omega, fun i i' h => .inr (hb i i' h),
    fun i i' h => ⟨hFF i h.1, hFF i h.1, _, (hb i i' h).1⟩⟩

/-- Listing the same values by corresponding pairs of indices. -/
theorem flat_perm {A : Type*} {n m n' m' : ℕ} {f g : ℕ → ℕ → A} (σ τ : ℕ × ℕ → ℕ × ℕ)
    (there : ∀ i < n, ∀ j < m, (σ (i, j)).1 < n' ∧ (σ (i, j)).2 < m') (back : ∀ i < n', ∀ j < m', (τ (i, j)).1 < n ∧ (τ (i, j)).2 < m)
    (left : ∀ i < n, ∀ j < m, τ (σ (i, j)) = (i, j)) (right : ∀ i < n', ∀ j < m', σ (τ (i, j)) = (i, j))
    (h : ∀ i < n, ∀ j < m, g (σ (i, j)).1 (σ (i, j)).2 = f i j) : (Grid.flat n m f).Perm (Grid.flat n' m' g) := by
  have hflat : ∀ (n m : ℕ) (f : ℕ → ℕ → A), Grid.flat n m f = ((List.range n).product (List.range m)).map fun x => f x.1 x.2 := by
    intro n m f
    unfold Grid.flat List.product
    rw [List.map_flatMap]
    congr 1
    funext i
    rw [List.map_map]
    rfl
  have hmem : ∀ (n m : ℕ) (x : ℕ × ℕ), x ∈ (List.range n).product (List.range m) ↔ x.1 < n ∧ x.2 < m := by
    intro n m x
    rw [← List.mem_range, ← List.mem_range (n := m)]
    exact List.mem_product
  rw [hflat, hflat]
  have e : ((List.range n).product (List.range m)).map (fun x => f x.1 x.2) =
      (((List.range n).product (List.range m)).map σ).map fun x => g x.1 x.2 := by
    rw [List.map_map]
    refine List.map_congr_left fun x hx => ?_
    obtain ⟨h1, h2⟩ := (hmem _ _ _).1 hx
    exact (h x.1 h1 x.2 h2).symm
  rw [e]
  refine List.Perm.map _ ?_
  refine (List.perm_ext_iff_of_nodup ?_ (List.nodup_range.product List.nodup_range)).2 ?_
  · refine (List.nodup_range.product List.nodup_range).map_on fun x hx y hy hxy => ?_
    obtain ⟨a1, a2⟩ := (hmem _ _ _).1 hx
    obtain ⟨b1, b2⟩ := (hmem _ _ _).1 hy
    have := congrArg τ hxy
    rw [show x = (x.1, x.2) from rfl, show y = (y.1, y.2) from rfl, left _ a1 _ a2, left _ b1 _ b2] at this
    exact this
  · intro x
    rw [List.mem_map]
    show _ ↔ x ∈ (List.range n').product (List.range m')
    rw [hmem]
    constructor
    · rintro ⟨y, hy, rfl⟩
      obtain ⟨b1, b2⟩ := (hmem _ _ _).1 hy
      exact there _ b1 _ b2
    · rintro ⟨h1, h2⟩
      exact ⟨τ x, (hmem _ _ _).2 (back _ h1 _ h2), right _ h1 _ h2⟩

theorem flat_forall₂ {A B : Type*} {R : A → B → Prop} {n m : ℕ} {f : ℕ → ℕ → A} {g : ℕ → ℕ → B} (h : ∀ i < n, ∀ j < m, R (f i j) (g i j)) :
    List.Forall₂ R (Grid.flat n m f) (Grid.flat n m g) := by
  have hrow : ∀ (l : List ℕ) (a : ℕ → A) (b : ℕ → B), (∀ j ∈ l, R (a j) (b j)) → List.Forall₂ R (l.map a) (l.map b) := by
    intro l a b
    induction l with
    | nil => intro _; exact .nil
    | cons x l ih => intro h; exact .cons (h x List.mem_cons_self) (ih fun j hj => h j (List.mem_cons_of_mem _ hj))
  unfold Grid.flat
  have hall : ∀ l : List ℕ, (∀ i ∈ l, i < n) → List.Forall₂ R (l.flatMap fun i => (List.range m).map (f i)) (l.flatMap fun i => (List.range m).map (g i)) := by
    intro l
    induction l with
    | nil => intro _; exact .nil
    | cons x l ih =>
      intro hl
      rw [List.flatMap_cons, List.flatMap_cons]
      exact List.rel_append (hrow _ _ _ fun j hj => h x (hl x List.mem_cons_self) j (List.mem_range.1 hj)) (ih fun i hi => hl i (List.mem_cons_of_mem _ hi))
  exact hall _ fun i hi => List.mem_range.1 hi

theorem valid_two {ni nj : ℕ} {m : List ℕ} (h : Valid [ni, nj] m) : ∃ i j, m = [i, j] ∧ i < ni ∧ j < nj := by
  unfold Valid at h
  cases h with
  | @cons _ i _ m hi hm =>
    cases hm with
    | @cons _ j _ m hj hm =>
      cases hm
      exact ⟨i, j, rfl, hi, hj⟩

theorem valid_pair {ni nj i j : ℕ} (hi : i < ni) (hj : j < nj) : Valid [ni, nj] [i, j] := .cons hi (.cons hj .nil)

theorem ravel_pair (ni nj i j : ℕ) : ravel [ni, nj] [i, j] = Grid.cell nj i j := by simp [ravel, Grid.cell]

theorem unravel_cell {ni nj i j : ℕ} (hi : i < ni) (hj : j < nj) : unravel [ni, nj] (Grid.cell nj i j) = [i, j] := by
  rw [← ravel_pair ni, unravel_ravel (valid_pair hi hj)]

/-- Both dimensions mapped by symmetries. -/
def onBoth (f0 f1 : ℕ → ℕ) : List ℕ → List ℕ
  | [i, j] => [f0 i, f1 j]
  | m => m

/-- The two dimensions exchanged. -/
def swapped : List ℕ → List ℕ
  | [i, j] => [j, i]
  | m => m

theorem both_matching {ni nj : ℕ} {p0 p1 : Bool} {f0 g0 F0 H0 f1 g1 F1 H1 : ℕ → ℕ} (D0 : DimSym ni p0 f0 g0 F0 H0) (D1 : DimSym nj p1 f1 g1 F1 H1) :
    Matching [ni, nj] [ni, nj] (onBoth f0 f1) (onBoth g0 g1) where
  there m h := by obtain ⟨i, j, rfl, hi, hj⟩ := valid_two h; exact valid_pair (D0.there i hi) (D1.there j hj)
  back m h := by obtain ⟨i, j, rfl, hi, hj⟩ := valid_two h; exact valid_pair (D0.back i hi) (D1.back j hj)
  left m h := by
    obtain ⟨i, j, rfl, hi, hj⟩ := valid_two h
    show [g0 (f0 i), g1 (f1 j)] = _
    rw [D0.left i hi, D1.left j hj]
  right m h := by
    obtain ⟨i, j, rfl, hi, hj⟩ := valid_two h
    show [f0 (g0 i), f1 (g1 j)] = _
    rw [D0.right i hi, D1.right j hj]
  size := rfl

theorem swap_matching (ni nj : ℕ) : Matching [ni, nj] [nj, ni] swapped swapped where
  there m h := by obtain ⟨i, j, rfl, hi, hj⟩ := valid_two h; exact valid_pair hj hi
  back m h := by obtain ⟨i, j, rfl, hi, hj⟩ := valid_two h; exact valid_pair hj hi
  left m h := by obtain ⟨i, j, rfl, hi, hj⟩ := valid_two h; rfl
  right m h := by obtain ⟨i, j, rfl, hi, hj⟩ := valid_two h; rfl
  size := by simp [Nat.mul_comm]

/-- the face before an index -/
theorem before_prev {n : ℕ} {per : Bool} {i : ℕ} (h1 : Grid.off per ≤ i) (h2 : i < n) : Grid.Before n per i (Grid.prev n per i) :=
  (Grid.before_iff ..).2 ⟨h1, h2, rfl⟩

theorem prev_lt {n : ℕ} {per : Bool} {i : ℕ} (h1 : Grid.off per ≤ i) (h2 : i < n) : Grid.prev n per i < n := Grid.before_lt (before_prev h1 h2)

/-- **C145** The links of a rectilinear grid rolled, or turned round, with the lengths. -/
theorem rect_symmetric {ni nj : ℕ} {p0 p1 : Bool} {f0 g0 F0 H0 f1 g1 F1 H1 : ℕ → ℕ} (D0 : DimSym ni p0 f0 g0 F0 H0) (D1 : DimSym nj p1 f1 g1 F1 H1)
    {x y yg xg x' y' yg' xg' : ℕ → ℕ → ℝ}
    (hx : ∀ i i' j, Grid.Before ni p0 i i' → j < nj → x' (F0 i) (f1 j) = x i j ∧ yg' (F0 i) (f1 j) = yg i j)
    (hy : ∀ i j j', i < ni → Grid.Before nj p1 j j' → y' (f0 i) (F1 j) = y i j ∧ xg' (f0 i) (F1 j) = xg i j) :
    SameLinks [ni, nj] [ni, nj] (onBoth f0 f1) (rectLinks ni nj p0 p1 x y yg xg) (rectLinks ni nj p0 p1 x' y' yg' xg') := by
  have hmap : ∀ i < ni, ∀ j < nj, ravel [ni, nj] (onBoth f0 f1 (unravel [ni, nj] (Grid.cell nj i j))) = Grid.cell nj (f0 i) (f1 j) := by
    intro i hi j hj
    rw [unravel_cell hi hj]
    exact ravel_pair ..
  refine ⟨Grid.flat (ni - Grid.off p0) nj (fun i j => ⟨(Grid.cell nj (F0 (i + Grid.off p0)) (f1 j), Grid.cell nj (Grid.prev ni p0 (F0 (i + Grid.off p0))) (f1 j)),
      x' (F0 (i + Grid.off p0)) (f1 j), yg' (F0 (i + Grid.off p0)) (f1 j)⟩) ++
    Grid.flat ni (nj - Grid.off p1) (fun i j => ⟨(Grid.cell nj (f0 i) (F1 (j + Grid.off p1)), Grid.cell nj (f0 i) (Grid.prev nj p1 (F1 (j + Grid.off p1)))),
      y' (f0 i) (F1 (j + Grid.off p1)), xg' (f0 i) (F1 (j + Grid.off p1))⟩), List.rel_append (flat_forall₂ ?_) (flat_forall₂ ?_), List.Perm.append ?_ ?_⟩
  · intro i hi j hj
    have hb := before_prev (n := ni) (per := p0) (i := i + Grid.off p0) (by omega) (by omega)
    obtain ⟨h1, h2⟩ := hx _ _ j hb hj
    refine ⟨h1, h2, ?_⟩
    simp only
    rw [hmap _ hb.1 j hj, hmap _ (Grid.before_lt hb) j hj]
    rcases D0.face _ _ hb with ⟨a1, a2⟩ | ⟨a1, a2⟩
    · left; rw [((Grid.before_iff ..).1 a1).2.2, ← a2]
    · right; rw [((Grid.before_iff ..).1 a1).2.2, ← a2]
  · intro i hi j hj
    have hb := before_prev (n := nj) (per := p1) (i := j + Grid.off p1) (by omega) (by omega)
    obtain ⟨h1, h2⟩ := hy i _ _ hi hb
    refine ⟨h1, h2, ?_⟩
    simp only
    rw [hmap i hi _ hb.1, hmap i hi _ (Grid.before_lt hb)]
    rcases D1.face _ _ hb with ⟨a1, a2⟩ | ⟨a1, a2⟩
    · left; rw [((Grid.before_iff ..).1 a1).2.2, ← a2]
    · right; rw [((Grid.before_iff ..).1 a1).2.2, ← a2]
  · have hF : ∀ i < ni - Grid.off p0, Grid.off p0 ≤ F0 (i + Grid.off p0) ∧ F0 (i + Grid.off p0) < ni ∧ H0 (F0 (i + Grid.off p0)) = i + Grid.off p0 ∧
        F0 (H0 (i + Grid.off p0)) = i + Grid.off p0 ∧ Grid.off p0 ≤ H0 (i + Grid.off p0) ∧ H0 (i + Grid.off p0) < ni := by
      intro i hi
      have hb := before_prev (n := ni) (per := p0) (i := i + Grid.off p0) (by omega) (by omega)
      obtain ⟨h1, h2, k, h3⟩ := D0.faceBack _ _ hb
      obtain ⟨h4, h5, -⟩ := (Grid.before_iff ..).1 h3
      rcases D0.face _ _ hb with ⟨a1, -⟩ | ⟨a1, -⟩ <;>
        exact ⟨((Grid.before_iff ..).1 a1).1, ((Grid.before_iff ..).1 a1).2.1, h1, h2, h4, h5⟩
    refine flat_perm (fun q => (F0 (q.1 + Grid.off p0) - Grid.off p0, f1 q.2)) (fun q => (H0 (q.1 + Grid.off p0) - Grid.off p0, g1 q.2)) ?_ ?_ ?_ ?_ ?_
    · intro i hi j hj
      obtain ⟨a, b, c, d, e, f⟩ := hF i hi
      exact ⟨by dsimp only; omega, D1.there j hj⟩
    · intro i hi j hj
      obtain ⟨a, b, c, d, e, f⟩ := hF i hi
      exact ⟨by dsimp only; omega, D1.back j hj⟩
    · intro i hi j hj
      obtain ⟨a, b, c, d, e, f⟩ := hF i hi
      dsimp only
      rw [Nat.sub_add_cancel a, c, Nat.add_sub_cancel, D1.left j hj]
    · intro i hi j hj
      obtain ⟨a, b, c, d, e, f⟩ := hF i hi
      dsimp only
      rw [Nat.sub_add_cancel e, d, Nat.add_sub_cancel, D1.right j hj]
    · intro i hi j hj
      obtain ⟨a, b, c, d, e, f⟩ := hF i hi
      dsimp only
      rw [Nat.sub_add_cancel a]
  · have hF : ∀ i < nj - Grid.off p1, Grid.off p1 ≤ F1 (i + Grid.off p1) ∧ F1 (i + Grid.off p1) < nj ∧ H1 (F1 (i + Grid.off p1)) = i + Grid.off p1 ∧
        F1 (H1 (i + Grid.off p1)) = i + Grid.off p1 ∧ Grid.off p1 ≤ H1 (i + Grid.off p1) ∧ H1 (i + Grid.off p1) < nj := by
      intro i hi
      have hb := before_prev (n := nj) (per := p1) (i := i + Grid.off p1) (by omega) (by omega)
      obtain ⟨h1, h2, k, h3⟩ := D1.faceBack _ _ hb
      obtain ⟨h4, h5, -⟩ := (Grid.before_iff ..).1 h3
      rcases D1.face _ _ hb with ⟨a1, -⟩ | ⟨a1, -⟩ <;>
        exact ⟨((Grid.before_iff ..).1 a1).1, ((Grid.before_iff ..).1 a1).2.1, h1, h2, h4, h5⟩
    refine flat_perm (fun q => (f0 q.1, F1 (q.2 + Grid.off p1) - Grid.off p1)) (fun q => (g0 q.1, H1 (q.2 + Grid.off p1) - Grid.off p1)) ?_ ?_ ?_ ?_ ?_
    · intro i hi j hj
      obtain ⟨a, b, c, d, e, f⟩ := hF j hj
      exact ⟨D0.there i hi, by dsimp only; omega⟩
    · intro i hi j hj
      obtain ⟨a, b, c, d, e, f⟩ := hF j hj
      exact ⟨D0.back i hi, by dsimp only; omega⟩
    · intro i hi j hj
      obtain ⟨a, b, c, d, e, f⟩ := hF j hj
      dsimp only
      rw [Nat.sub_add_cancel a, c, Nat.add_sub_cancel, D0.left i hi]
    · intro i hi j hj
      obtain ⟨a, b, c, d, e, f⟩ := hF j hj
      dsimp only
      rw [Nat.sub_add_cancel e, d, Nat.add_sub_cancel, D0.right i hi]
    · intro i hi j hj
      obtain ⟨a, b, c, d, e, f⟩ := hF j hj
      dsimp only
      rw [Nat.sub_add_cancel a]

/-- **C145** The links of a rectilinear grid with the two dimensions exchanged. -/
theorem rect_transposed {ni nj : ℕ} {p0 p1 : Bool} {x y yg xg x' y' yg' xg' : ℕ → ℕ → ℝ}
    (hx : ∀ i i' j, Grid.Before ni p0 i i' → j < nj → y' j i = x i j ∧ xg' j i = yg i j)
    (hy : ∀ i j j', i < ni → Grid.Before nj p1 j j' → x' j i = y i j ∧ yg' j i = xg i j) :
    SameLinks [ni, nj] [nj, ni] swapped (rectLinks ni nj p0 p1 x y yg xg) (rectLinks nj ni p1 p0 x' y' yg' xg') := by
  have hmap : ∀ i < ni, ∀ j < nj, ravel [nj, ni] (swapped (unravel [ni, nj] (Grid.cell nj i j))) = Grid.cell ni j i := by
    intro i hi j hj
    rw [unravel_cell hi hj]
    exact ravel_pair ..
  refine ⟨Grid.flat (ni - Grid.off p0) nj (fun i j => ⟨(Grid.cell ni j (i + Grid.off p0), Grid.cell ni j (Grid.prev ni p0 (i + Grid.off p0))),
      y' j (i + Grid.off p0), xg' j (i + Grid.off p0)⟩) ++
    Grid.flat ni (nj - Grid.off p1) (fun i j => ⟨(Grid.cell ni (j + Grid.off p1) i, Grid.cell ni (Grid.prev nj p1 (j + Grid.off p1)) i),
      x' (j + Grid.off p1) i, yg' (j + Grid.off p1) i⟩), List.rel_append (flat_forall₂ ?_) (flat_forall₂ ?_),
    List.perm_append_comm.trans (List.Perm.append ?_ ?_)⟩
  · intro i hi j hj
    have hb := before_prev (n := ni) (per := p0) (i := i + Grid.off p0) (by omega) (by omega)
    obtain ⟨h1, h2⟩ := hx _ _ j hb hj
    refine ⟨h1, h2, .inl ?_⟩
    simp only
    rw [hmap _ hb.1 j hj, hmap _ (Grid.before_lt hb) j hj]
  · intro i hi j hj
    have hb := before_prev (n := nj) (per := p1) (i := j + Grid.off p1) (by omega) (by omega)
    obtain ⟨h1, h2⟩ := hy i _ _ hi hb
    refine ⟨h1, h2, .inl ?_⟩
    simp only
    rw [hmap i hi _ hb.1, hmap i hi _ (Grid.before_lt hb)]
  · exact flat_perm (fun q => (q.2, q.1)) (fun q => (q.2, q.1)) (fun i hi j hj => ⟨hj, hi⟩) (fun i hi j hj => ⟨hj, hi⟩) (fun _ _ _ _ => rfl) (fun _ _ _ _ => rfl)
      (fun _ _ _ _ => rfl)
  · exact flat_perm (fun q => (q.2, q.1)) (fun q => (q.2, q.1)) (fun i hi j hj => ⟨hj, hi⟩) (fun i hi j hj => ⟨hj, hi⟩) (fun _ _ _ _ => rfl) (fun _ _ _ _ => rfl)
      (fun _ _ _ _ => rfl)

/-- **C145** Rolling the arrays of a call of `omega_surf` on a rectilinear grid along a periodic dimension, or turning them round along any dimension, with the lengths of the
grid, does the same to the surface returned. -/
theorem omegaSurf_symmetric {o o' : Opts (Fl ℝ)} {dims dims' : Option (List String)} {coord coord' : String → Option (List ℚ)} {S T S' T' : Nd (Fl ℝ)}
    {P P' : PArg (Fl ℝ)} {v v' : ℕ} {pr pr' : List ℕ → ℕ → Fl ℝ} {pc pc' : PinCast} {m0 : List ℕ} {pin : ℝ}
    {e : ℝ → ℝ → ℝ → ℝ} {smin tol : ℝ} {n : ℕ} {b b' : List ℕ → ℕ → ℝ} {p p' : Nd (Fl ℝ)}
    {ni nj : ℕ} {p0 p1 : Bool} {f0 g0 F0 H0 f1 g1 F1 H1 : ℕ → ℕ} (D0 : DimSym ni p0 f0 g0 F0 H0) (D1 : DimSym nj p1 f1 g1 F1 H1)
    {x y yg xg x' y' yg' xg' : ℕ → ℕ → ℝ}
    (hx : ∀ i i' j, Grid.Before ni p0 i i' → j < nj → x' (F0 i) (f1 j) = x i j ∧ yg' (F0 i) (f1 j) = yg i j)
    (hy : ∀ i j j', i < ni → Grid.Before nj p1 j j' → y' (f0 i) (F1 j) = y i j ∧ xg' (f0 i) (F1 j) = xg i j)
    (hsh : S.shape.eraseIdx v = [ni, nj]) (hsh' : S'.shape.eraseIdx v' = [ni, nj])
    (C : Call o dims coord S T P v pr (rectLinks ni nj p0 p1 x y yg xg) pc m0 pin e smin tol n b)
    (C' : Call o' dims' coord' S' T' P' v' pr' (rectLinks ni nj p0 p1 x' y' yg' xg') pc' (onBoth f0 f1 m0) pin e smin tol n b')
    (hS : SameOcean o o' S T S' T' v v' pr pr' [ni, nj] [ni, nj] (onBoth f0 f1) p p' m0 pin) :
    ∃ out out' st st', omegaSurf o dims coord S T P (gridOf (rectLinks ni nj p0 p1 x y yg xg)) pc (.array p) = .ok ([ni, nj], out, st) ∧
      omegaSurf o' dims' coord' S' T' P' (gridOf (rectLinks ni nj p0 p1 x' y' yg' xg')) pc' (.array p') = .ok ([ni, nj], out', st') ∧
      (∀ i < ni, ∀ j < nj, out' [f0 i, f1 j] = out [i, j]) ∧ st'.last = st.last := by
  obtain ⟨out, out', st, st', h1, h2, h3, h4⟩ := omegaSurf_relabel (σ := onBoth f0 f1) (τ := onBoth g0 g1) (by rw [hsh, hsh']; exact both_matching D0 D1) C C'
    (by rw [hsh, hsh']; exact hS) (by rw [hsh, hsh']; exact rect_symmetric D0 D1 hx hy)
  rw [hsh] at h1 h3
  rw [hsh'] at h2
  exact ⟨out, out', st, st', h1, h2, fun i hi j hj => h3 [i, j] (valid_pair hi hj), h4⟩

/-- **C145** Exchanging the two horizontal dimensions of the arrays of a call of `omega_surf` on a rectilinear grid, and of the lengths of the grid, exchanges those of the
surface returned. -/
theorem omegaSurf_transposed {o o' : Opts (Fl ℝ)} {dims dims' : Option (List String)} {coord coord' : String → Option (List ℚ)} {S T S' T' : Nd (Fl ℝ)}
    {P P' : PArg (Fl ℝ)} {v v' : ℕ} {pr pr' : List ℕ → ℕ → Fl ℝ} {pc pc' : PinCast} {m0 : List ℕ} {pin : ℝ}
    {e : ℝ → ℝ → ℝ → ℝ} {smin tol : ℝ} {n : ℕ} {b b' : List ℕ → ℕ → ℝ} {p p' : Nd (Fl ℝ)}
    {ni nj : ℕ} {p0 p1 : Bool} {x y yg xg x' y' yg' xg' : ℕ → ℕ → ℝ}
    (hx : ∀ i i' j, Grid.Before ni p0 i i' → j < nj → y' j i = x i j ∧ xg' j i = yg i j)
    (hy : ∀ i j j', i < ni → Grid.Before nj p1 j j' → x' j i = y i j ∧ yg' j i = xg i j)
    (hsh : S.shape.eraseIdx v = [ni, nj]) (hsh' : S'.shape.eraseIdx v' = [nj, ni])
    (C : Call o dims coord S T P v pr (rectLinks ni nj p0 p1 x y yg xg) pc m0 pin e smin tol n b)
    (C' : Call o' dims' coord' S' T' P' v' pr' (rectLinks nj ni p1 p0 x' y' yg' xg') pc' (swapped m0) pin e smin tol n b')
    (hS : SameOcean o o' S T S' T' v v' pr pr' [ni, nj] [nj, ni] swapped p p' m0 pin) :
    ∃ out out' st st', omegaSurf o dims coord S T P (gridOf (rectLinks ni nj p0 p1 x y yg xg)) pc (.array p) = .ok ([ni, nj], out, st) ∧
      omegaSurf o' dims' coord' S' T' P' (gridOf (rectLinks nj ni p1 p0 x' y' yg' xg')) pc' (.array p') = .ok ([nj, ni], out', st') ∧
      (∀ i < ni, ∀ j < nj, out' [j, i] = out [i, j]) ∧ st'.last = st.last := by
  obtain ⟨out, out', st, st', h1, h2, h3, h4⟩ := omegaSurf_relabel (σ := swapped) (τ := swapped) (by rw [hsh, hsh']; exact swap_matching ni nj) C C'
    (by rw [hsh, hsh']; exact hS) (by rw [hsh, hsh']; exact rect_transposed hx hy)
  rw [hsh] at h1 h3
  rw [hsh'] at h2
  exact ⟨out, out', st, st', h1, h2, fun i hi j hj => h3 [i, j] (valid_pair hi hj), h4⟩

/-! ## Example: three casts around a circle, one of them land, and the same rolled by one -/

def ringS (land : ℕ) : Nd (Fl ℝ) := ⟨[5, 1, 3], fun i => if i.getD 2 0 = land then Fl.nan else exCast.S.get (i.getD 0 0)⟩
def ringT (land : ℕ) : Nd (Fl ℝ) := ⟨[5, 1, 3], fun i => if i.getD 2 0 = land then Fl.nan else exCast.T.get (i.getD 0 0)⟩

/-- Distances 1, 2, 3 between the casts, beginning with that before cast `k`. -/
def ringDist (k : ℕ) : ℕ → ℕ → ℝ := fun _ j => if j = k then 1 else if j = (k + 1) % 3 then 2 else 3

noncomputable def ringO (f : String) (spsolve : ℕ → (ℕ → ℕ → Fl ℝ) → (ℕ → Fl ℝ) → ℕ → Fl ℝ)
    (lsqr : ℕ → ℕ → (ℕ → ℕ → Fl ℝ) → (ℕ → Fl ℝ) → ℕ → Fl ℝ) : Opts (Fl ℝ) := { apiO f spsolve lsqr with startWet := 11 }

theorem ring_links (k : ℕ) : rectLinks 1 3 false true (fun _ _ => 0) (ringDist k) (fun _ _ => 0) (fun _ _ => 6) =
    [⟨(0, 2), ringDist k 0 0, 6⟩, ⟨(1, 0), ringDist k 0 1, 6⟩, ⟨(2, 1), ringDist k 0 2, 6⟩] := by
  simp [rectLinks, Grid.flat, Grid.off, List.range_succ, Grid.cell, Grid.prev]

theorem ringDist_pos (k i j : ℕ) : 0 < ringDist k i j ∧ ringDist k i j ≤ 3 := by
  unfold ringDist
  split_ifs <;> norm_num

theorem ring_cast {land : ℕ} {m : List ℕ} (hm : Valid [1, 3] m) : ∃ j, m = [0, j] ∧ j < 3 ∧
    castAt (ringS land) (ringT land) (fun _ k => exCast.P.get k) 0 m = ⟨⟨5, fun k => if j = land then Fl.nan else exCast.S.get k⟩,
      ⟨5, fun k => if j = land then Fl.nan else exCast.T.get k⟩, exCast.P⟩ := by
  obtain ⟨i, j, rfl, hi, hj⟩ := valid_two hm
  obtain rfl : i = 0 := by omega
  exact ⟨j, rfl, hj, rfl⟩

theorem ring_call {land pin k : ℕ} (hpin : pin < 3) (hne : pin ≠ land) {f : String} {spsolve} {lsqr} {b} (hf : Formulated (ringO f spsolve lsqr) 2 b) :
    Call (ringO f spsolve lsqr) none (fun _ => none) (ringS land) (ringT land) (.small 5 exCast.P.get) 0 (fun _ k => exCast.P.get k)
      (rectLinks 1 3 false true (fun _ _ => 0) (ringDist k) (fun _ _ => 0) (fun _ _ => 6)) (.tuple [0, pin]) [0, pin] 1 (fun s t _ => s - t) 0 (1 / 100) 600 b where
  args := ⟨rfl, by show 0 < 3; norm_num, rfl, rfl, fun _ _ => rfl⟩
  horiz := by show 2 ≤ 3; norm_num
  pin := rfl
  valid := valid_pair (by norm_num) hpin
  within := by
    rw [ring_links]
    show ∀ x : Link, x ∈ _ → x.ends.1 < 3 ∧ x.ends.2 < 3
    simp
  dist := by
    rw [ring_links]
    simp only [List.mem_cons, List.not_mem_nil, or_false, forall_eq_or_imp, forall_eq]
    exact ⟨(ringDist_pos ..).1, (ringDist_pos ..).1, (ringDist_pos ..).1⟩
  solver := by
    refine ⟨2, by norm_num, ?_, hf⟩
    rw [ring_links]
    simp only [List.mem_cons, List.not_mem_nil, or_false, forall_eq_or_imp, forall_eq]
    have h : ∀ j, (2 : ℝ) ≤ 6 / ringDist k 0 j := fun j => by
      rw [le_div_iff₀ (ringDist_pos ..).1]
      linarith [(ringDist_pos k 0 j).2]
    exact ⟨h 0, h 1, h 2⟩
  tolEq := rfl
  tolPos := by norm_num
  fuel := rfl
  enough := by show 3 < 613; norm_num
  eos := exEos
  der := fun _ _ _ _ => ⟨1, -1, rfl⟩
  casts := by
    intro m hm
    obtain ⟨j, -, -, hj⟩ := ring_cast (land := land) hm
    rw [hj]
    by_cases h : j = land
    · left; simp only [h, if_true]; constructor <;> decide
    · right; simp only [h, if_false]
      exact ⟨_, _, 1, 4, _, _, _, exGood, fun i _ _ => by split_ifs <;> norm_num, by norm_num, rfl, rfl⟩
  start := by
    obtain ⟨j, h, -, hj⟩ := ring_cast (land := land) (m := [0, pin]) (valid_pair (by norm_num) hpin)
    obtain rfl : pin = j := by simpa using h
    rw [hj]
    simp only [hne, if_false]
    exact ⟨0, 3, ⟨1, 4, _, _, _, exGood, fun i _ _ => by split_ifs <;> norm_num, by norm_num, by norm_num, by norm_num⟩, by norm_num, by norm_num⟩
  below := by intro x h; cases h
  diags := by intro _; show 1 ≤ 10; norm_num

/-- The surface on the ring with land at 2 and pinned at 1, by the Poisson formulation, and on the ring rolled by one, with land at 0 and pinned at 2, by the gradient formulation. -/
example : ∃ spsolve lsqr out out' st st',
    omegaSurf (ringO "poisson" spsolve lsqr) none (fun _ => none) (ringS 2) (ringT 2) (.small 5 exCast.P.get)
      (gridOf (rectLinks 1 3 false true (fun _ _ => 0) (ringDist 0) (fun _ _ => 0) (fun _ _ => 6))) (.tuple [0, 1])
      (.array ⟨[1, 3], fun m => fin (if m = [0, 0] then 2 else 1)⟩) = .ok ([1, 3], out, st) ∧
    omegaSurf (ringO "gradient" spsolve lsqr) none (fun _ => none) (ringS 0) (ringT 0) (.small 5 exCast.P.get)
      (gridOf (rectLinks 1 3 false true (fun _ _ => 0) (ringDist 1) (fun _ _ => 0) (fun _ _ => 6))) (.tuple [0, 2])
      (.array ⟨[1, 3], fun m => fin (if m = [0, 1] then 2 else 1)⟩) = .ok ([1, 3], out', st') ∧
    out' [0, 1] = out [0, 0] ∧ out' [0, 2] = out [0, 1] ∧ out' [0, 0] = out [0, 2] := by
  obtain ⟨⟨spsolve, hs⟩, ⟨lsqr, hl⟩⟩ := OmegaMat.exact_solvers_exist (α := ℝ)
  have C := ring_call (land := 2) (pin := 1) (k := 0) (by norm_num) (by norm_num) (f := "poisson") (spsolve := spsolve) (lsqr := lsqr)
    (.inl ⟨by show "poisson".toLower = _; decide +kernel, 0, le_rfl, hs.near, rfl⟩)
  have C' := ring_call (land := 0) (pin := 2) (k := 1) (by norm_num) (by norm_num) (f := "gradient") (spsolve := spsolve) (lsqr := lsqr)
    (.inr ⟨by show "gradient".toLower = _; decide +kernel, 0, le_rfl, hl.near, fun _ _ => rfl, rfl⟩)
  have hj : ∀ j < 3, (j + 1) % 3 = if j = 2 then 0 else j + 1 := by decide
  obtain ⟨out, out', st, st', h1, h2, h3, -⟩ := omegaSurf_symmetric (DimSym.id 1 false) (DimSym.roll 3 1) (x := fun _ _ => 0) (y := ringDist 0) (yg := fun _ _ => 0)
    (xg := fun _ _ => 6) (x' := fun _ _ => 0) (y' := ringDist 1) (yg' := fun _ _ => 0) (xg' := fun _ _ => 6)
    (p := ⟨[1, 3], fun m => fin (if m = [0, 0] then 2 else 1)⟩) (p' := ⟨[1, 3], fun m => fin (if m = [0, 1] then 2 else 1)⟩)
    (fun _ _ _ _ _ => ⟨rfl, rfl⟩) (by
      intro i j j' _ hb
      refine ⟨?_, rfl⟩
      have hj3 := hb.1
      rw [hj j hj3]
      unfold ringDist
      interval_cases j <;> norm_num) rfl rfl C C' {
      casts := by
        intro m hm
        obtain ⟨i, j, rfl, hi, hj3⟩ := valid_two hm
        show castAt (ringS 0) (ringT 0) _ 0 [i, (j + 1) % 3] = castAt (ringS 2) (ringT 2) _ 0 [i, j]
        rw [hj j hj3]
        unfold castAt ringS ringT
        interval_cases j <;> simp
      opts := ⟨rfl, rfl, rfl, rfl, rfl, rfl, rfl, rfl, rfl, by show 10 < 11; norm_num, by show 10 < 11; norm_num⟩
      pml := trivial
      exact := .inl ⟨by show "poisson".toLower = _; decide +kernel, hs⟩
      exact' := .inr ⟨by show "gradient".toLower = _; decide +kernel, hl, fun _ _ => rfl⟩
      shape := rfl
      shape' := rfl
      pin := by simp
      init := by
        intro m hm
        obtain ⟨i, j, rfl, hi, hj3⟩ := valid_two hm
        obtain rfl : i = 0 := by omega
        show (fin (if [0, (j + 1) % 3] = [0, 1] then 2 else 1) : Fl ℝ) = fin (if [0, j] = [0, 0] then 2 else 1)
        interval_cases j <;> simp }
  exact ⟨spsolve, lsqr, out, out', st, st', h1, h2, h3 0 (by norm_num) 0 (by norm_num), h3 0 (by norm_num) 1 (by norm_num), h3 0 (by norm_num) 2 (by norm_num)⟩

end Omega
