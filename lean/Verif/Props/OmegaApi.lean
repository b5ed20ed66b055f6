import Verif.Props.OmegaTotal
import Verif.Props.OmegaFront

/-!
# A call of `omega_surf` on gridded data returns (C139)

From arrays with any number of horizontal dimensions, the list of edges with their lengths, and the name of the formulation, to the surface returned.
-/

namespace Lib

theorem valid_unravel : ∀ {s : List ℕ} {n : ℕ}, n < s.prod → Valid s (unravel s n) ∧ ravel s (unravel s n) = n
  | [], n, h => by
    simp only [List.prod_nil, Nat.lt_one_iff] at h
    subst h
    exact ⟨List.Forall₂.nil, rfl⟩
  | k :: s, n, h => by
    have hp : 0 < s.prod := by
      rcases Nat.eq_zero_or_pos s.prod with h0 | h0
      · rw [List.prod_cons, h0] at h; omega
      · exact h0
    obtain ⟨h1, h2⟩ := valid_unravel (s := s) (Nat.mod_lt n hp)
    refine ⟨List.Forall₂.cons ((Nat.div_lt_iff_lt_mul hp).2 (by rwa [List.prod_cons] at h)) h1, ?_⟩
    show n / s.prod * s.prod + ravel s (unravel s (n % s.prod)) = n
    rw [h2, Nat.div_add_mod']

end Lib

namespace Omega
open FloatLike Lib Traj Bfs VertSolve
open Fl hiding nan

/-- A link between two casts, with its length and that of the face it crosses. -/
structure Link where
  ends : ℕ × ℕ
  dist : ℝ
  perp : ℝ

/-- The grid of these links. -/
noncomputable def gridOf (L : List Link) : GridDict (Fl ℝ) :=
  ⟨L.map Link.ends, some (L.map fun x => fin x.dist), some (L.map fun x => fin x.perp)⟩

/-- The links with their weights, face length over distance. -/
noncomputable def weighted (L : List Link) : List ((ℕ × ℕ) × ℝ) := L.map fun x => (x.ends, x.perp / x.dist)

/-- The formulation is one of the two, in any case, with a matrix solver of bounded error; `b` is the resulting bound on the solution of
the Poisson equation on a region. -/
def Formulated (o : Opts (Fl ℝ)) (w : ℝ) (b : List ℕ → ℕ → ℝ) : Prop :=
  (o.formulation.toLower = "poisson" ∧ ∃ η, 0 ≤ η ∧ OmegaMat.NearSolve η o.spsolve ∧ b = fun m _ => (1 + m.length / w) * η) ∨
  (o.formulation.toLower = "gradient" ∧ ∃ g, 0 ≤ g ∧ OmegaMat.NearLsqr g o.lsqr ∧ (∀ x : ℝ, 0 < x → o.sqrt (fin x) = fin (√x)) ∧
    b = fun m _ => m.length * √(g / w))

/-- Well formed arguments: arrays, equation of state, casts, links, solver, pinning cast and options. -/
structure Call (o : Opts (Fl ℝ)) (dims : Option (List String)) (coord : String → Option (List ℚ)) (S T : Nd (Fl ℝ)) (P : PArg (Fl ℝ))
    (v : ℕ) (pr : List ℕ → ℕ → Fl ℝ) (L : List Link) (pc : PinCast) (m0 : List ℕ) (p0 : ℝ) (e : ℝ → ℝ → ℝ → ℝ) (smin tol : ℝ) (n : ℕ)
    (b : List ℕ → ℕ → ℝ) : Prop where
  args : Args o.vertDim dims S T P v pr
  horiz : 2 ≤ S.shape.length
  pin : processPinCast coord pc = .ok (m0.map fun i : ℕ => (i : ℤ))
  valid : Valid (S.shape.eraseIdx v) m0
  within : ∀ x ∈ L, x.ends.1 < (S.shape.eraseIdx v).prod ∧ x.ends.2 < (S.shape.eraseIdx v).prod
  dist : ∀ x ∈ L, 0 < x.dist
  solver : ∃ w > 0, (∀ x ∈ L, w ≤ x.perp / x.dist) ∧ Formulated o w b
  tolEq : o.tol = fin tol
  tolPos : 0 < tol
  fuel : o.fuel = n + 13
  enough : (S.shape.eraseIdx v).prod < o.fuel
  eos : EosOn o.eos e smin
  der : ∀ s t p : ℝ, smin ≤ s → ∃ x y, o.eosST (fin s) (fin t) (fin p) = (fin x, fin y)
  casts : ∀ m, Valid (S.shape.eraseIdx v) m → Land (castAt S T pr v m) ∨ ∃ A B, Sea (castAt S T pr v m) smin tol n A B
  start : ∃ A B, Sea (castAt S T pr v m0) smin tol n A B ∧ A ≤ p0 ∧ p0 ≤ B
  below : ∀ x, o.pml = some x → x.shape = S.shape.eraseIdx v ∧ lt (fin p0) (x.get m0) = false
  diags : o.diags = true → 1 ≤ o.iterMax

/-- The initial pressure: `p0` for all, or an array of the right shape with `p0` at the pinning cast. -/
def Starts (hs m0 : List ℕ) (p0 : ℝ) : PArgInit (Fl ℝ) → Prop
  | .scalar p => p = fin p0
  | .array p => p.shape = hs ∧ p.get m0 = fin p0
  | .other => False

theorem weighted_ratio (L : List Link) (hd : ∀ x ∈ L, 0 < x.dist) :
    distRatio (gridOf L) = .ok ((weighted L).map fun x => fin x.2) := by
  show FRes.ok _ = FRes.ok _
  congr 1
  induction L with
  | nil => rfl
  | cons x L ih =>
    have h1 := ih fun y hy => hd y (List.mem_cons_of_mem _ hy)
    simp only [gridOf, weighted, List.map_cons, List.zipWith_cons_cons] at h1 ⊢
    rw [h1, fin_div _ _ (hd x List.mem_cons_self).ne']

/-- the solver of either formulation -/
theorem solver_within {o : Opts (Fl ℝ)} {w : ℝ} {b : List ℕ → ℕ → ℝ} {L : List Link} (hw : 0 < w) (hmin : ∀ x ∈ L, w ≤ x.perp / x.dist)
    (h : Formulated o w b) : ∃ solver, solverOf o (gridOf L).edges ((weighted L).map fun x => fin x.2) = .ok solver ∧
      OmegaMat.SolverWithin (weighted L) o.eosST b solver := by
  have hE : (gridOf L).edges = (weighted L).map Prod.fst := by simp [gridOf, weighted]
  have hmin' : ∀ x ∈ weighted L, w ≤ x.2 := by
    intro x hx
    obtain ⟨y, hy, rfl⟩ := List.mem_map.1 hx
    exact hmin y hy
  rcases h with ⟨hf, η, hη, hs, rfl⟩ | ⟨hf, g, hg, hl, hsq, rfl⟩
  · unfold solverOf
    rw [if_pos hf, hE]
    exact ⟨_, rfl, OmegaMat.poisson_within _ _ hw hmin' hs hη⟩
  · unfold solverOf
    rw [if_neg (by rw [hf]; decide), if_pos hf, hE]
    obtain ⟨V, hV⟩ : ∃ V, V = (weighted L).map fun x => (x.1, √x.2) := ⟨_, rfl⟩
    have h1 : (weighted L).map Prod.fst = V.map Prod.fst := by rw [hV, List.map_map]; rfl
    have h2 : ((weighted L).map fun x => fin x.2).map o.sqrt = V.map fun x => fin x.2 := by
      rw [hV, List.map_map, List.map_map]
      exact List.map_congr_left fun x hx => hsq _ (hw.trans_le (hmin' x hx))
    have h3 : OmegaMat.squared V = weighted L := by
      unfold OmegaMat.squared
      rw [hV, List.map_map]
      conv_rhs => rw [← List.map_id (weighted L)]
      exact List.map_congr_left fun x hx => by
        show (x.1, √x.2 ^ 2) = x
        rw [Real.sq_sqrt (hw.trans_le (hmin' x hx)).le]
    rw [h1, h2, ← h3]
    refine ⟨_, rfl, OmegaMat.gradient_within V _ hw (by rw [h3]; exact hmin') hl hg (Real.sqrt_nonneg _) ?_⟩
    rw [Real.sq_sqrt (by positivity)]

/-- What a call hands to the iteration: the casts in C order, the graph of the links, the solver and the options. -/
structure Core (o : Opts (Fl ℝ)) (S T : Nd (Fl ℝ)) (v : ℕ) (pr : List ℕ → ℕ → Fl ℝ) (L : List Link) (m0 : List ℕ) (p0 : ℝ)
    (e : ℝ → ℝ → ℝ → ℝ) (smin tol : ℝ) (n : ℕ) (b : List ℕ → ℕ → ℝ) (hs : List ℕ) (c : Cfg (Fl ℝ)) : Prop where
  world : World c (weighted L) o.eosST e smin tol n b
  follows : Follows c o hs
  N : c.N = hs.prod
  pin : c.pin = ravel hs m0
  kind : c.kind = o.kind
  fuel : c.fuel = o.fuel
  casts : ∀ m, Valid hs m → c.casts (ravel hs m) = castAt S T pr v m
  nbrs : ∀ a q, q ∈ c.G.nbrs a ↔ ∃ x ∈ L, x.ends = (a, q) ∨ x.ends = (q, a)
  solver : solverOf o (gridOf L).edges ((weighted L).map fun x => fin x.2) = .ok c.solver
  start : ∃ A B, Sea (c.casts c.pin) smin tol n A B ∧ A ≤ p0 ∧ p0 ≤ B
  below : lt (fin p0) (c.pml c.pin) = false
  diags : c.diags = true → 1 ≤ c.iterMax

theorem call_core {o : Opts (Fl ℝ)} {dims : Option (List String)} {coord : String → Option (List ℚ)} {S T : Nd (Fl ℝ)} {P : PArg (Fl ℝ)}
    {v : ℕ} {pr : List ℕ → ℕ → Fl ℝ} {L : List Link} {pc : PinCast} {m0 : List ℕ} {p0 : ℝ} {e : ℝ → ℝ → ℝ → ℝ} {smin tol : ℝ} {n : ℕ}
    {b : List ℕ → ℕ → ℝ} (C : Call o dims coord S T P v pr L pc m0 p0 e smin tol n b) :
    ∃ c, Core o S T v pr L m0 p0 e smin tol n b (S.shape.eraseIdx v) c ∧
      ∀ init Q, checkInit (S.shape.eraseIdx v) init = .ok Q → omegaSurf o dims coord S T P (gridOf L) pc init =
        (ofIter (omega c Q)).bind fun st => .ok (S.shape.eraseIdx v, reshapeGet (S.shape.eraseIdx v) st.stp, st) := by
  have hne : S.shape.eraseIdx v ≠ [] := by
    intro h
    have := congrArg List.length h
    rw [List.length_eraseIdx, if_pos C.args.lt] at this
    have := C.horiz
    simp at *; omega
  obtain ⟨STP, hSTP⟩ : ∃ STP, processCasts dims S T P o.vertDim = .ok STP := by
    obtain ⟨h1, h2⟩ := processCasts_spec dims S T o.vertDim v C.args.lt C.args.dim (by rw [C.args.shape])
    have hp := C.args.press
    cases P with
    | full P => obtain ⟨_, _, _, e, _⟩ := h2 P (by rw [hp.1]); exact ⟨_, e⟩
    | small size P => obtain ⟨_, _, _, e, _⟩ := h1 size P hp.1; exact ⟨_, e⟩
  obtain ⟨a1, a2⟩ := C.args.casts hSTP
  have hhs : STP.1.shape.dropLast = S.shape.eraseIdx v := by rw [a1, List.dropLast_concat]
  obtain ⟨hs, hhs'⟩ : ∃ hs, hs = S.shape.eraseIdx v := ⟨_, rfl⟩
  have hedge : ∀ x ∈ (gridOf L).edges, x.1 < hs.prod ∧ x.2 < hs.prod := by
    intro x hx
    obtain ⟨y, hy, rfl⟩ := List.mem_map.1 hx
    rw [hhs']
    exact C.within y hy
  obtain ⟨G, g1, -⟩ := Graph.edgesToCsr_spec (gridOf L).edges hs.prod o.garbage hedge
  obtain ⟨g2, g3⟩ := Graph.edgesToCsr_mem _ _ _ hedge G g1
  obtain ⟨w, hw, hmin, hform⟩ := C.solver
  obtain ⟨solver, s1, s2⟩ := solver_within hw hmin hform
  obtain ⟨c, hc⟩ : ∃ c, c = cfgOf o hs STP.1 STP.2.1 STP.2.2 G (ravel hs m0) solver := ⟨_, rfl⟩
  have hfol : Follows c o hs := by rw [hc]; exact cfgOf_follows _ _ _ _ _ _ _ _
  have hN : c.N = hs.prod := by rw [hc]; rfl
  have hpin : c.pin = ravel hs m0 := by rw [hc]; rfl
  have hkind : c.kind = o.kind := by rw [hc]; rfl
  have hG : c.G = G := by rw [hc]; rfl
  have hv : Valid hs m0 := by rw [hhs']; exact C.valid
  have hcast : ∀ m, Valid hs m → c.casts (ravel hs m) = castAt S T pr v m := by
    intro m hm
    rw [hhs'] at hm
    rw [hc, hhs']
    exact a2 m hm
  have W : World c (weighted L) o.eosST e smin tol n b :=
    { ok := ⟨by rw [hG, hN]; exact g3, by rw [hpin, hN]; exact ravel_lt hv, by rw [hN, hhs', hc]; exact C.enough⟩
      tolEq := hfol.tol.trans C.tolEq
      tolPos := C.tolPos
      fuel := by rw [hc]; exact C.fuel
      eos := by rw [hfol.eos]; exact C.eos
      der := C.der
      casts := by
        intro m hm
        rw [hN] at hm
        obtain ⟨u1, u2⟩ := valid_unravel hm
        rw [← u2, hcast _ u1]
        exact C.casts _ (by rw [← hhs']; exact u1)
      edges := by
        intro a _ q hq
        rw [hG, g2] at hq
        have key : ∀ x, x ∈ (gridOf L).edges → ∃ y ∈ weighted L, y.1 = x := by
          intro x hx
          obtain ⟨y, hy, rfl⟩ := List.mem_map.1 hx
          exact ⟨_, List.mem_map_of_mem hy, rfl⟩
        rcases hq with hq | hq
        · obtain ⟨y, hy, h⟩ := key _ hq; exact ⟨y, hy, .inl h⟩
        · obtain ⟨y, hy, h⟩ := key _ hq; exact ⟨y, hy, .inr h⟩
      sym := by
        intro x y h
        rw [hG, g2] at h ⊢
        exact h.symm
      weights := by
        intro x hx
        obtain ⟨y, hy, rfl⟩ := List.mem_map.1 hx
        exact hw.trans_le (hmin y hy)
      solver := by rw [hc]; exact s2 }
  have hin : ∃ A B, Sea (c.casts c.pin) smin tol n A B ∧ A ≤ p0 ∧ p0 ≤ B := by rw [hpin, hcast _ hv]; exact C.start
  have hml : lt (fin p0) (c.pml c.pin) = false := by
    cases hp : o.pml with
    | none =>
      rw [hfol.noml hp]
      have : (lit 1 / lit 0 : Fl ℝ) = Fl.pinf := by
        rw [lit_eq, lit_eq]
        show Fl.div (fin _) (fin _) = _
        simp [Fl.div]
      rw [this]
      rfl
    | some x =>
      obtain ⟨b1, b2⟩ := C.below x hp
      rw [hpin, hfol.pml x hp (by rw [hhs']; exact b1) m0 hv]
      exact b2
  have hd : c.diags = true → 1 ≤ c.iterMax := by rw [hfol.diags, hfol.iterMax]; exact C.diags
  have hn : ∀ a q, q ∈ c.G.nbrs a ↔ ∃ x ∈ L, x.ends = (a, q) ∨ x.ends = (q, a) := by
    intro a q
    rw [hG, g2]
    show (a, q) ∈ L.map Link.ends ∨ (q, a) ∈ L.map Link.ends ↔ _
    simp only [List.mem_map]
    constructor
    · rintro (⟨x, hx, h⟩ | ⟨x, hx, h⟩)
      · exact ⟨x, hx, .inl h⟩
      · exact ⟨x, hx, .inr h⟩
    · rintro ⟨x, hx, h | h⟩
      · exact .inl ⟨x, hx, h⟩
      · exact .inr ⟨x, hx, h⟩
  rw [← hhs']
  refine ⟨c, ⟨W, hfol, hN, hpin, hkind, by rw [hc]; rfl, hcast, hn, by rw [hc]; exact s1, hin, hml, hd⟩, ?_⟩
  intro init Q q1
  unfold omegaSurf
  rw [C.pin, hSTP]
  simp only [ofLib, FRes.bind, hhs, ← hhs']
  rw [if_neg (by rw [hhs']; exact hne), ravelMultiIndex_ok.2 ⟨m0, rfl, hv, rfl⟩]
  simp only [FRes.bind]
  rw [weighted_ratio L C.dist]
  simp only [FRes.bind]
  rw [g1]
  simp only [ofGraph, FRes.bind]
  rw [s1]
  simp only
  rw [q1]
  simp only
  rw [← hc]

theorem reshape_ravel {A : Type*} {hs : List ℕ} (f : ℕ → A × A × A) {m : List ℕ} (hm : Valid hs m) : reshapeGet hs f m = f (ravel hs m) := by
  rw [reshapeGet, foldl_ravel hm, Nat.zero_mul, Nat.zero_add]

/-- **C139** A call of `omega_surf` with well formed arguments returns a surface of the horizontal shape of `S`, whose value at the pinning cast is the
point of that cast at the initial pressure, and whose value at every other cast is a point of that cast, or NaN.  Every pass of the run is as specified by `PassSpec`. -/
theorem omegaSurf_total {o : Opts (Fl ℝ)} {dims : Option (List String)} {coord : String → Option (List ℚ)} {S T : Nd (Fl ℝ)} {P : PArg (Fl ℝ)}
    {v : ℕ} {pr : List ℕ → ℕ → Fl ℝ} {L : List Link} {pc : PinCast} {m0 : List ℕ} {p0 : ℝ} {e : ℝ → ℝ → ℝ → ℝ} {smin tol : ℝ} {n : ℕ}
    {b : List ℕ → ℕ → ℝ} (C : Call o dims coord S T P v pr L pc m0 p0 e smin tol n b) {init : PArgInit (Fl ℝ)}
    (hI : Starts (S.shape.eraseIdx v) m0 p0 init) :
    ∃ out st, omegaSurf o dims coord S T P (gridOf L) pc init = .ok (S.shape.eraseIdx v, out, st) ∧
      (∃ s0 t0, out m0 = (fin s0, fin t0, fin p0) ∧ On o.kind (castAt S T pr v m0) s0 t0 p0) ∧
      (∀ m, Valid (S.shape.eraseIdx v) m → FinePt o.kind (castAt S T pr v m) smin (out m)) ∧
      ∃ c Q, omega c Q = .ok st ∧ Follows c o (S.shape.eraseIdx v) ∧ RunSpec c (weighted L) o.eosST e smin tol n b Q p0 := by
  obtain ⟨c, K, hrun⟩ := call_core C
  obtain ⟨hs, hhs'⟩ : ∃ hs, hs = S.shape.eraseIdx v := ⟨_, rfl⟩
  rw [← hhs'] at K hrun hI ⊢
  have hv : Valid hs m0 := by rw [hhs']; exact C.valid
  obtain ⟨Q, q1, q2⟩ : ∃ Q, checkInit hs init = .ok Q ∧ RunSpec c (weighted L) o.eosST e smin tol n b Q p0 := by
    cases init with
    | scalar p =>
      rw [show p = fin p0 from hI]
      exact ⟨_, rfl, omega_total_scalar K.world K.start K.below K.diags⟩
    | array p =>
      obtain ⟨i1, i2⟩ := hI
      refine ⟨.array (flatten p), by rw [checkInit, if_pos i1], omega_total K.world _ ?_ K.start K.below K.diags⟩
      rw [K.pin, flatten, i1, unravel_ravel hv, i2]
    | other => exact absurd hI id
  obtain ⟨st, stp0, s0, t0, r1, -, r3, r4, r5, -⟩ := id q2
  refine ⟨reshapeGet hs st.stp, st, ?_, ⟨s0, t0, ?_, ?_⟩, ?_, c, Q, r1, K.follows, q2⟩
  · rw [hrun _ _ q1, r1]; rfl
  · rw [reshape_ravel _ hv, ← K.pin, r5]
  · rw [K.kind, K.pin, K.casts _ hv] at r4; exact r4
  · intro m hm
    rw [reshape_ravel _ hm, ← K.casts m hm, ← K.kind]
    exact r3 _ (by rw [K.N]; exact ravel_lt hm)

/-! ## Example: three casts in a row along the second of two horizontal dimensions, the last one land; the vertical dimension comes first -/

def apiS : Nd (Fl ℝ) := ⟨[5, 1, 3], fun i => if i.getD 2 0 = 2 then Fl.nan else exCast.S.get (i.getD 0 0)⟩
def apiT : Nd (Fl ℝ) := ⟨[5, 1, 3], fun i => if i.getD 2 0 = 2 then Fl.nan else exCast.T.get (i.getD 0 0)⟩

noncomputable def apiO (f : String) (spsolve : ℕ → (ℕ → ℕ → Fl ℝ) → (ℕ → Fl ℝ) → ℕ → Fl ℝ)
    (lsqr : ℕ → ℕ → (ℕ → ℕ → Fl ℝ) → (ℕ → Fl ℝ) → ℕ → Fl ℝ) : Opts (Fl ℝ) where
  vertDim := .int 0
  formulation := f
  eos s t _ := s - t
  eosST _ _ _ := (fin 1, fin (-1))
  errs _ := (fin 0, fin 0)
  sqrt x := match x with | .fin x => fin (√x) | x => x
  spsolve := spsolve
  lsqr := lsqr
  kind := .pchip
  pml := none
  tol := fin (1/100)
  tolPhi := fin 0
  tolP := fin 0
  diags := true
  iterMin := 1
  iterMax := 10
  startWet := 1
  stopWet := 5
  nrep := 10
  garbage _ := 0
  fuel := 600 + 13

theorem api_cast {m : List ℕ} (hm : Valid [1, 3] m) : ∃ j, m = [0, j] ∧
    castAt apiS apiT (fun _ k => exCast.P.get k) 0 m = ⟨⟨5, fun k => if j = 2 then Fl.nan else exCast.S.get k⟩,
      ⟨5, fun k => if j = 2 then Fl.nan else exCast.T.get k⟩, exCast.P⟩ := by
  unfold Valid at hm
  cases hm with
  | @cons _ i _ m hi hm =>
    cases hm with
    | @cons _ j _ m hj hm =>
      cases hm
      obtain rfl : i = 0 := by omega
      exact ⟨j, rfl, rfl⟩

theorem api_call {f : String} {spsolve} {lsqr} {b} (hf : Formulated (apiO f spsolve lsqr) 2 b) :
    Call (apiO f spsolve lsqr) none (fun _ => none) apiS apiT (.small 5 exCast.P.get) 0 (fun _ k => exCast.P.get k)
      [⟨(0, 1), 1, 4⟩, ⟨(1, 2), 2, 4⟩] (.tuple [0, 1]) [0, 1] 1 (fun s t _ => s - t) 0 (1 / 100) 600 b where
  args := ⟨rfl, by decide, rfl, rfl, fun _ _ => rfl⟩
  horiz := by decide
  pin := rfl
  valid := by unfold Valid; simp [apiS]
  within := by simp [apiS]
  dist := by simp
  solver := ⟨2, by norm_num, by intro x hx; simp only [List.mem_cons, List.not_mem_nil, or_false] at hx; rcases hx with rfl | rfl <;> norm_num, hf⟩
  tolEq := rfl
  tolPos := by norm_num
  fuel := rfl
  enough := by show 3 < 613; norm_num
  eos := exEos
  der := fun _ _ _ _ => ⟨1, -1, rfl⟩
  casts := by
    intro m hm
    obtain ⟨j, -, hj⟩ := api_cast hm
    rw [hj]
    by_cases h : j = 2
    · left; simp only [h, if_true]; constructor <;> decide
    · right; simp only [h, if_false]
      exact ⟨_, _, 1, 4, _, _, _, exGood, fun i _ _ => by split_ifs <;> norm_num, by norm_num, rfl, rfl⟩
  start := by
    obtain ⟨j, h, hj⟩ := api_cast (m := [0, 1]) (by unfold Valid; simp)
    obtain rfl : j = 1 := by simpa using h.symm
    rw [hj]
    exact ⟨0, 3, ⟨1, 4, _, _, _, exGood, fun i _ _ => by split_ifs <;> norm_num, by norm_num, by norm_num, by norm_num⟩, by norm_num, by norm_num⟩
  below := by intro x h; cases h
  diags := by intro _; show 1 ≤ 10; norm_num

/-- Both formulations return, from a scalar and from an array. -/
example : ∃ spsolve lsqr, ∀ f ∈ ["Poisson", "gradient"], ∀ init ∈ [PArgInit.scalar (fin 1), .array ⟨[1, 3], fun _ => fin 1⟩],
    ∃ out st, omegaSurf (apiO f spsolve lsqr) none (fun _ => none) apiS apiT (.small 5 exCast.P.get) (gridOf [⟨(0, 1), 1, 4⟩, ⟨(1, 2), 2, 4⟩])
      (.tuple [0, 1]) init = .ok ([1, 3], out, st) ∧ (out [0, 1]).2.2 = fin 1 := by
  obtain ⟨⟨spsolve, hs⟩, ⟨lsqr, hl⟩⟩ := OmegaMat.exact_solvers_exist (α := ℝ)
  refine ⟨spsolve, lsqr, ?_⟩
  have key : ∀ f, (∃ b, Formulated (apiO f spsolve lsqr) 2 b) → ∀ init ∈ [PArgInit.scalar (fin 1), .array ⟨[1, 3], fun _ => fin 1⟩],
    ∃ out st, omegaSurf (apiO f spsolve lsqr) none (fun _ => none) apiS apiT (.small 5 exCast.P.get) (gridOf [⟨(0, 1), 1, 4⟩, ⟨(1, 2), 2, 4⟩])
      (.tuple [0, 1]) init = .ok ([1, 3], out, st) ∧ (out [0, 1]).2.2 = fin 1 := by
    rintro f ⟨b, hf⟩ init hi
    obtain ⟨out, st, h1, ⟨s0, t0, h2, -⟩, -⟩ := omegaSurf_total (api_call hf) (init := init) (by
      simp only [List.mem_cons, List.not_mem_nil, or_false] at hi
      rcases hi with rfl | rfl
      · rfl
      · exact ⟨rfl, rfl⟩)
    exact ⟨out, st, h1, by rw [h2]⟩
  intro f hf
  simp only [List.mem_cons, List.not_mem_nil, or_false] at hf
  rcases hf with rfl | rfl
  · exact key _ ⟨_, .inl ⟨by show "Poisson".toLower = _; decide +kernel, 0, le_rfl, hs.near, rfl⟩⟩
  · exact key _ ⟨_, .inr ⟨by show "gradient".toLower = _; decide +kernel, 0, le_rfl, hl.near, fun _ _ => rfl, rfl⟩⟩

end Omega
