import Verif.Props.LandMargin

/-! # Margins of land may be cut off (C195, the other direction) -/

set_option linter.unusedSectionVars false

namespace OmegaMat
open FloatLike
variable {F : Type*} [FloatLike F]

/-- If the second solver returns, so does the first. -/
structure SolverBack (N : ℕ) (f : ℕ → ℕ) (solver solver' : (ℕ → F) → (ℕ → F) → (ℕ → F) → List ℕ → ℕ → Res (ℕ → F)) : Prop where
  back : ∀ s t p s' t' p' m r φ', m.Nodup → (∀ n < N, s' (f n) = s n ∧ t' (f n) = t n ∧ p' (f n) = p n) →
    solver' s' t' p' (m.map f) (f r) = .ok φ' → ∃ φ, solver s t p m r = .ok φ
  empty : ∀ s t p r, solver' s t p [] r = .indexError

theorem poisson_back (spsolve : ℕ → (ℕ → ℕ → F) → (ℕ → F) → ℕ → F) (eosST : Ntp.EosST F) {N : ℕ} {f : ℕ → ℕ} (hf : Function.Injective f) {edges : List (ℕ × ℕ)}
    (hE : ∀ e ∈ edges, e.1 < N ∧ e.2 < N) (ratio : Ratio F) :
    SolverBack N f (fun s t p m r => poisson spsolve eosST s t p edges ratio m r) fun s t p m r => poisson spsolve eosST s t p (edges.map (movedE f)) ratio m r := by
  constructor
  · intro s t p s' t' p' m r φ hnd h hp
    unfold poisson at hp ⊢
    rw [List.length_map] at hp
    split_ifs at hp ⊢ with hl
    · match m, hl, hp with
      | [x], _, hp => exact ⟨_, rfl⟩
    · have er : refOf (m.map f) (f r) = refOf m r := by unfold refOf; rw [remap_moved hf hnd, List.length_map]
      rw [helper_emb eosST hf h hE ratio hnd, er] at hp
      split at hp
      · exact ⟨_, rfl⟩
      · cases hp
  · intro s t p r; rfl

theorem gradient_back (lsqr : ℕ → ℕ → (ℕ → ℕ → F) → (ℕ → F) → ℕ → F) (eosST : Ntp.EosST F) {N : ℕ} {f : ℕ → ℕ} {edges : List (ℕ × ℕ)} (ratio : Ratio F) :
    SolverBack N f (fun s t p m r => gradient lsqr eosST s t p edges ratio m r) fun s t p m r => gradient lsqr eosST s t p (edges.map (movedE f)) ratio m r := by
  constructor
  · intro s t p s' t' p' m r φ hnd h hp
    unfold gradient at hp ⊢
    rw [List.length_map] at hp
    split_ifs at hp ⊢ with hl
    · match m, hl, hp with
      | [x], _, hp => exact ⟨_, rfl⟩
    · exact ⟨_, rfl⟩
  · intro s t p r; rfl

end OmegaMat

namespace Omega
open FloatLike Fzero Interp Traj VertSolve Bfs
variable {F : Type*} [FloatLike F] {f : ℕ → ℕ} {c c' : Cfg F}

/-- Finding the region never fails. -/
theorem wetting_always (K : Ok c) (stp : Surf F) : ∃ r, wetting c stp = .ok r := by
  obtain ⟨r, _, h, -⟩ := perim_queue c.G c.ocean c.N c.pin stp K.graph K.pin c.garbage c.nrep c.fuel K.fuel
  exact ⟨(r.stp, r.newly), by unfold wetting; rw [h]; rfl⟩

theorem region_always (K : Ok c) (iter : ℕ) (stp : Surf F) : ∃ r, region c iter stp = .ok r := by
  unfold region
  split_ifs
  · obtain ⟨r, h⟩ := wetting_always K stp
    rw [h]; exact ⟨_, rfl⟩
  · obtain ⟨q, h, -⟩ := bfs_component c.G c.N c.pin (wet stp) K.graph K.pin c.fuel K.fuel
    have h : Bfs.bfs c.G c.pin (fun n => isFinite (stp n).2.2) c.fuel = some q := h
    rw [h]; exact ⟨_, rfl⟩

theorem removeML_emb (H : EmbCfg f c c') {iter : ℕ} {stp stp' : Surf F} (hs : ∀ n < c.N, stp' (f n) = stp n) :
    ∀ n < c.N, removeML c' iter stp' (f n) = removeML c iter stp n := by
  intro n hn
  unfold removeML
  split_ifs
  · dsimp only
    rw [hs n hn, H.pml n hn]
  · exact hs n hn

theorem step_back (L : NanLaws F) (H : EmbCfg f c c') (B : OmegaMat.SolverBack c.N f c.solver c'.solver) (K : Ok c) (K' : Ok c') {pinP : F} {iter : ℕ}
    {stp stp' : Surf F} (hs : ∀ n < c.N, stp' (f n) = stp n) {r' : Iter F} (h : step c' pinP iter stp' = .ok r') : ∃ r, step c pinP iter stp = .ok r := by
  unfold step at h
  obtain ⟨⟨stp1', qu', nw'⟩, h1, h2⟩ := bind_ok h
  obtain ⟨phi', h3, h4⟩ := bind_ok h2
  obtain ⟨stp2', h5, h6⟩ := bind_ok h4
  replace h3 := ofMat_ok h3
  replace h5 := ofOutcome_ok h5
  obtain ⟨⟨stp1, qu, nw⟩, g1⟩ := region_always K iter (removeML c iter stp)
  obtain ⟨j1, -, -, j4, j5, -⟩ := region_spec L.fin K g1
  obtain ⟨r1, i1, i2, i2', i3, i4⟩ := region_emb L H K K' (removeML_emb H hs) g1
  rw [h1] at i1
  cases i1
  dsimp only at h3 h5 i2 i3 i4
  subst i2
  rw [H.pin] at h3
  have hpin : c.pin ∈ qu := by
    rcases Bool.eq_false_or_eq_true (wet (removeML c iter stp) c.pin) with hh | hh
    · exact j4 hh
    · rw [j5 hh, List.map_nil, B.empty] at h3; cases h3
  have hsame : ∀ n < c.N, (stp1' (f n)).1 = (stp1 n).1 ∧ (stp1' (f n)).2.1 = (stp1 n).2.1 ∧ (stp1' (f n)).2.2 = (stp1 n).2.2 :=
    fun n hn => by rw [i3 n hn]; exact ⟨rfl, rfl, rfl⟩
  obtain ⟨phi, g3⟩ := B.back (fun n => (stp1 n).1) (fun n => (stp1 n).2.1) (fun n => (stp1 n).2.2) _ _ _ _ _ _ j1 hsame h3
  obtain ⟨phi1, k1, k2, -⟩ := H.solver.same _ _ _ (fun n => (stp1' n).1) (fun n => (stp1' n).2.1) (fun n => (stp1' n).2.2) _ _ _ j1 hpin hsame g3
  rw [h3] at k1
  cases k1
  obtain ⟨v1, -⟩ := (vertsolveOmega_pointwise _ _ _ _ _ _ _ _ _).1 h5
  have hv : vertsolveOmega c.fuel c.tol c.kind c.eos phi c.casts stp1 c.N = .ret (fun n => if n < c.N then stp2' (f n) else stp1 n) := by
    rw [vertsolveOmega_pointwise]
    constructor
    · intro n hn
      rw [if_pos hn, ← v1 _ (H.inN n hn), H.fuel, H.tol, H.kind, H.eos, H.casts n hn, i3 n hn, k2 n]
    · intro n hn
      rw [if_neg (by omega)]
  unfold step
  rw [g1]
  show ∃ r, (ofMat (c.solver _ _ _ qu c.pin)).bind _ = _
  rw [g3]
  show ∃ r, (ofOutcome _).bind _ = _
  rw [hv]
  exact ⟨_, rfl⟩

theorem loop_back (L : NanLaws F) (H : EmbCfg f c c') (B : OmegaMat.SolverBack c.N f c.solver c'.solver) (K : Ok c) (K' : Ok c') {pinP : F} :
    ∀ (left iter : ℕ) (s s' e' : State F), (∀ n < c.N, s'.stp (f n) = s.stp n) → s'.rms = s.rms →
      loop c' pinP left iter s' = .ok e' → ∃ e, loop c pinP left iter s = .ok e := by
  intro left
  induction left with
  | zero => intro iter s s' e h1 _ _; exact ⟨s, rfl⟩
  | succ left ih =>
    intro iter s s' e h1 h2 h
    unfold loop at h ⊢
    obtain ⟨r1, h4, h5⟩ := bind_ok h
    obtain ⟨r, g4⟩ := step_back L H B K K' h1 h4
    obtain ⟨r', i1, i4, i5, i6, i7, i9⟩ := step_emb L H K K' h1 g4
    rw [h4] at i1
    cases i1
    rw [g4]
    have hphi : phiMAV c' r1 = phiMAV c r := by
      unfold phiMAV
      apply nanmean_emb H
      · intro n hn; rw [i4 n hn]
      · intro k _ hc; rw [i7 k hc]; exact L.abs
    have hrms : dpRMS c' s'.rms r1 = dpRMS c s.rms r := by
      unfold dpRMS
      rw [H.diags, H.tolP, H.sqrt, h2]
      have : (nanmean c'.N fun n => dp r1 n * dp r1 n) = nanmean c.N fun n => dp r n * dp r n := by
        apply nanmean_emb H
        · intro n hc; unfold dp; rw [i5 n hc, i6 n hc]
        · intro n hn hc; unfold dp; rw [i9 n hn hc]; exact L.sq _
      rw [this]
    have hconv : converged c' iter r1 (dpRMS c' s'.rms r1) = converged c iter r (dpRMS c s.rms r) := by
      unfold converged
      rw [hphi, hrms, H.tolPhi, H.tolP, H.iterMin]
    show ∃ e, (if converged c iter r (dpRMS c s.rms r) then Res.ok (after c iter s r) else loop c pinP left (iter + 1) (after c iter s r)) = _
    rw [hconv] at h5
    split_ifs at h5 ⊢
    · exact ⟨_, rfl⟩
    · exact ih _ (after c iter s r) (after c' iter s' r1) _ i6 hrms h5

theorem init_back (L : NanLaws F) (H : EmbCfg f c c') (K : Ok c) (K' : Ok c') {p0 p0' : PInit F} (hp : EmbPInit f c c' p0 p0') {stp' : Surf F}
    (h : init c' p0' = .ok stp') : ∃ stp, init c p0 = .ok stp := by
  have hint : ∀ p, ∀ n < c.N, interpTwo c' p (f n) = interpTwo c p n := by
    intro p n hn
    unfold interpTwo
    rw [H.kind, H.casts n hn]
  unfold init at h
  obtain ⟨raw', h1, h2⟩ := bind_ok h
  obtain ⟨raw, i1, i2⟩ : ∃ raw, initRaw c p0 = .ok raw ∧ raw' (f c.pin) = raw c.pin := by
    match p0, p0', hp with
    | .scalar p, .scalar p', hp =>
      obtain rfl : p' = p := hp
      unfold initRaw at h1
      obtain ⟨st, h3, h1⟩ := bind_ok h1
      obtain ⟨q', h4, h1⟩ := bind_ok h1
      cases h1
      have h3 := ofOption_ok h3
      rw [H.pin, hint _ _ K.pin] at h3
      obtain ⟨q, g4⟩ := wetting_always K (Function.update (fun _ => (nan, nan, nan)) c.pin (st.1, st.2, p'))
      obtain ⟨q1, j1, -, j3, -⟩ := wetting_emb L H K K' (stp' := Function.update (fun _ => (nan, nan, nan)) (f c.pin) (st.1, st.2, p'))
        (fun n _ => by
          by_cases e : n = c.pin
          · subst e; rw [Function.update_self, Function.update_self]
          · rw [Function.update_of_ne e, Function.update_of_ne (fun e' => e (H.mono.injective e'))]) g4
      rw [H.pin, j1] at h4
      cases h4
      refine ⟨q.1, ?_, j3 _ K.pin⟩
      unfold initRaw
      dsimp only
      rw [h3]
      show (wetting c _).bind _ = _
      rw [g4]; rfl
    | .array p, .array p', hp =>
      unfold initRaw at h1
      dsimp only at h1
      split_ifs at h1 with h3
      cases h1
      refine ⟨fun n => if n < c.N then ((((interpTwo c (p n) n).getD (nan, nan)).1), ((interpTwo c (p n) n).getD (nan, nan)).2, p n)
          else (nan, nan, nan), ?_, ?_⟩
      · unfold initRaw
        dsimp only
        rw [if_pos]
        intro n hn
        rw [← hint _ n hn, ← hp.1 n hn]
        exact h3 _ (H.inN n hn)
      · dsimp only
        rw [if_pos (H.inN _ K.pin), if_pos K.pin, hp.1 _ K.pin, hint _ _ K.pin]
  split_ifs at h2 with hn
  refine ⟨fun n => if isNaN (raw n).1 then ((raw n).1, (raw n).2.1, nan) else raw n, ?_⟩
  · unfold init
    rw [i1]
    show (if isNaN (raw c.pin).1 = true then _ else _) = _
    rw [H.pin, i2] at hn
    rw [if_neg hn]

/-- **C195, the other direction.** If `omega_surf` returns on the larger ocean, so it does on the smaller. -/
theorem omega_back (L : NanLaws F) (H : EmbCfg f c c') (B : OmegaMat.SolverBack c.N f c.solver c'.solver) (K : Ok c) (K' : Ok c') {p0 p0' : PInit F}
    (hp : EmbPInit f c c' p0 p0') {s' : State F} (h : omega c' p0' = .ok s') : ∃ s, omega c p0 = .ok s := by
  unfold omega at h
  obtain ⟨stp', h1, h2⟩ := bind_ok h
  obtain ⟨e', h3, h4⟩ := bind_ok h2
  obtain ⟨stp, g1⟩ := init_back L H K K' hp h1
  obtain ⟨stp1, i1, i2, i3⟩ := init_emb L H K K' hp g1
  rw [h1] at i1
  cases i1
  rw [i3, H.iterMax] at h3
  obtain ⟨e, g3⟩ := loop_back L H B K K' _ _ ⟨stp, lit 0, if c.diags then [diag0 c stp] else [], 0⟩ ⟨stp', lit 0, if c'.diags then [diag0 c' stp'] else [], 0⟩ _ i2 rfl h3
  obtain ⟨e1, j1, j2, j3⟩ := loop_emb L H K K' _ _ ⟨stp, lit 0, _, 0⟩ ⟨stp', lit 0, if c'.diags then [diag0 c' stp'] else [], 0⟩ _ i2 rfl rfl g3
  rw [h3] at j1
  cases j1
  split_ifs at h4 with hd
  refine ⟨e, ?_⟩
  unfold omega
  rw [g1]
  show (loop c (pinPOf c p0) c.iterMax 1 _).bind _ = _
  rw [g3]
  show (if _ then _ else _) = _
  rw [H.diags, j2] at hd
  rw [if_neg hd]

end Omega

namespace Omega
open FloatLike Lib Bfs
variable {F : Type*} [FloatLike F]

/-- The shape of an initial surface. -/
def ShapeIs (hs : List ℕ) : PArgInit F → Prop
  | .array p => p.shape = hs
  | _ => True

theorem startIn_back {hs hs' : List ℕ} {φ : List ℕ → List ℕ} {x y : PArgInit F} (h : StartIn hs hs' φ x y) (hx : ShapeIs hs x) :
    ∃ q, checkInit hs x = .ok q := by
  cases x <;> cases y
  case scalar.scalar => exact ⟨_, rfl⟩
  case array.array p p' => exact ⟨.array (flatten p), by unfold checkInit; dsimp only; rw [if_pos (show p.shape = hs from hx)]⟩
  all_goals exact h.elim

/-- As `omegaSurf_in`, from the larger ocean to the smaller. -/
theorem omegaSurf_out (L : NanLaws F) {o : Opts F} {pml' : Option (Nd F)} {dims : Option (List String)} {coord : String → Option (List ℚ)} {S T S' T' : Nd F}
    {P P' : PArg F} {v : ℕ} {pr pr' : List ℕ → ℕ → F} (A : Args o.vertDim dims S T P v pr) (A' : Args o.vertDim dims S' T' P' v pr')
    {hs hs' : List ℕ} (hsh : S.shape.eraseIdx v = hs) (hsh' : S'.shape.eraseIdx v = hs') (hne : hs ≠ []) {f : ℕ → ℕ} (hf : StrictMono f)
    {φ : List ℕ → List ℕ} (hφ : ∀ m, Valid hs m → Valid hs' (φ m) ∧ ravel hs' (φ m) = f (ravel hs m)) {E : List ((ℕ × ℕ) × F × F)}
    (hE : ∀ e ∈ E, e.1.1 < hs.prod ∧ e.1.2 < hs.prod) (hfuel : hs.prod < o.fuel) (hfuel' : hs'.prod < o.fuel)
    {pc pc' : PinCast} {m0 : List ℕ} (hv : Valid hs m0) (hpc : processPinCast coord pc = .ok (m0.map fun i : ℕ => (i : ℤ)))
    (hpc' : processPinCast coord pc' = .ok ((φ m0).map fun i : ℕ => (i : ℤ)))
    (hcast : ∀ m, Valid hs m → castAt S' T' pr' v (φ m) = castAt S T pr v m)
    (hland : ∀ m, Valid hs' m → (∀ m1, Valid hs m1 → φ m1 ≠ m) → Few (castAt S' T' pr' v m) = true)
    (hpml : PmlIn hs hs' φ o.pml pml') {p0 p0' : PArgInit F} (hp0 : StartIn hs hs' φ p0 p0') (hps : ShapeIs hs p0)
    {hs1 : List ℕ} {out' : List ℕ → F × F × F} {st' : State F}
    (h : omegaSurf { o with pml := pml' } dims coord S' T' P' (gridL (E.map (movedL f))) pc' p0' = .ok (hs1, out', st')) :
    ∃ out st, omegaSurf o dims coord S T P (gridL E) pc p0 = .ok (hs, out, st) := by
  have hin : ∀ k < hs.prod, f k < hs'.prod := by
    intro k hk
    obtain ⟨u1, u2⟩ := valid_unravel hk
    obtain ⟨w1, w2⟩ := hφ _ u1
    rw [u2] at w2
    rw [← w2]; exact ravel_lt w1
  have hg : ∀ e ∈ (gridL E).edges, e.1 < hs.prod ∧ e.2 < hs.prod := by
    intro e he
    obtain ⟨y, hy, rfl⟩ := List.mem_map.1 he
    exact hE y hy
  have hedges : (gridL (E.map (movedL f))).edges = (gridL E).edges.map (OmegaMat.movedE f) := by
    unfold gridL
    simp only [List.map_map]
    rfl
  have hg' : ∀ e ∈ (gridL (E.map (movedL f))).edges, e.1 < hs'.prod ∧ e.2 < hs'.prod := by
    intro e he
    rw [hedges] at he
    obtain ⟨y, hy, rfl⟩ := List.mem_map.1 he
    exact ⟨hin _ (hg y hy).1, hin _ (hg y hy).2⟩
  have hratio : distRatio (gridL (E.map (movedL f))) = distRatio (gridL E) := by
    unfold gridL distRatio
    simp only [List.map_map]
    rfl
  unfold omegaSurf at h
  obtain ⟨pc1, e1, h⟩ := fbind_ok h
  obtain ⟨STP', e2, h⟩ := fbind_ok h
  have e2' : processCasts dims S' T' P' o.vertDim = .ok STP' := by
    revert e2
    show ofLib (processCasts dims S' T' P' o.vertDim) = .ok STP' → _
    cases processCasts dims S' T' P' o.vertDim <;> intro e2 <;> first | (cases e2; rfl) | cases e2
  obtain ⟨b1, b2⟩ := A'.casts e2'
  rw [hsh'] at b1 b2
  have hhs' : STP'.1.shape.dropLast = hs' := by rw [b1, List.dropLast_concat]
  rw [hpc'] at e1
  cases e1
  dsimp only at h
  rw [hhs'] at h
  by_cases h0 : hs' = []
  · rw [if_pos h0] at h; cases h
  rw [if_neg h0] at h
  obtain ⟨pin, e3, h⟩ := fbind_ok h
  obtain ⟨ratio, e4, h⟩ := fbind_ok h
  obtain ⟨G', e5, h⟩ := fbind_ok h
  obtain ⟨solver', e6, h⟩ := fbind_ok h
  obtain ⟨q0', e7, h⟩ := fbind_ok h
  obtain ⟨s, e8, h⟩ := fbind_ok h
  cases h
  have hpin' : ravelMultiIndex hs' ((φ m0).map fun i : ℕ => (i : ℤ)) = .ok (f (ravel hs m0)) :=
    ravelMultiIndex_ok.2 ⟨φ m0, rfl, (hφ m0 hv).1, (hφ m0 hv).2.symm⟩
  rw [hpin'] at e3
  cases e3
  rw [hratio] at e4
  have e5' : Graph.edgesToCsr (gridL (E.map (movedL f))).edges hs'.prod o.garbage = .ok G' := by
    revert e5
    show ofGraph (Graph.edgesToCsr (gridL (E.map (movedL f))).edges hs'.prod o.garbage) = .ok G' → _
    cases Graph.edgesToCsr (gridL (E.map (movedL f))).edges hs'.prod o.garbage <;> intro e5 <;> first | (cases e5; rfl) | cases e5
  have e8' : omega (cfgOf { o with pml := pml' } hs' STP'.1 STP'.2.1 STP'.2.2 G' (f (ravel hs m0)) solver') q0' = .ok st' := by
    revert e8
    cases omega (cfgOf { o with pml := pml' } hs' STP'.1 STP'.2.1 STP'.2.2 G' (f (ravel hs m0)) solver') q0' <;> intro e8 <;> first | (cases e8; rfl) | cases e8
  obtain ⟨g2', g3'⟩ := Graph.edgesToCsr_mem _ _ _ hg' G' e5'
  obtain ⟨G1, f5, -, -, n2⟩ := Graph.edgesToCsr_spec (gridL (E.map (movedL f))).edges hs'.prod o.garbage hg'
  rw [e5'] at f5
  cases f5
  obtain ⟨G, f5, -, -, n1⟩ := Graph.edgesToCsr_spec (gridL E).edges hs.prod o.garbage hg
  obtain ⟨g2, g3⟩ := Graph.edgesToCsr_mem _ _ _ hg G f5
  -- the call on the smaller ocean
  obtain ⟨STP, f2⟩ : ∃ STP, processCasts dims S T P o.vertDim = .ok STP := by
    obtain ⟨h1, h2⟩ := processCasts_spec dims S T o.vertDim v A.lt A.dim (by rw [A.shape])
    have hp := A.press
    cases P with
    | full P => obtain ⟨_, _, _, e, _⟩ := h2 P (by rw [hp.1]); exact ⟨_, e⟩
    | small size P => obtain ⟨_, _, _, e, _⟩ := h1 size P hp.1; exact ⟨_, e⟩
  obtain ⟨a1, a2⟩ := A.casts f2
  rw [hsh] at a1 a2
  have hhs : STP.1.shape.dropLast = hs := by rw [a1, List.dropLast_concat]
  have hpin : ravelMultiIndex hs (m0.map fun i : ℕ => (i : ℤ)) = .ok (ravel hs m0) := ravelMultiIndex_ok.2 ⟨m0, rfl, hv, rfl⟩
  obtain ⟨solver, e6', hsol, hback⟩ : ∃ solver, solverOf o (gridL E).edges ratio = .ok solver ∧ OmegaMat.EmbSolver hs.prod f solver solver' ∧
      OmegaMat.SolverBack hs.prod f solver solver' := by
    rw [hedges] at e6
    unfold solverOf at e6 ⊢
    dsimp only at e6
    split_ifs at e6 ⊢
    · cases e6; exact ⟨_, rfl, OmegaMat.poisson_emb _ _ hf.injective hg _, OmegaMat.poisson_back _ _ hf.injective hg _⟩
    · cases e6; exact ⟨_, rfl, OmegaMat.gradient_emb _ _ hf.injective hg _, OmegaMat.gradient_back _ _ _⟩
  obtain ⟨c, hc⟩ : ∃ c, c = cfgOf o hs STP.1 STP.2.1 STP.2.2 G (ravel hs m0) solver := ⟨_, rfl⟩
  obtain ⟨c', hc'⟩ : ∃ c', c' = cfgOf { o with pml := pml' } hs' STP'.1 STP'.2.1 STP'.2.2 G' (f (ravel hs m0)) solver' := ⟨_, rfl⟩
  have hcasts : ∀ k < hs.prod, castsOf STP'.1 STP'.2.1 STP'.2.2 (f k) = castsOf STP.1 STP.2.1 STP.2.2 k := by
    intro k hk
    obtain ⟨u1, u3⟩ := valid_unravel hk
    obtain ⟨x1, x2⟩ := hφ _ u1
    have w1 := a2 _ u1
    have w2 := b2 _ x1
    rw [u3] at w1 x2
    rw [x2] at w2
    rw [w1, w2, hcast _ u1]
  have H : EmbCfg f c c' := by
    rw [hc, hc']
    refine ⟨hf, hin, ⟨?_, ?_⟩, hcasts, fun k hk => pmlIn_flat hφ hpml hk, hsol, rfl, rfl, rfl, rfl, rfl, rfl, rfl, rfl, rfl, rfl, rfl, rfl, rfl, rfl⟩
    · intro m _
      show G'.nbrs (f m) = (G.nbrs m).map f
      rw [n1, n2, hedges, Graph.otherEnds_moved hf.injective]
    · intro a ha b hb
      rcases (g2 a b).1 hb with hb' | hb'
      · exact (hg _ hb').2
      · exact (hg _ hb').1
  have B : OmegaMat.SolverBack c.N f c.solver c'.solver := by rw [hc, hc']; exact hback
  have K : Ok c := by rw [hc]; exact ⟨g3, ravel_lt hv, hfuel⟩
  have K' : Ok c' := by rw [hc']; exact ⟨g3', hin _ (ravel_lt hv), hfuel'⟩
  have hint : ∀ p, ∀ k < c'.N, (∀ n < c.N, f n ≠ k) → (interpTwo c' p k).isSome = true := by
    intro p k hk hn
    rw [hc'] at hk
    rw [hc] at hn
    obtain ⟨u1, u2⟩ := valid_unravel (show k < hs'.prod from hk)
    have hl := hland _ u1 (by
      intro m1 hm1 e
      refine hn (ravel hs m1) (ravel_lt hm1) ?_
      rw [← (hφ m1 hm1).2, e, u2])
    have := few_interp hl o.kind p
    rw [← b2 _ u1, u2] at this
    rw [hc']
    show (interpOn o.kind (castsOf STP'.1 STP'.2.1 STP'.2.2 k) p).isSome = true
    rw [this]; rfl
  obtain ⟨q0, f7⟩ := startIn_back hp0 hps
  obtain ⟨q1, f7', hq⟩ := startIn_check hφ hp0 f7 (c := c) (c' := c') (by rw [hc]; rfl) hint
  rw [e7] at f7'
  cases f7'
  rw [← hc'] at e8'
  obtain ⟨s, k1⟩ := omega_back L H B K K' hq e8'
  refine ⟨reshapeGet hs s.stp, s, ?_⟩
  unfold omegaSurf
  rw [hpc]
  dsimp only
  rw [f2]
  simp only [ofLib, FRes.bind, hhs]
  rw [if_neg hne, hpin]
  simp only
  rw [e4]
  simp only
  rw [f5]
  simp only [ofGraph]
  rw [e6']
  simp only
  rw [f7]
  simp only
  rw [← hc, k1]
  rfl

/-- **C195.** Margins of land may be cut off: the converse of `omegaSurf_land_margin`. -/
theorem omegaSurf_land_trim (L : NanLaws F) (hN : isNaN (nan : F) = true) {o : Opts F} {pml' : Option (Nd F)} {dims : Option (List String)}
    {coord : String → Option (List ℚ)} {S T S' T' : Nd F} {P P' : PArg F} {v : ℕ} {pr pr' : List ℕ → ℕ → F} (A : Args o.vertDim dims S T P v pr)
    (A' : Args o.vertDim dims S' T' P' v pr') {hs hs' : List ℕ} (hsh : S.shape.eraseIdx v = hs) (hsh' : S'.shape.eraseIdx v = hs') (hne : hs ≠ []) (hne' : hs' ≠ [])
    {f : ℕ → ℕ} (hf : StrictMono f) {φ : List ℕ → List ℕ} (hφ : ∀ m, Valid hs m → Valid hs' (φ m) ∧ ravel hs' (φ m) = f (ravel hs m))
    {E E' : List ((ℕ × ℕ) × F × F)} (hE : ∀ e ∈ E, e.1.1 < hs.prod ∧ e.1.2 < hs.prod) (hE' : ∀ e ∈ E', e.1.1 < hs'.prod ∧ e.1.2 < hs'.prod)
    (hfuel : hs.prod < o.fuel) (hfuel' : hs'.prod < o.fuel)
    {pc pc' : PinCast} {m0 : List ℕ} (hpc : processPinCast coord pc = .ok (m0.map fun i : ℕ => (i : ℤ)))
    (hpc' : processPinCast coord pc' = .ok ((φ m0).map fun i : ℕ => (i : ℤ))) (hm0 : Valid hs m0) (hsea : Few (castAt S T pr v m0) = false)
    (hcast : ∀ m, Valid hs m → castAt S' T' pr' v (φ m) = castAt S T pr v m)
    (hland : ∀ m, Valid hs' m → (∀ m1, Valid hs m1 → φ m1 ≠ m) → Few (castAt S' T' pr' v m) = true)
    (h : E'.filter (atSea hs' (castAt S' T' pr' v)) = (E.filter (atSea hs (castAt S T pr v))).map (movedL f))
    (hpml : PmlIn hs hs' φ o.pml pml') {p0 p0' : PArgInit F} (hp0 : StartIn hs hs' φ p0 p0') (hps : ShapeIs hs p0)
    {hs1 : List ℕ} {out' : List ℕ → F × F × F} {st' : State F}
    (hrun : omegaSurf { o with pml := pml' } dims coord S' T' P' (gridL E') pc' p0' = .ok (hs1, out', st')) :
    ∃ out st, omegaSurf o dims coord S T P (gridL E) pc p0 = .ok (hs, out, st) ∧ st'.last = st.last ∧ ∀ m, Valid hs m → out' (φ m) = out m := by
  obtain ⟨E0, hE0⟩ : ∃ E0, E0 = E.filter (atSea hs (castAt S T pr v)) := ⟨_, rfl⟩
  have r0 : ∀ e ∈ E0, e.1.1 < hs.prod ∧ e.1.2 < hs.prod := by
    intro e he
    rw [hE0] at he
    exact hE e (List.mem_filter.1 he).1
  have r0' : ∀ e ∈ E0.map (movedL f), e.1.1 < hs'.prod ∧ e.1.2 < hs'.prod := by
    intro e he
    rw [hE0, ← h] at he
    exact hE' e (List.mem_filter.1 he).1
  have small : omegaSurf o dims coord S T P (gridL E0) pc p0 = omegaSurf o dims coord S T P (gridL E) pc p0 := by
    refine omegaSurf_land_links L hN A (by rw [hsh]; exact hE) (by rw [hsh]; exact r0) (by rw [hsh]; exact hfuel) hpc hsea ?_ p0
    rw [hsh, hE0, List.filter_filter]
    simp only [Bool.and_self]
  have big : omegaSurf { o with pml := pml' } dims coord S' T' P' (gridL (E0.map (movedL f))) pc' p0' =
      omegaSurf { o with pml := pml' } dims coord S' T' P' (gridL E') pc' p0' := by
    refine omegaSurf_land_links L hN (o := { o with pml := pml' }) A' (by rw [hsh']; exact hE') (by rw [hsh']; exact r0') (by rw [hsh']; exact hfuel') hpc'
      (by rw [hcast m0 hm0]; exact hsea) ?_ p0'
    rw [hsh', hE0, ← h, List.filter_filter]
    simp only [Bool.and_self]
  rw [← small]
  rw [← big] at hrun
  obtain ⟨out, st, hr⟩ := omegaSurf_out L A A' hsh hsh' hne hf hφ r0 hfuel hfuel' hm0 hpc hpc' hcast hland hpml hp0 hps hrun
  obtain ⟨out1, st1, q1, q2, q3⟩ := omegaSurf_in L A A' hsh hsh' hne' hf hφ r0 hfuel hfuel' hpc hpc' hcast hland hpml hp0 hr
  rw [hrun] at q1
  cases q1
  exact ⟨out, st, hr, q2, q3⟩

/-- **C195, rectilinear grids.** Margins of land on all four sides may be cut off: the converse of `omegaSurf_rect_margin`. -/
theorem omegaSurf_rect_trim (L : NanLaws F) (hN : isNaN (nan : F) = true) {o : Opts F} {pml' : Option (Nd F)} {dims : Option (List String)}
    {coord : String → Option (List ℚ)} {S T S' T' : Nd F} {P P' : PArg F} {v : ℕ} {pr pr' : List ℕ → ℕ → F} (A : Args o.vertDim dims S T P v pr)
    (A' : Args o.vertDim dims S' T' P' v pr') {ni nj a c b d : ℕ} (hsh : S.shape.eraseIdx v = [ni, nj]) (hsh' : S'.shape.eraseIdx v = [a + ni + c, b + nj + d])
    {dxC dyC dyG dxG dxC' dyC' dyG' dxG' : Grid.Data F} {x y yg xg x' y' yg' xg' : ℕ → ℕ → F}
    (hx : Grid.broadcastTo ni nj dxC = .ok x) (hy : Grid.broadcastTo ni nj dyC = .ok y) (hyg : Grid.broadcastTo ni nj dyG = .ok yg) (hxg : Grid.broadcastTo ni nj dxG = .ok xg)
    (hx' : Grid.broadcastTo (a + ni + c) (b + nj + d) dxC' = .ok x') (hy' : Grid.broadcastTo (a + ni + c) (b + nj + d) dyC' = .ok y')
    (hyg' : Grid.broadcastTo (a + ni + c) (b + nj + d) dyG' = .ok yg') (hxg' : Grid.broadcastTo (a + ni + c) (b + nj + d) dxG' = .ok xg')
    (hlen : ∀ i < ni, ∀ j < nj, x' (a + i) (b + j) = x i j ∧ y' (a + i) (b + j) = y i j ∧ yg' (a + i) (b + j) = yg i j ∧ xg' (a + i) (b + j) = xg i j)
    {g g' : Grid.G F} (hg : Grid.rectGrid ni nj false false dxC dyC dyG dxG = .ok g)
    (hg' : Grid.rectGrid (a + ni + c) (b + nj + d) false false dxC' dyC' dyG' dxG' = .ok g') (hfuel : (a + ni + c) * (b + nj + d) < o.fuel)
    {pc pc' : PinCast} {i0 j0 : ℕ} (hpc : processPinCast coord pc = .ok [(i0 : ℤ), (j0 : ℤ)])
    (hpc' : processPinCast coord pc' = .ok [((a + i0 : ℕ) : ℤ), ((b + j0 : ℕ) : ℤ)]) (hi0 : i0 < ni) (hj0 : j0 < nj)
    (hsea : Few (castAt S T pr v [i0, j0]) = false) (hcast : ∀ i < ni, ∀ j < nj, castAt S' T' pr' v [a + i, b + j] = castAt S T pr v [i, j])
    (hland : ∀ i < a + ni + c, ∀ j < b + nj + d, ¬ ((a ≤ i ∧ i < a + ni) ∧ b ≤ j ∧ j < b + nj) → Few (castAt S' T' pr' v [i, j]) = true)
    (hpml : PmlIn [ni, nj] [a + ni + c, b + nj + d] (shiftAt a b) o.pml pml') {p0 p0' : PArgInit F}
    (hp0 : StartIn [ni, nj] [a + ni + c, b + nj + d] (shiftAt a b) p0 p0')
    (hps : ShapeIs [ni, nj] p0) {hs' : List ℕ} {out' : List ℕ → F × F × F} {st' : State F}
    (hrun : omegaSurf { o with pml := pml' } dims coord S' T' P' ⟨g'.edges, some g'.dist, some g'.distperp⟩ pc' p0' = .ok (hs', out', st')) :
    ∃ out st, omegaSurf o dims coord S T P ⟨g.edges, some g.dist, some g.distperp⟩ pc p0 = .ok ([ni, nj], out, st) ∧ st'.last = st.last ∧
      ∀ i < ni, ∀ j < nj, out' [a + i, b + j] = out [i, j] := by
  obtain ⟨g1, h1, e1⟩ := rectGrid_gridL (p0 := false) (p1 := false) hx hy hyg hxg
  obtain ⟨g2, h2, e2⟩ := rectGrid_gridL (p0 := false) (p1 := false) hx' hy' hyg' hxg'
  rw [hg] at h1
  rw [hg'] at h2
  cases h1
  cases h2
  rw [e1]
  rw [e2] at hrun
  have two : ∀ {M N : ℕ} {m : List ℕ}, Valid [M, N] m → ∃ i j, m = [i, j] ∧ i < M ∧ j < N := by
    intro M N m hm
    cases hm with
    | cons a b =>
      cases b with
      | cons b c => cases c; exact ⟨_, _, rfl, a, b⟩
  have hφ : ∀ m, Valid [ni, nj] m → Valid [a + ni + c, b + nj + d] (shiftAt a b m) ∧
      ravel [a + ni + c, b + nj + d] (shiftAt a b m) = placeAt nj (b + nj + d) a b (ravel [ni, nj] m) := by
    intro m hm
    obtain ⟨i, j, rfl, hi, hj⟩ := two hm
    refine ⟨valid_pair (by omega) (by omega), ?_⟩
    show ravel _ [a + i, b + j] = _
    rw [ravel_pair, ravel_pair, placeAt_cell hj]
  have hle : ni * nj ≤ (a + ni + c) * (b + nj + d) := Nat.mul_le_mul (by omega) (by omega)
  obtain ⟨out, st, q1, q2, q3⟩ := omegaSurf_land_trim L hN (pml' := pml') A A' hsh hsh' (List.cons_ne_nil _ _) (List.cons_ne_nil _ _) (placeAt_mono (by omega) (by omega)) hφ
    rectE_range rectE_range (by rw [List.prod_cons, List.prod_singleton]; omega) (by rw [List.prod_cons, List.prod_singleton]; exact hfuel)
    (m0 := [i0, j0]) hpc hpc' (valid_pair hi0 hj0) hsea
    (fun m hm => by obtain ⟨i, j, rfl, hi, hj⟩ := two hm; exact hcast i hi j hj)
    (fun m hm hn => by
      obtain ⟨i, j, rfl, hi, hj⟩ := two hm
      refine hland i hi j hj fun hc => ?_
      refine hn [i - a, j - b] (valid_pair (by omega) (by omega)) ?_
      show [a + (i - a), b + (j - b)] = _
      rw [Nat.add_sub_cancel' hc.1.1, Nat.add_sub_cancel' hc.2.1])
    (rectE_margin (by omega) (by omega) hlen hcast hland) hpml hp0 hps hrun
  exact ⟨out, st, q1, q2, fun i hi j hj => q3 _ (valid_pair hi hj)⟩

/-! ## Example: `marginS` of `LandMargin` -/

/-- The hypotheses hold of the two oceans of `LandMargin`: whatever the call on the ocean with margins returns is what the call on the two casts returns. -/
example {g g' : Grid.G (Fl ℚ)} (hg : Grid.rectGrid 2 1 false false (.scalar (.fin 1)) (.scalar (.fin 1)) (.scalar (.fin 1)) (.scalar (.fin 1)) = .ok g)
    (hg' : Grid.rectGrid 4 3 false false (.scalar (.fin 1)) (.scalar (.fin 1)) (.scalar (.fin 1)) (.scalar (.fin 1)) = .ok g') {hs' : List ℕ}
    {out' : List ℕ → Fl ℚ × Fl ℚ × Fl ℚ} {st' : State (Fl ℚ)}
    (h : omegaSurf (demoO "poisson") none (fun _ => none) marginS marginT demoP ⟨g'.edges, some g'.dist, some g'.distperp⟩ (.tuple [1, 1]) (.scalar (.fin 2)) =
      .ok (hs', out', st')) :
    ∃ out st, omegaSurf (demoO "poisson") none (fun _ => none) twoS twoT demoP ⟨g.edges, some g.dist, some g.distperp⟩ (.tuple [0, 0]) (.scalar (.fin 2)) =
      .ok ([2, 1], out, st) ∧ st'.last = st.last ∧ ∀ i < 2, ∀ j < 1, out' [1 + i, 1 + j] = out [i, j] :=
  omegaSurf_rect_trim nanLaws_fl rfl (o := demoO "poisson") (pml' := none) two_args margin_args (ni := 2) (nj := 1) (a := 1) (c := 1)
    (b := 1) (d := 1) rfl rfl (dxC := .scalar (.fin 1)) (dyC := .scalar (.fin 1)) (dyG := .scalar (.fin 1)) (dxG := .scalar (.fin 1))
    (dxC' := .scalar (.fin 1)) (dyC' := .scalar (.fin 1)) (dyG' := .scalar (.fin 1)) (dxG' := .scalar (.fin 1)) rfl rfl rfl rfl rfl rfl rfl rfl
    (fun _ _ _ _ => ⟨rfl, rfl, rfl, rfl⟩) hg hg'
    (by show (1 + 2 + 1) * (1 + 1 + 1) < 200; decide) (pc := .tuple [0, 0]) (pc' := .tuple [1, 1]) (coord := fun _ => none) (i0 := 0) (j0 := 0) rfl rfl
    (by decide) (by decide) (by decide +kernel)
    (by
      intro i hi j hj
      obtain rfl : j = 0 := by omega
      have : i = 0 ∨ i = 1 := by omega
      rcases this with rfl | rfl <;> rfl)
    (by decide +kernel)
    trivial (p0 := .scalar (.fin 2)) (p0' := .scalar (.fin 2)) rfl trivial h

end Omega
