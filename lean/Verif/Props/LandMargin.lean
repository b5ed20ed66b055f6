import Verif.Props.OmegaEmbed

/-! # Margins of land on all sides do not matter (C195) -/

set_option linter.unusedSectionVars false

namespace Graph

theorem otherEnds_moved {f : ℕ → ℕ} (hf : Function.Injective f) (m : ℕ) (e : Edges) : otherEnds (f m) (e.map (OmegaMat.movedE f)) = (otherEnds m e).map f := by
  induction e with
  | nil => rfl
  | cons x e ih =>
    obtain ⟨a, b⟩ := x
    show (if f a = f m then [f b] else []) ++ (if f b = f m then [f a] else []) ++ otherEnds (f m) (e.map (OmegaMat.movedE f)) = _
    show _ = ((if a = m then [b] else []) ++ (if b = m then [a] else []) ++ otherEnds m e).map f
    rw [ih, List.map_append, List.map_append]
    simp only [hf.eq_iff]
    congr 2 <;> split_ifs <;> rfl

end Graph

namespace Omega
open FloatLike Lib Bfs
variable {F : Type*} [FloatLike F]

/-- The second mixed layer has the pressures of the first, at the indices `φ`. -/
def PmlIn (hs hs' : List ℕ) (φ : List ℕ → List ℕ) : Option (Nd F) → Option (Nd F) → Prop
  | none, none => True
  | some x, some x' => x.shape = hs ∧ x'.shape = hs' ∧ ∀ m, Valid hs m → x'.get (φ m) = x.get m
  | _, _ => False

/-- The second initial surface has the pressures of the first, at the indices `φ`. -/
def StartIn (hs hs' : List ℕ) (φ : List ℕ → List ℕ) : PArgInit F → PArgInit F → Prop
  | .scalar p, .scalar p' => p' = p
  | .array p, .array p' => p'.shape = hs' ∧ ∀ m, Valid hs m → p'.get (φ m) = p.get m
  | _, _ => False

/-- The link between the casts at the places `f`. -/
def movedL (f : ℕ → ℕ) (x : (ℕ × ℕ) × F × F) : (ℕ × ℕ) × F × F := (OmegaMat.movedE f x.1, x.2)

theorem pmlIn_flat {hs hs' : List ℕ} {φ : List ℕ → List ℕ} {f : ℕ → ℕ} (hφ : ∀ m, Valid hs m → Valid hs' (φ m) ∧ ravel hs' (φ m) = f (ravel hs m))
    {x y : Option (Nd F)} (h : PmlIn hs hs' φ x y) {k : ℕ} (hk : k < hs.prod) :
    (match y with | some z => flatten z | none => fun _ => -(lit 1 / lit 0)) (f k) = (match x with | some z => flatten z | none => fun _ => -(lit 1 / lit 0)) k := by
  obtain ⟨u1, u2⟩ := valid_unravel hk
  obtain ⟨w1, w2⟩ := hφ _ u1
  rw [u2] at w2
  cases x <;> cases y
  case none.none => rfl
  case some.some x y =>
    show y.get (unravel y.shape (f k)) = x.get (unravel x.shape k)
    rw [h.1, h.2.1, ← w2, unravel_ravel w1]
    exact h.2.2 _ u1
  all_goals exact h.elim

theorem startIn_check {hs hs' : List ℕ} {φ : List ℕ → List ℕ} {f : ℕ → ℕ} (hφ : ∀ m, Valid hs m → Valid hs' (φ m) ∧ ravel hs' (φ m) = f (ravel hs m))
    {x y : PArgInit F} (h : StartIn hs hs' φ x y) {q : PInit F} (hq : checkInit hs x = .ok q) {c c' : Cfg F} (hN : c.N = hs.prod)
    (hint : ∀ p, ∀ k < c'.N, (∀ n < c.N, f n ≠ k) → (interpTwo c' p k).isSome = true) :
    ∃ q', checkInit hs' y = .ok q' ∧ EmbPInit f c c' q q' := by
  cases x <;> cases y
  case scalar.scalar => cases hq; exact ⟨_, rfl, h⟩
  case array.array p p' =>
    unfold checkInit at hq
    dsimp only at hq
    split_ifs at hq with hps
    cases hq
    refine ⟨.array (flatten p'), by unfold checkInit; dsimp only; rw [if_pos h.1], ?_, fun k hk hn => hint _ k hk hn⟩
    intro k hk
    obtain ⟨u1, u2⟩ := valid_unravel (hN ▸ hk)
    obtain ⟨w1, w2⟩ := hφ _ u1
    rw [u2] at w2
    show p'.get (unravel p'.shape (f k)) = p.get (unravel p.shape k)
    rw [h.1, hps, ← w2, unravel_ravel w1]
    exact h.2 _ u1
  all_goals exact h.elim

/-- A second ocean contains the first, in the same order, with the same links, and for the rest is land.  If `omega_surf` returns on the first, so it does on the second. -/
theorem omegaSurf_in (L : NanLaws F) {o : Opts F} {pml' : Option (Nd F)} {dims : Option (List String)} {coord : String → Option (List ℚ)} {S T S' T' : Nd F}
    {P P' : PArg F} {v : ℕ} {pr pr' : List ℕ → ℕ → F} (A : Args o.vertDim dims S T P v pr) (A' : Args o.vertDim dims S' T' P' v pr')
    {hs hs' : List ℕ} (hsh : S.shape.eraseIdx v = hs) (hsh' : S'.shape.eraseIdx v = hs') (hne : hs' ≠ []) {f : ℕ → ℕ} (hf : StrictMono f)
    {φ : List ℕ → List ℕ} (hφ : ∀ m, Valid hs m → Valid hs' (φ m) ∧ ravel hs' (φ m) = f (ravel hs m)) {E : List ((ℕ × ℕ) × F × F)}
    (hE : ∀ e ∈ E, e.1.1 < hs.prod ∧ e.1.2 < hs.prod) (hfuel : hs.prod < o.fuel) (hfuel' : hs'.prod < o.fuel)
    {pc pc' : PinCast} {m0 : List ℕ} (hpc : processPinCast coord pc = .ok (m0.map fun i : ℕ => (i : ℤ)))
    (hpc' : processPinCast coord pc' = .ok ((φ m0).map fun i : ℕ => (i : ℤ)))
    (hcast : ∀ m, Valid hs m → castAt S' T' pr' v (φ m) = castAt S T pr v m)
    (hland : ∀ m, Valid hs' m → (∀ m1, Valid hs m1 → φ m1 ≠ m) → Few (castAt S' T' pr' v m) = true)
    (hpml : PmlIn hs hs' φ o.pml pml') {p0 p0' : PArgInit F} (hp0 : StartIn hs hs' φ p0 p0')
    {hs1 : List ℕ} {out : List ℕ → F × F × F} {st : State F} (h : omegaSurf o dims coord S T P (gridL E) pc p0 = .ok (hs1, out, st)) :
    ∃ out' st', omegaSurf { o with pml := pml' } dims coord S' T' P' (gridL (E.map (movedL f))) pc' p0' = .ok (hs', out', st') ∧ st'.last = st.last ∧
      ∀ m, Valid hs m → out' (φ m) = out m := by
  have hin : ∀ k < hs.prod, f k < hs'.prod := by
    intro k hk
    obtain ⟨u1, u2⟩ := valid_unravel hk
    obtain ⟨w1, w2⟩ := hφ _ u1
    rw [u2] at w2
    rw [← w2]; exact ravel_lt w1
  have hg : ∀ e ∈ (gridL E).edges, e.1 < hs.prod ∧ e.2 < hs.prod := by
    intro e he
    obtain ⟨y, hy, rfl⟩ := List.mem_map.1 he
    exact hE y hy
  have hedges : (gridL (E.map (movedL f))).edges = (gridL E).edges.map (OmegaMat.movedE f) := by
    unfold gridL
    simp only [List.map_map]
    rfl
  have hg' : ∀ e ∈ (gridL (E.map (movedL f))).edges, e.1 < hs'.prod ∧ e.2 < hs'.prod := by
    intro e he
    rw [hedges] at he
    obtain ⟨y, hy, rfl⟩ := List.mem_map.1 he
    exact ⟨hin _ (hg y hy).1, hin _ (hg y hy).2⟩
  have hratio : distRatio (gridL (E.map (movedL f))) = distRatio (gridL E) := by
    unfold gridL distRatio
    simp only [List.map_map]
    rfl
  unfold omegaSurf at h
  obtain ⟨pc1, e1, h⟩ := fbind_ok h
  obtain ⟨STP, e2, h⟩ := fbind_ok h
  have e2' : processCasts dims S T P o.vertDim = .ok STP := by
    revert e2
    cases processCasts dims S T P o.vertDim <;> intro e2 <;> first | (cases e2; rfl) | cases e2
  obtain ⟨a1, a2⟩ := A.casts e2'
  rw [hsh] at a1 a2
  have hhs : STP.1.shape.dropLast = hs := by rw [a1, List.dropLast_concat]
  rw [hpc] at e1
  cases e1
  dsimp only at h
  rw [hhs] at h
  by_cases h0 : hs = []
  · rw [if_pos h0] at h; cases h
  rw [if_neg h0] at h
  obtain ⟨pin, e3, h⟩ := fbind_ok h
  obtain ⟨ratio, e4, h⟩ := fbind_ok h
  obtain ⟨G, e5, h⟩ := fbind_ok h
  obtain ⟨solver, e6, h⟩ := fbind_ok h
  obtain ⟨q0, e7, h⟩ := fbind_ok h
  obtain ⟨s, e8, h⟩ := fbind_ok h
  cases h
  obtain ⟨m1, hm1, hv, rfl⟩ := ravelMultiIndex_ok.1 e3
  obtain rfl : m0 = m1 := by
    refine List.map_injective_iff.2 (fun a b hab => ?_) hm1
    exact_mod_cast hab
  have e5' : Graph.edgesToCsr (gridL E).edges hs.prod o.garbage = .ok G := by
    revert e5
    cases Graph.edgesToCsr (gridL E).edges hs.prod o.garbage <;> intro e5 <;> first | (cases e5; rfl) | cases e5
  have e8' : omega (cfgOf o hs STP.1 STP.2.1 STP.2.2 G (ravel hs m0) solver) q0 = .ok st := by
    revert e8
    cases omega (cfgOf o hs STP.1 STP.2.1 STP.2.2 G (ravel hs m0) solver) q0 <;> intro e8 <;> first | (cases e8; rfl) | cases e8
  obtain ⟨g2, g3⟩ := Graph.edgesToCsr_mem _ _ _ hg G e5'
  obtain ⟨G1, f5, -, -, n1⟩ := Graph.edgesToCsr_spec (gridL E).edges hs.prod o.garbage hg
  rw [e5'] at f5
  cases f5
  obtain ⟨G', f5, -, -, n2⟩ := Graph.edgesToCsr_spec (gridL (E.map (movedL f))).edges hs'.prod o.garbage hg'
  obtain ⟨g2', g3'⟩ := Graph.edgesToCsr_mem _ _ _ hg' G' f5
  -- the second call
  obtain ⟨STP', f2⟩ : ∃ STP', processCasts dims S' T' P' o.vertDim = .ok STP' := by
    obtain ⟨h1, h2⟩ := processCasts_spec dims S' T' o.vertDim v A'.lt A'.dim (by rw [A'.shape])
    have hp := A'.press
    cases P' with
    | full P => obtain ⟨_, _, _, e, _⟩ := h2 P (by rw [hp.1]); exact ⟨_, e⟩
    | small size P => obtain ⟨_, _, _, e, _⟩ := h1 size P hp.1; exact ⟨_, e⟩
  obtain ⟨b1, b2⟩ := A'.casts f2
  rw [hsh'] at b1 b2
  have hhs' : STP'.1.shape.dropLast = hs' := by rw [b1, List.dropLast_concat]
  have hpin' : ravelMultiIndex hs' ((φ m0).map fun i : ℕ => (i : ℤ)) = .ok (f (ravel hs m0)) :=
    ravelMultiIndex_ok.2 ⟨φ m0, rfl, (hφ m0 hv).1, (hφ m0 hv).2.symm⟩
  obtain ⟨solver', e6', hsol⟩ : ∃ solver', solverOf { o with pml := pml' } (gridL (E.map (movedL f))).edges ratio = .ok solver' ∧
      OmegaMat.EmbSolver hs.prod f solver solver' := by
    rw [hedges]
    unfold solverOf at e6 ⊢
    dsimp only
    split_ifs at e6 ⊢
    · cases e6; exact ⟨_, rfl, OmegaMat.poisson_emb _ _ hf.injective hg _⟩
    · cases e6; exact ⟨_, rfl, OmegaMat.gradient_emb _ _ hf.injective hg _⟩
  obtain ⟨c, hc⟩ : ∃ c, c = cfgOf o hs STP.1 STP.2.1 STP.2.2 G (ravel hs m0) solver := ⟨_, rfl⟩
  obtain ⟨c', hc'⟩ : ∃ c', c' = cfgOf { o with pml := pml' } hs' STP'.1 STP'.2.1 STP'.2.2 G' (f (ravel hs m0)) solver' := ⟨_, rfl⟩
  have hcasts : ∀ k < hs.prod, castsOf STP'.1 STP'.2.1 STP'.2.2 (f k) = castsOf STP.1 STP.2.1 STP.2.2 k := by
    intro k hk
    obtain ⟨u1, u3⟩ := valid_unravel hk
    obtain ⟨x1, x2⟩ := hφ _ u1
    have w1 := a2 _ u1
    have w2 := b2 _ x1
    rw [u3] at w1 x2
    rw [x2] at w2
    rw [w1, w2, hcast _ u1]
  have H : EmbCfg f c c' := by
    rw [hc, hc']
    refine ⟨hf, hin, ⟨?_, ?_⟩, hcasts, fun k hk => pmlIn_flat hφ hpml hk, hsol, rfl, rfl, rfl, rfl, rfl, rfl, rfl, rfl, rfl, rfl, rfl, rfl, rfl, rfl⟩
    · intro m _
      show G'.nbrs (f m) = (G.nbrs m).map f
      rw [n1, n2, hedges, Graph.otherEnds_moved hf.injective]
    · intro a ha b hb
      rcases (g2 a b).1 hb with hb' | hb'
      · exact (hg _ hb').2
      · exact (hg _ hb').1
  have K : Ok c := by rw [hc]; exact ⟨g3, ravel_lt hv, hfuel⟩
  have K' : Ok c' := by rw [hc']; exact ⟨g3', hin _ (ravel_lt hv), hfuel'⟩
  have hint : ∀ p, ∀ k < c'.N, (∀ n < c.N, f n ≠ k) → (interpTwo c' p k).isSome = true := by
    intro p k hk hn
    rw [hc'] at hk
    rw [hc] at hn
    obtain ⟨u1, u2⟩ := valid_unravel (show k < hs'.prod from hk)
    have hl := hland _ u1 (by
      intro m1 hm1 e
      refine hn (ravel hs m1) (ravel_lt hm1) ?_
      rw [← (hφ m1 hm1).2, e, u2])
    have := few_interp hl o.kind p
    rw [← b2 _ u1, u2] at this
    rw [hc']
    show (interpOn o.kind (castsOf STP'.1 STP'.2.1 STP'.2.2 k) p).isSome = true
    rw [this]; rfl
  obtain ⟨q0', f7, hq⟩ := startIn_check hφ hp0 e7 (c := c) (c' := c') (by rw [hc]; rfl) hint
  rw [← hc] at e8'
  obtain ⟨s', k1, k2, k3⟩ := omega_emb L H K K' hq e8'
  refine ⟨reshapeGet hs' s'.stp, s', ?_, k2, ?_⟩
  · unfold omegaSurf
    rw [hpc']
    dsimp only
    rw [f2]
    simp only [ofLib, FRes.bind, hhs']
    rw [if_neg hne, hpin']
    simp only [FRes.bind]
    rw [hratio, e4]
    simp only [FRes.bind]
    rw [f5]
    simp only [ofGraph, FRes.bind]
    rw [e6']
    simp only
    rw [f7]
    simp only
    rw [← hc', k1]
    rfl
  · intro m hm
    rw [reshape_ravel _ hm, reshape_ravel _ (hφ m hm).1, (hφ m hm).2]
    exact k3 _ (by rw [hc]; exact ravel_lt hm)

/-- **C195.** A second ocean contains the first, in the same order, and for the rest is land; between casts at sea it has the same links, with the same lengths and in the
same order.  If `omega_surf` returns on the first, so it does on the second, after the same number of passes, with the same surface there, to the last bit. -/
theorem omegaSurf_land_margin (L : NanLaws F) (hN : isNaN (nan : F) = true) {o : Opts F} {pml' : Option (Nd F)} {dims : Option (List String)}
    {coord : String → Option (List ℚ)} {S T S' T' : Nd F} {P P' : PArg F} {v : ℕ} {pr pr' : List ℕ → ℕ → F} (A : Args o.vertDim dims S T P v pr)
    (A' : Args o.vertDim dims S' T' P' v pr') {hs hs' : List ℕ} (hsh : S.shape.eraseIdx v = hs) (hsh' : S'.shape.eraseIdx v = hs') (hne : hs' ≠ [])
    {f : ℕ → ℕ} (hf : StrictMono f) {φ : List ℕ → List ℕ} (hφ : ∀ m, Valid hs m → Valid hs' (φ m) ∧ ravel hs' (φ m) = f (ravel hs m))
    {E E' : List ((ℕ × ℕ) × F × F)} (hE : ∀ e ∈ E, e.1.1 < hs.prod ∧ e.1.2 < hs.prod) (hE' : ∀ e ∈ E', e.1.1 < hs'.prod ∧ e.1.2 < hs'.prod)
    (hfuel : hs.prod < o.fuel) (hfuel' : hs'.prod < o.fuel)
    {pc pc' : PinCast} {m0 : List ℕ} (hpc : processPinCast coord pc = .ok (m0.map fun i : ℕ => (i : ℤ)))
    (hpc' : processPinCast coord pc' = .ok ((φ m0).map fun i : ℕ => (i : ℤ))) (hm0 : Valid hs m0) (hsea : Few (castAt S T pr v m0) = false)
    (hcast : ∀ m, Valid hs m → castAt S' T' pr' v (φ m) = castAt S T pr v m)
    (hland : ∀ m, Valid hs' m → (∀ m1, Valid hs m1 → φ m1 ≠ m) → Few (castAt S' T' pr' v m) = true)
    (h : E'.filter (atSea hs' (castAt S' T' pr' v)) = (E.filter (atSea hs (castAt S T pr v))).map (movedL f))
    (hpml : PmlIn hs hs' φ o.pml pml') {p0 p0' : PArgInit F} (hp0 : StartIn hs hs' φ p0 p0')
    {hs1 : List ℕ} {out : List ℕ → F × F × F} {st : State F} (hrun : omegaSurf o dims coord S T P (gridL E) pc p0 = .ok (hs1, out, st)) :
    ∃ out' st', omegaSurf { o with pml := pml' } dims coord S' T' P' (gridL E') pc' p0' = .ok (hs', out', st') ∧ st'.last = st.last ∧
      ∀ m, Valid hs m → out' (φ m) = out m := by
  obtain ⟨E0, hE0⟩ : ∃ E0, E0 = E.filter (atSea hs (castAt S T pr v)) := ⟨_, rfl⟩
  have r0 : ∀ e ∈ E0, e.1.1 < hs.prod ∧ e.1.2 < hs.prod := by
    intro e he
    rw [hE0] at he
    exact hE e (List.mem_filter.1 he).1
  have r0' : ∀ e ∈ E0.map (movedL f), e.1.1 < hs'.prod ∧ e.1.2 < hs'.prod := by
    intro e he
    rw [hE0, ← h] at he
    exact hE' e (List.mem_filter.1 he).1
  have small : omegaSurf o dims coord S T P (gridL E0) pc p0 = omegaSurf o dims coord S T P (gridL E) pc p0 := by
    refine omegaSurf_land_links L hN A (by rw [hsh]; exact hE) (by rw [hsh]; exact r0) (by rw [hsh]; exact hfuel) hpc hsea ?_ p0
    rw [hsh, hE0, List.filter_filter]
    simp only [Bool.and_self]
  have big : omegaSurf { o with pml := pml' } dims coord S' T' P' (gridL (E0.map (movedL f))) pc' p0' =
      omegaSurf { o with pml := pml' } dims coord S' T' P' (gridL E') pc' p0' := by
    refine omegaSurf_land_links L hN (o := { o with pml := pml' }) A' (by rw [hsh']; exact hE') (by rw [hsh']; exact r0') (by rw [hsh']; exact hfuel') hpc'
      (by rw [hcast m0 hm0]; exact hsea) ?_ p0'
    rw [hsh', hE0, ← h, List.filter_filter]
    simp only [Bool.and_self]
  rw [← small] at hrun
  rw [← big]
  exact omegaSurf_in L A A' hsh hsh' hne hf hφ r0 hfuel hfuel' hpc hpc' hcast hland hpml hp0 hrun

/-! ## Rectilinear grids -/

/-- The place, in a grid with rows of length `w`, of the cast `k` of a grid with rows of length `nj` that begins at row `a` and column `b`. -/
def placeAt (nj w a b k : ℕ) : ℕ := (k / nj + a) * w + (k % nj + b)

theorem placeAt_mono {nj w a b : ℕ} (h0 : 0 < nj) (h : b + nj ≤ w) : StrictMono (placeAt nj w a b) := by
  intro k l hkl
  unfold placeAt
  have hk := Nat.mod_lt k h0
  rcases Nat.lt_or_ge (k / nj) (l / nj) with hd | hd
  · have : (k / nj + a + 1) * w ≤ (l / nj + a) * w := Nat.mul_le_mul_right _ (by omega)
    rw [Nat.add_one_mul] at this
    omega
  · have hd : k / nj = l / nj := le_antisymm (Nat.div_le_div_right hkl.le) hd
    have e1 := Nat.div_add_mod k nj
    have e2 := Nat.div_add_mod l nj
    rw [hd] at e1 ⊢
    omega

theorem placeAt_cell {nj w a b i j : ℕ} (hj : j < nj) : placeAt nj w a b (Grid.cell nj i j) = Grid.cell w (a + i) (b + j) := by
  have e1 : Grid.cell nj i j / nj = i := by
    show (i * nj + j) / nj = i
    rw [Nat.mul_comm, Nat.mul_add_div (by omega), Nat.div_eq_of_lt hj, Nat.add_zero]
  have e2 : Grid.cell nj i j % nj = j := by
    show (i * nj + j) % nj = j
    rw [Nat.mul_comm, Nat.mul_add_mod, Nat.mod_eq_of_lt hj]
  unfold placeAt
  rw [e1, e2]
  show (i + a) * w + (j + b) = (a + i) * w + (b + j)
  rw [Nat.add_comm i, Nat.add_comm j]

/-- Outside a window of a table nothing passes the test. -/
theorem filter_window {A : Type*} (q : A → Bool) {a m c b w d : ℕ} (f : ℕ → ℕ → A)
    (h : ∀ i < a + m + c, ∀ j < b + w + d, q (f i j) = true → (a ≤ i ∧ i < a + m) ∧ b ≤ j ∧ j < b + w) :
    (Grid.flat (a + m + c) (b + w + d) f).filter q = (Grid.flat m w fun i j => f (a + i) (b + j)).filter q := by
  have none : ∀ (k l : ℕ) (g : ℕ → ℕ → A), (∀ i < k, ∀ j < l, q (g i j) = false) → (Grid.flat k l g).filter q = [] := by
    intro k l g hg
    rw [List.filter_eq_nil_iff]
    intro e he
    obtain ⟨i, hi, j, hj, rfl⟩ := mem_flat_at he
    rw [hg i hi j hj]; simp
  have off : ∀ i < a + m + c, ∀ j < b + w + d, ¬ ((a ≤ i ∧ i < a + m) ∧ b ≤ j ∧ j < b + w) → q (f i j) = false := by
    intro i hi j hj hn
    by_contra hc
    exact hn (h i hi j hj (by simpa using hc))
  rw [flat_add, flat_add, List.filter_append, List.filter_append, none a _ _ (fun i hi j hj => off i (by omega) j hj (by omega)),
    none c _ _ (fun i hi j hj => off _ (by omega) j hj (by omega)), List.nil_append, List.append_nil, filter_flat_at, filter_flat_at]
  apply List.flatMap_congr
  intro i hi
  have hi := List.mem_range.1 hi
  have gone : ∀ l : List ℕ, (∀ j ∈ l, q (f (a + i) j) = false) → (l.map (f (a + i))).filter q = [] := by
    intro l hl
    rw [List.filter_eq_nil_iff]
    intro e he
    obtain ⟨j, hj, rfl⟩ := List.mem_map.1 he
    rw [hl j hj]; simp
  rw [List.range_add, List.range_add, List.map_append, List.map_append, List.filter_append, List.filter_append,
    gone (List.range b) (fun j hj => by have := List.mem_range.1 hj; exact off _ (by omega) j (by omega) (by omega)),
    gone ((List.range d).map _) (fun j hj => by
      obtain ⟨j, hj', rfl⟩ := List.mem_map.1 hj
      have := List.mem_range.1 hj'
      exact off _ (by omega) _ (by omega) (by omega)),
    List.nil_append, List.append_nil, List.map_map]
  rfl

theorem rectE_open {ni nj : ℕ} {x y yg xg : ℕ → ℕ → F} : rectE ni nj false false x y yg xg =
    Grid.flat (ni - 1) nj (fun i j => ((Grid.cell nj (i + 1) j, Grid.cell nj i j), x (i + 1) j, yg (i + 1) j)) ++
    Grid.flat ni (nj - 1) (fun i j => ((Grid.cell nj i (j + 1), Grid.cell nj i j), y i (j + 1), xg i (j + 1))) := by
  unfold rectE
  rfl

/-- The links at sea of a rectilinear grid with margins of land are those of the grid without. -/
theorem rectE_margin {ni nj a c b d : ℕ} (hi : 0 < ni) (hj : 0 < nj) {x y yg xg x' y' yg' xg' : ℕ → ℕ → F} {cast cast' : List ℕ → Cast F}
    (hx : ∀ i < ni, ∀ j < nj, x' (a + i) (b + j) = x i j ∧ y' (a + i) (b + j) = y i j ∧ yg' (a + i) (b + j) = yg i j ∧ xg' (a + i) (b + j) = xg i j)
    (hcast : ∀ i < ni, ∀ j < nj, cast' [a + i, b + j] = cast [i, j])
    (hland : ∀ i < a + ni + c, ∀ j < b + nj + d, ¬ ((a ≤ i ∧ i < a + ni) ∧ b ≤ j ∧ j < b + nj) → Few (cast' [i, j]) = true) :
    (rectE (a + ni + c) (b + nj + d) false false x' y' yg' xg').filter (atSea [a + ni + c, b + nj + d] cast') =
      ((rectE ni nj false false x y yg xg).filter (atSea [ni, nj] cast)).map (movedL (placeAt nj (b + nj + d) a b)) := by
  have sea : ∀ i1 < a + ni + c, ∀ j1 < b + nj + d, ∀ i2 < a + ni + c, ∀ j2 < b + nj + d, ∀ z : F × F,
      atSea [a + ni + c, b + nj + d] cast' ((Grid.cell (b + nj + d) i1 j1, Grid.cell (b + nj + d) i2 j2), z) = true →
      ((a ≤ i1 ∧ i1 < a + ni) ∧ b ≤ j1 ∧ j1 < b + nj) ∧ (a ≤ i2 ∧ i2 < a + ni) ∧ b ≤ j2 ∧ j2 < b + nj := by
    intro i1 h1 j1 h2 i2 h3 j2 h4 z hz
    unfold atSea at hz
    dsimp only at hz
    rw [unravel_cell h1 h2, unravel_cell h3 h4, Bool.and_eq_true] at hz
    constructor
    · by_contra hc
      rw [hland i1 h1 j1 h2 hc] at hz
      cases hz.1
    · by_contra hc
      rw [hland i2 h3 j2 h4 hc] at hz
      cases hz.2
  have same : ∀ i1 < ni, ∀ j1 < nj, ∀ i2 < ni, ∀ j2 < nj, ∀ z : F × F,
      atSea [a + ni + c, b + nj + d] cast' (movedL (placeAt nj (b + nj + d) a b) ((Grid.cell nj i1 j1, Grid.cell nj i2 j2), z)) =
      atSea [ni, nj] cast ((Grid.cell nj i1 j1, Grid.cell nj i2 j2), z) := by
    intro i1 h1 j1 h2 i2 h3 j2 h4 z
    unfold atSea movedL OmegaMat.movedE
    dsimp only
    rw [placeAt_cell h2, placeAt_cell h4, unravel_cell (by omega) (by omega), unravel_cell (by omega) (by omega), unravel_cell h1 h2, unravel_cell h3 h4,
      hcast i1 h1 j1 h2, hcast i2 h3 j2 h4]
  have move : ∀ (m w : ℕ) (g0 g1 : ℕ → ℕ → (ℕ × ℕ) × F × F), (∀ i < m, ∀ j < w, g1 i j = movedL (placeAt nj (b + nj + d) a b) (g0 i j)) →
      (∀ i < m, ∀ j < w, atSea [a + ni + c, b + nj + d] cast' (movedL (placeAt nj (b + nj + d) a b) (g0 i j)) = atSea [ni, nj] cast (g0 i j)) →
      (Grid.flat m w g1).filter (atSea [a + ni + c, b + nj + d] cast') =
        ((Grid.flat m w g0).filter (atSea [ni, nj] cast)).map (movedL (placeAt nj (b + nj + d) a b)) := by
    intro m w g0 g1 h1 h2
    rw [flat_congr_at h1, show Grid.flat m w (fun i j => movedL (placeAt nj (b + nj + d) a b) (g0 i j)) =
      (Grid.flat m w g0).map (movedL (placeAt nj (b + nj + d) a b)) by rw [flat_map], List.filter_map]
    congr 1
    apply List.filter_congr
    intro e he
    obtain ⟨i, hi, j, hj, rfl⟩ := mem_flat_at he
    exact h2 i hi j hj
  rw [rectE_open, rectE_open, List.filter_append, List.filter_append, List.map_append]
  congr 1
  · rw [show a + ni + c - 1 = a + (ni - 1) + c by omega]
    rw [filter_window]
    · refine move _ _ _ _ ?_ ?_
      · intro i h1 j h2
        unfold movedL OmegaMat.movedE
        dsimp only
        rw [placeAt_cell h2, placeAt_cell h2]
        obtain ⟨p1, -, p3, -⟩ := hx (i + 1) (by omega) j h2
        rw [show a + i + 1 = a + (i + 1) by omega, p1, p3]
      · intro i h1 j h2
        exact same _ (by omega) _ h2 _ (by omega) _ h2 _
    · intro i h1 j h2 h3
      obtain ⟨q1, q2⟩ := sea _ (by omega) _ h2 _ (by omega) _ h2 _ h3
      omega
  · rw [show b + nj + d - 1 = b + (nj - 1) + d by omega]
    rw [filter_window]
    · refine move _ _ _ _ ?_ ?_
      · intro i h1 j h2
        unfold movedL OmegaMat.movedE
        dsimp only
        rw [placeAt_cell (by omega), placeAt_cell (by omega)]
        obtain ⟨-, p2, -, p4⟩ := hx i h1 (j + 1) (by omega)
        rw [show b + j + 1 = b + (j + 1) by omega, p2, p4]
      · intro i h1 j h2
        exact same _ h1 _ (by omega) _ h1 _ (by omega) _
    · intro i h1 j h2 h3
      obtain ⟨q1, q2⟩ := sea _ h1 _ (by omega) _ h1 _ (by omega) _ h3
      omega

/-- The cast in a grid with margins of `a` rows before the first and `b` columns before the first. -/
def shiftAt (a b : ℕ) : List ℕ → List ℕ
  | [i, j] => [a + i, b + j]
  | m => m

/-- **C195, rectilinear grids.** Margins of land on all four sides of an ocean on an open rectilinear grid do not change the surface: if `omega_surf` returns on the ocean,
so it does on the one with margins, pinned at the same cast, after the same number of passes, with the same surface there, to the last bit. -/
theorem omegaSurf_rect_margin (L : NanLaws F) (hN : isNaN (nan : F) = true) {o : Opts F} {pml' : Option (Nd F)} {dims : Option (List String)}
    {coord : String → Option (List ℚ)} {S T S' T' : Nd F} {P P' : PArg F} {v : ℕ} {pr pr' : List ℕ → ℕ → F} (A : Args o.vertDim dims S T P v pr)
    (A' : Args o.vertDim dims S' T' P' v pr') {ni nj a c b d : ℕ} (hsh : S.shape.eraseIdx v = [ni, nj]) (hsh' : S'.shape.eraseIdx v = [a + ni + c, b + nj + d])
    {dxC dyC dyG dxG dxC' dyC' dyG' dxG' : Grid.Data F} {x y yg xg x' y' yg' xg' : ℕ → ℕ → F}
    (hx : Grid.broadcastTo ni nj dxC = .ok x) (hy : Grid.broadcastTo ni nj dyC = .ok y) (hyg : Grid.broadcastTo ni nj dyG = .ok yg) (hxg : Grid.broadcastTo ni nj dxG = .ok xg)
    (hx' : Grid.broadcastTo (a + ni + c) (b + nj + d) dxC' = .ok x') (hy' : Grid.broadcastTo (a + ni + c) (b + nj + d) dyC' = .ok y')
    (hyg' : Grid.broadcastTo (a + ni + c) (b + nj + d) dyG' = .ok yg') (hxg' : Grid.broadcastTo (a + ni + c) (b + nj + d) dxG' = .ok xg')
    (hlen : ∀ i < ni, ∀ j < nj, x' (a + i) (b + j) = x i j ∧ y' (a + i) (b + j) = y i j ∧ yg' (a + i) (b + j) = yg i j ∧ xg' (a + i) (b + j) = xg i j)
    {g g' : Grid.G F} (hg : Grid.rectGrid ni nj false false dxC dyC dyG dxG = .ok g)
    (hg' : Grid.rectGrid (a + ni + c) (b + nj + d) false false dxC' dyC' dyG' dxG' = .ok g') (hfuel : (a + ni + c) * (b + nj + d) < o.fuel)
    {pc pc' : PinCast} {i0 j0 : ℕ} (hpc : processPinCast coord pc = .ok [(i0 : ℤ), (j0 : ℤ)])
    (hpc' : processPinCast coord pc' = .ok [((a + i0 : ℕ) : ℤ), ((b + j0 : ℕ) : ℤ)]) (hi0 : i0 < ni) (hj0 : j0 < nj)
    (hsea : Few (castAt S T pr v [i0, j0]) = false) (hcast : ∀ i < ni, ∀ j < nj, castAt S' T' pr' v [a + i, b + j] = castAt S T pr v [i, j])
    (hland : ∀ i < a + ni + c, ∀ j < b + nj + d, ¬ ((a ≤ i ∧ i < a + ni) ∧ b ≤ j ∧ j < b + nj) → Few (castAt S' T' pr' v [i, j]) = true)
    (hpml : PmlIn [ni, nj] [a + ni + c, b + nj + d] (shiftAt a b) o.pml pml') {p0 p0' : PArgInit F}
    (hp0 : StartIn [ni, nj] [a + ni + c, b + nj + d] (shiftAt a b) p0 p0')
    {hs : List ℕ} {out : List ℕ → F × F × F} {st : State F}
    (hrun : omegaSurf o dims coord S T P ⟨g.edges, some g.dist, some g.distperp⟩ pc p0 = .ok (hs, out, st)) :
    ∃ out' st', omegaSurf { o with pml := pml' } dims coord S' T' P' ⟨g'.edges, some g'.dist, some g'.distperp⟩ pc' p0' =
      .ok ([a + ni + c, b + nj + d], out', st') ∧ st'.last = st.last ∧ ∀ i < ni, ∀ j < nj, out' [a + i, b + j] = out [i, j] := by
  obtain ⟨g1, h1, e1⟩ := rectGrid_gridL (p0 := false) (p1 := false) hx hy hyg hxg
  obtain ⟨g2, h2, e2⟩ := rectGrid_gridL (p0 := false) (p1 := false) hx' hy' hyg' hxg'
  rw [hg] at h1
  rw [hg'] at h2
  cases h1
  cases h2
  rw [e2]
  rw [e1] at hrun
  have two : ∀ {M N : ℕ} {m : List ℕ}, Valid [M, N] m → ∃ i j, m = [i, j] ∧ i < M ∧ j < N := by
    intro M N m hm
    cases hm with
    | cons a b =>
      cases b with
      | cons b c => cases c; exact ⟨_, _, rfl, a, b⟩
  have hφ : ∀ m, Valid [ni, nj] m → Valid [a + ni + c, b + nj + d] (shiftAt a b m) ∧
      ravel [a + ni + c, b + nj + d] (shiftAt a b m) = placeAt nj (b + nj + d) a b (ravel [ni, nj] m) := by
    intro m hm
    obtain ⟨i, j, rfl, hi, hj⟩ := two hm
    refine ⟨valid_pair (by omega) (by omega), ?_⟩
    show ravel _ [a + i, b + j] = _
    rw [ravel_pair, ravel_pair, placeAt_cell hj]
  have hle : ni * nj ≤ (a + ni + c) * (b + nj + d) := Nat.mul_le_mul (by omega) (by omega)
  obtain ⟨out', st', q1, q2, q3⟩ := omegaSurf_land_margin L hN (pml' := pml') A A' hsh hsh' (List.cons_ne_nil _ _) (placeAt_mono (by omega) (by omega)) hφ
    rectE_range rectE_range (by rw [List.prod_cons, List.prod_singleton]; omega) (by rw [List.prod_cons, List.prod_singleton]; exact hfuel)
    (m0 := [i0, j0]) hpc hpc' (valid_pair hi0 hj0) hsea
    (fun m hm => by obtain ⟨i, j, rfl, hi, hj⟩ := two hm; exact hcast i hi j hj)
    (fun m hm hn => by
      obtain ⟨i, j, rfl, hi, hj⟩ := two hm
      refine hland i hi j hj fun hc => ?_
      refine hn [i - a, j - b] (valid_pair (by omega) (by omega)) ?_
      show [a + (i - a), b + (j - b)] = _
      rw [Nat.add_sub_cancel' hc.1.1, Nat.add_sub_cancel' hc.2.1])
    (rectE_margin (by omega) (by omega) hlen hcast hland) hpml hp0 hrun
  exact ⟨out', st', q1, q2, fun i hi j hj => q3 _ (valid_pair hi hj)⟩

/-! ## Example: a row of two casts, and the same with margins of land -/

/-- The two casts of `twoS` in the middle of four rows and three columns of land. -/
def marginS : Nd (Fl ℚ) := ⟨[4, 4, 3], fun m => if (m.getD 1 0 = 1 ∨ m.getD 1 0 = 2) ∧ m.getD 2 0 = 1 then twoS.get [m.getD 0 0, m.getD 1 0 - 1, m.getD 2 0 - 1] else .nan⟩
def marginT : Nd (Fl ℚ) := ⟨[4, 4, 3], fun _ => .fin 0⟩

theorem margin_args : Args (.int 0) none marginS marginT demoP 0 (fun _ k => .fin k) := ⟨rfl, by show 0 < 3; decide, rfl, rfl, fun _ _ => rfl⟩

/-- The run on the large grid, pinned at its cast `[1, 1]`, gives what the run on the small grid gives, and that is not the initial pressure everywhere. -/
example : ∃ g', Grid.rectGrid (F := Fl ℚ) 4 3 false false (.scalar (.fin 1)) (.scalar (.fin 1)) (.scalar (.fin 1)) (.scalar (.fin 1)) = .ok g' ∧
    ∃ out st, omegaSurf (demoO "poisson") none (fun _ => none) marginS marginT demoP ⟨g'.edges, some g'.dist, some g'.distperp⟩ (.tuple [1, 1]) (.scalar (.fin 2)) =
      .ok ([4, 3], out, st) ∧ (out [1, 1]).2.2 = .fin 2 ∧ (out [2, 1]).2.2 = .fin 1 := by
  obtain ⟨g, hg, -⟩ := rectGrid_gridL (F := Fl ℚ) (ni := 2) (nj := 1) (p0 := false) (p1 := false) (dxC := .scalar (.fin 1)) (dyC := .scalar (.fin 1))
    (dyG := .scalar (.fin 1)) (dxG := .scalar (.fin 1)) rfl rfl rfl rfl
  obtain ⟨g', hg', -⟩ := rectGrid_gridL (F := Fl ℚ) (ni := 4) (nj := 3) (p0 := false) (p1 := false) (dxC := .scalar (.fin 1)) (dyC := .scalar (.fin 1))
    (dyG := .scalar (.fin 1)) (dxG := .scalar (.fin 1)) rfl rfl rfl rfl
  refine ⟨g', hg', ?_⟩
  have e : cropG = (⟨g.edges, some g.dist, some g.distperp⟩ : GridDict (Fl ℚ)) := by unfold cropG; rw [hg]
  have h := crop_run
  rw [e] at h
  have hrun : ∀ r, omegaSurf (demoO "poisson") none (fun _ => none) twoS twoT demoP ⟨g.edges, some g.dist, some g.distperp⟩ (.tuple [0, 0]) (.scalar (.fin 2)) = r →
      ∃ out st, r = .ok ([2, 1], out, st) ∧ (out [0, 0]).2.2 = .fin 2 ∧ (out [1, 0]).2.2 = .fin 1 := by
    intro r hr
    rw [hr] at h
    match r, h with
    | .ok (a, out, st), h =>
      simp only [Option.some.injEq, Prod.mk.injEq] at h
      exact ⟨out, st, by rw [h.1], h.2.1, h.2.2⟩
  obtain ⟨out, st, hr, h0, h1⟩ := hrun _ rfl
  obtain ⟨out', st', c1, -, c3⟩ := omegaSurf_rect_margin nanLaws_fl rfl (o := demoO "poisson") (pml' := none) two_args margin_args (ni := 2) (nj := 1) (a := 1) (c := 1)
    (b := 1) (d := 1) rfl rfl (dxC := .scalar (.fin 1)) (dyC := .scalar (.fin 1)) (dyG := .scalar (.fin 1)) (dxG := .scalar (.fin 1))
    (dxC' := .scalar (.fin 1)) (dyC' := .scalar (.fin 1)) (dyG' := .scalar (.fin 1)) (dxG' := .scalar (.fin 1)) rfl rfl rfl rfl rfl rfl rfl rfl
    (fun _ _ _ _ => ⟨rfl, rfl, rfl, rfl⟩) hg hg'
    (by show (1 + 2 + 1) * (1 + 1 + 1) < 200; decide) (pc := .tuple [0, 0]) (pc' := .tuple [1, 1]) (coord := fun _ => none) (i0 := 0) (j0 := 0) rfl rfl
    (by decide) (by decide) (by decide +kernel)
    (by
      intro i hi j hj
      obtain rfl : j = 0 := by omega
      have : i = 0 ∨ i = 1 := by omega
      rcases this with rfl | rfl <;> rfl)
    (by decide +kernel)
    trivial (p0 := .scalar (.fin 2)) (p0' := .scalar (.fin 2)) rfl hr
  exact ⟨out', st', c1, by rw [c3 0 (by decide) 0 (by decide)]; exact h0, by rw [c3 1 (by decide) 0 (by decide)]; exact h1⟩

end Omega
