import Verif.Props.LandRect

/-!
# Rows of land may be added or cut off (C192)

The data of a region without, or with, further rows of land beyond the last one of the first horizontal dimension give the same omega surface.
-/

set_option linter.unusedSectionVars false

namespace Omega
open FloatLike Lib Bfs
variable {F : Type*} [FloatLike F]

/-- Two mixed layers with the same pressures at the casts both have. -/
def PmlRows (n n' : ℕ) (r : List ℕ) : Option (Nd F) → Option (Nd F) → Prop
  | none, none => True
  | some x, some x' => x.shape = n :: r ∧ x'.shape = n' :: r ∧ ∀ m, Valid (n :: r) m → Valid (n' :: r) m → x'.get m = x.get m
  | _, _ => False

/-- Two initial surfaces with the same pressures at the casts both have; interpolation to the second raises nowhere. -/
def StartRows (n n' : ℕ) (r : List ℕ) (kind : PPKind) (casts : List ℕ → Cast F) : PArgInit F → PArgInit F → Prop
  | .scalar p, .scalar p' => p' = p
  | .array p, .array p' => p'.shape = n' :: r ∧ (∀ m, Valid (n :: r) m → Valid (n' :: r) m → p'.get m = p.get m) ∧
      ∀ m, Valid (n' :: r) m → (interpOn kind (casts m) (p'.get m)).isSome = true
  | _, _ => False

theorem valid_head {n n' : ℕ} {r : List ℕ} {k : ℕ} (h : k < (n :: r).prod) (h' : k < (n' :: r).prod) :
    Valid (n :: r) (unravel (n :: r) k) ∧ Valid (n' :: r) (unravel (n :: r) k) ∧ ravel (n :: r) (unravel (n :: r) k) = k := by
  obtain ⟨a, b⟩ := valid_unravel h
  obtain ⟨a', -⟩ := valid_unravel h'
  exact ⟨a, a', b⟩

theorem ravel_head {n n' : ℕ} {r m : List ℕ} : ravel (n' :: r) m = ravel (n :: r) m := by
  cases m <;> rfl

/-- Two calls on arrays with different numbers of rows, with the same data in the rows both have and links between casts that both have only.  If the first returns, so
does the second, with the same surface in the rows both have. -/
theorem omegaSurf_rows (L : NanLaws F) {o : Opts F} {pml' : Option (Nd F)} {dims : Option (List String)} {coord : String → Option (List ℚ)} {S T S' T' : Nd F}
    {P P' : PArg F} {v : ℕ} {pr pr' : List ℕ → ℕ → F} (A : Args o.vertDim dims S T P v pr) (A' : Args o.vertDim dims S' T' P' v pr')
    {n n' : ℕ} {r : List ℕ} (hsh : S.shape.eraseIdx v = n :: r) (hsh' : S'.shape.eraseIdx v = n' :: r) {g : GridDict F}
    (hg : ∀ e ∈ g.edges, e.1 < (n :: r).prod ∧ e.2 < (n :: r).prod) (hg' : ∀ e ∈ g.edges, e.1 < (n' :: r).prod ∧ e.2 < (n' :: r).prod)
    (hfuel : (n :: r).prod < o.fuel) (hfuel' : (n' :: r).prod < o.fuel)
    {pc : PinCast} {m0 : List ℕ} (hpc : processPinCast coord pc = .ok (m0.map fun i : ℕ => (i : ℤ))) (hm0 : Valid (n' :: r) m0)
    (hcast : ∀ m, Valid (n :: r) m → Valid (n' :: r) m → castAt S' T' pr' v m = castAt S T pr v m)
    (hpml : PmlRows n n' r o.pml pml') {p0 p0' : PArgInit F} (hp0 : StartRows n n' r o.kind (fun m => castAt S' T' pr' v m) p0 p0')
    {hs : List ℕ} {out : List ℕ → F × F × F} {st : State F} (h : omegaSurf o dims coord S T P g pc p0 = .ok (hs, out, st)) :
    ∃ out' st', omegaSurf { o with pml := pml' } dims coord S' T' P' g pc p0' = .ok (n' :: r, out', st') ∧ st'.last = st.last ∧
      ∀ m, Valid (n :: r) m → Valid (n' :: r) m → out' m = out m := by
  unfold omegaSurf at h
  obtain ⟨pc1, e1, h⟩ := fbind_ok h
  obtain ⟨STP, e2, h⟩ := fbind_ok h
  have e2' : processCasts dims S T P o.vertDim = .ok STP := by
    revert e2
    cases processCasts dims S T P o.vertDim <;> intro e2 <;> first | (cases e2; rfl) | cases e2
  obtain ⟨a1, a2⟩ := A.casts e2'
  rw [hsh] at a1 a2
  have hhs : STP.1.shape.dropLast = n :: r := by rw [a1, List.dropLast_concat]
  rw [hpc] at e1
  cases e1
  dsimp only at h
  rw [hhs] at h
  rw [if_neg (List.cons_ne_nil _ _)] at h
  obtain ⟨pin, e3, h⟩ := fbind_ok h
  obtain ⟨ratio, e4, h⟩ := fbind_ok h
  obtain ⟨G, e5, h⟩ := fbind_ok h
  obtain ⟨solver, e6, h⟩ := fbind_ok h
  obtain ⟨q0, e7, h⟩ := fbind_ok h
  obtain ⟨s, e8, h⟩ := fbind_ok h
  cases h
  obtain ⟨m1, hm1, hv, rfl⟩ := ravelMultiIndex_ok.1 e3
  obtain rfl : m0 = m1 := by
    refine List.map_injective_iff.2 (fun a b hab => ?_) hm1
    exact_mod_cast hab
  have e5' : Graph.edgesToCsr g.edges (n :: r).prod o.garbage = .ok G := by
    revert e5
    cases Graph.edgesToCsr g.edges (n :: r).prod o.garbage <;> intro e5 <;> first | (cases e5; rfl) | cases e5
  have e8' : omega (cfgOf o (n :: r) STP.1 STP.2.1 STP.2.2 G (ravel (n :: r) m0) solver) q0 = .ok st := by
    revert e8
    cases omega (cfgOf o (n :: r) STP.1 STP.2.1 STP.2.2 G (ravel (n :: r) m0) solver) q0 <;> intro e8 <;> first | (cases e8; rfl) | cases e8
  obtain ⟨g2, g3⟩ := Graph.edgesToCsr_mem _ _ _ hg G e5'
  obtain ⟨G1, f5, -, -, n1⟩ := Graph.edgesToCsr_spec g.edges (n :: r).prod o.garbage hg
  rw [e5'] at f5
  cases f5
  obtain ⟨G', f5, -, -, n2⟩ := Graph.edgesToCsr_spec g.edges (n' :: r).prod o.garbage hg'
  obtain ⟨g2', g3'⟩ := Graph.edgesToCsr_mem _ _ _ hg' G' f5
  -- the second call
  obtain ⟨STP', f2⟩ : ∃ STP', processCasts dims S' T' P' o.vertDim = .ok STP' := by
    obtain ⟨h1, h2⟩ := processCasts_spec dims S' T' o.vertDim v A'.lt A'.dim (by rw [A'.shape])
    have hp := A'.press
    cases P' with
    | full P => obtain ⟨_, _, _, e, _⟩ := h2 P (by rw [hp.1]); exact ⟨_, e⟩
    | small size P => obtain ⟨_, _, _, e, _⟩ := h1 size P hp.1; exact ⟨_, e⟩
  obtain ⟨b1, b2⟩ := A'.casts f2
  rw [hsh'] at b1 b2
  have hhs' : STP'.1.shape.dropLast = n' :: r := by rw [b1, List.dropLast_concat]
  have hpin' : ravelMultiIndex (n' :: r) (m0.map fun i : ℕ => (i : ℤ)) = .ok (ravel (n :: r) m0) :=
    ravelMultiIndex_ok.2 ⟨m0, rfl, hm0, ravel_head⟩
  obtain ⟨c, hc⟩ : ∃ c, c = cfgOf o (n :: r) STP.1 STP.2.1 STP.2.2 G (ravel (n :: r) m0) solver := ⟨_, rfl⟩
  obtain ⟨c', hc'⟩ : ∃ c', c' = cfgOf { o with pml := pml' } (n' :: r) STP'.1 STP'.2.1 STP'.2.2 G' (ravel (n :: r) m0) solver := ⟨_, rfl⟩
  let C : ℕ → Bool := fun k => decide (k < (n :: r).prod) && decide (k < (n' :: r).prod)
  have hC : ∀ k, C k = true ↔ k < (n :: r).prod ∧ k < (n' :: r).prod := by
    intro k; simp only [C, Bool.and_eq_true, decide_eq_true_eq]
  have hCv : ∀ m, Valid (n :: r) m → Valid (n' :: r) m → C (ravel (n :: r) m) = true := by
    intro m hm hm'
    rw [hC]
    refine ⟨ravel_lt hm, ?_⟩
    rw [← ravel_head (n' := n')]
    exact ravel_lt hm'
  have hcasts : ∀ k, C k = true → castsOf STP'.1 STP'.2.1 STP'.2.2 k = castsOf STP.1 STP.2.1 STP.2.2 k := by
    intro k hk
    obtain ⟨h1, h2⟩ := (hC k).1 hk
    obtain ⟨u1, u2, u3⟩ := valid_head h1 h2
    have w1 := a2 _ u1
    have w2 := b2 _ u2
    rw [ravel_head (n := n)] at w2
    rw [u3] at w1 w2
    rw [w1, w2, hcast _ u1 u2]
  have hsol : OmegaMat.Confined C solver solver := by
    unfold solverOf at e6
    split_ifs at e6
    · cases e6; exact OmegaMat.poisson_confined _ _ (show _ = _ from rfl)
    · cases e6; exact OmegaMat.gradient_confined _ _ (show _ = _ from rfl)
  have H : SameBasin C c c' := by
    rw [hc, hc']
    refine ⟨hCv m0 hv hm0, fun k hk => ((hC k).1 hk).1, fun k hk => ((hC k).1 hk).2, ⟨?_, ?_⟩, hcasts, ?_, hsol, rfl, rfl, rfl, rfl, rfl,
      rfl, rfl, rfl, rfl, rfl, rfl, rfl, rfl, rfl⟩
    · intro m _
      show G'.nbrs m = G.nbrs m
      rw [n1, n2]
    · intro a ha b hb
      rcases (g2 a b).1 hb with hb' | hb'
      · exact (hC b).2 ⟨(hg _ hb').2, (hg' _ hb').2⟩
      · exact (hC b).2 ⟨(hg _ hb').1, (hg' _ hb').1⟩
    · intro k hk
      obtain ⟨h1, h2⟩ := (hC k).1 hk
      obtain ⟨u1, u2, u3⟩ := valid_head h1 h2
      show (match pml' with | some x => flatten x | none => fun _ => -(lit 1 / lit 0)) k = (match o.pml with | some x => flatten x | none => fun _ => -(lit 1 / lit 0)) k
      generalize o.pml = pml at hpml
      match pml, pml', hpml with
      | none, none, _ => rfl
      | some x, some x', hp =>
        show x'.get (unravel x'.shape k) = x.get (unravel x.shape k)
        rw [hp.1, hp.2.1]
        exact hp.2.2 _ u1 u2
  have K : Ok c := by rw [hc]; exact ⟨g3, ravel_lt hv, hfuel⟩
  have K' : Ok c' := by rw [hc']; exact ⟨g3', by rw [← ravel_head (n' := n')]; exact ravel_lt hm0, hfuel'⟩
  obtain ⟨q0', f7, hq⟩ : ∃ q0', checkInit (n' :: r) p0' = .ok q0' ∧ SamePInit C c' q0 q0' := by
    match p0, p0', hp0 with
    | .scalar p, .scalar p', hp0 => cases e7; exact ⟨_, rfl, hp0⟩
    | .array p, .array p', hp0 =>
      obtain ⟨h1, h2, h3⟩ := hp0
      unfold checkInit at e7
      dsimp only at e7
      split_ifs at e7 with hps
      cases e7
      refine ⟨.array (flatten p'), by unfold checkInit; dsimp only; rw [if_pos h1], ?_, ?_⟩
      · intro k hk
        obtain ⟨k1, k2⟩ := (hC k).1 hk
        obtain ⟨u1, u2, u3⟩ := valid_head k1 k2
        show p'.get (unravel p'.shape k) = p.get (unravel p.shape k)
        rw [h1, hps]
        exact h2 _ u1 u2
      · intro k hk
        rw [hc'] at hk
        obtain ⟨u1, u2⟩ := valid_unravel (show k < (n' :: r).prod from hk)
        have := h3 _ u1
        dsimp only at this
        rw [← b2 _ u1, u2] at this
        rw [hc']
        show (interpOn o.kind (castsOf STP'.1 STP'.2.1 STP'.2.2 k) (p'.get (unravel p'.shape k))).isSome = true
        rw [h1]
        exact this
  rw [← hc] at e8'
  obtain ⟨s', k1, k2, k3⟩ := omega_local L H K K' hq e8'
  refine ⟨reshapeGet (n' :: r) s'.stp, s', ?_, k2, ?_⟩
  · unfold omegaSurf
    rw [hpc]
    dsimp only
    rw [f2]
    simp only [ofLib, FRes.bind, hhs']
    rw [if_neg (List.cons_ne_nil _ _), hpin']
    simp only [FRes.bind]
    rw [e4]
    simp only [FRes.bind]
    rw [f5]
    simp only [ofGraph, FRes.bind]
    have e6' : solverOf { o with pml := pml' } g.edges ratio = .ok solver := e6
    rw [e6']
    simp only
    rw [f7]
    simp only
    rw [← hc', k1]
    rfl
  · intro m hm hm'
    rw [reshape_ravel _ hm, reshape_ravel _ hm', ravel_head (n := n)]
    exact k3 _ (hCv m hm hm')

/-- The initial pressure of both calls: one number, or two arrays that agree at the casts of the smaller grid, to which interpolation raises no exception there. -/
def StartBoth (n n' : ℕ) (r : List ℕ) (kind : PPKind) (casts : List ℕ → Cast F) : PArgInit F → PArgInit F → Prop
  | .scalar p, .scalar p' => p' = p
  | .array p, .array p' => p.shape = n :: r ∧ p'.shape = n' :: r ∧ ∀ m, Valid (n :: r) m → p'.get m = p.get m ∧ (interpOn kind (casts m) (p.get m)).isSome = true
  | _, _ => False

theorem few_interp {x : Cast F} (h : Few x = true) (kind : PPKind) (p : F) : interpOn kind x p = some (nan, nan) := by
  unfold Few at h
  simp only [Bool.and_eq_true, decide_eq_true_eq] at h
  have ho : Interp.outside x.P (Interp.validRange2 x.P x.S).1 (Interp.validRange2 x.P x.S).2 p = true := by
    unfold Interp.outside
    rw [decide_eq_true (by omega)]
    rfl
  unfold interpOn Interp.ppinterp1Two
  dsimp only
  rw [ho]
  cases kind <;> rfl

theorem valid_more {n n' : ℕ} (hn : n ≤ n') {r m : List ℕ} (h : Valid (n :: r) m) : Valid (n' :: r) m := by
  cases h with
  | cons h1 h2 => exact .cons (lt_of_lt_of_le h1 hn) h2

theorem pml_rows_symm {n n' : ℕ} {r : List ℕ} {pml pml' : Option (Nd F)} (h : PmlRows n n' r pml pml') : PmlRows n' n r pml' pml := by
  cases pml <;> cases pml'
  · trivial
  · exact h.elim
  · exact h.elim
  · exact ⟨h.2.1, h.1, fun m h1 h2 => (h.2.2 m h2 h1).symm⟩

theorem start_down {n n' : ℕ} {r : List ℕ} {kind : PPKind} {casts : List ℕ → Cast F} {p0 p0' : PArgInit F} (h : StartBoth n n' r kind casts p0 p0') :
    StartRows n' n r kind casts p0' p0 := by
  cases p0 <;> cases p0'
  case scalar.scalar => exact Eq.symm h
  case array.array => exact ⟨h.1, fun m _ hm => ((h.2.2 m hm).1).symm, fun m hm => (h.2.2 m hm).2⟩
  all_goals exact h.elim

theorem start_up {n n' : ℕ} {r : List ℕ} {kind : PPKind} {casts casts' : List ℕ → Cast F} (hcast : ∀ m, Valid (n :: r) m → casts' m = casts m)
    (hland : ∀ m, Valid (n' :: r) m → ¬ Valid (n :: r) m → Few (casts' m) = true) {p0 p0' : PArgInit F} (h : StartBoth n n' r kind casts p0 p0') :
    StartRows n n' r kind casts' p0 p0' := by
  cases p0 <;> cases p0'
  case scalar.scalar => exact h
  case array.array =>
    refine ⟨h.2.1, fun m hm _ => (h.2.2 m hm).1, fun m hm => ?_⟩
    by_cases hv : Valid (n :: r) m
    · rw [hcast m hv, (h.2.2 m hv).1]; exact (h.2.2 m hv).2
    · rw [few_interp (hland m hm hv)]; rfl
  all_goals exact h.elim

/-- **C192.** A second ocean has the rows of the first, and further rows of land; between casts at sea it has the same links, with the same lengths and in the same order.
`omega_surf` returns on one exactly if it returns on the other, after the same number of passes, and the surfaces are the same in the rows of the first. -/
theorem omegaSurf_land_rows (L : NanLaws F) (hN : isNaN (nan : F) = true) {o : Opts F} {pml' : Option (Nd F)} {dims : Option (List String)}
    {coord : String → Option (List ℚ)} {S T S' T' : Nd F} {P P' : PArg F} {v : ℕ} {pr pr' : List ℕ → ℕ → F} (A : Args o.vertDim dims S T P v pr)
    (A' : Args o.vertDim dims S' T' P' v pr') {n n' : ℕ} (hn : n ≤ n') {r : List ℕ} (hsh : S.shape.eraseIdx v = n :: r) (hsh' : S'.shape.eraseIdx v = n' :: r)
    {E E' : List ((ℕ × ℕ) × F × F)} (hE : ∀ e ∈ E, e.1.1 < (n :: r).prod ∧ e.1.2 < (n :: r).prod)
    (hE' : ∀ e ∈ E', e.1.1 < (n' :: r).prod ∧ e.1.2 < (n' :: r).prod) (hfuel : (n' :: r).prod < o.fuel)
    {pc : PinCast} {m0 : List ℕ} (hpc : processPinCast coord pc = .ok (m0.map fun i : ℕ => (i : ℤ))) (hm0 : Valid (n :: r) m0)
    (hsea : Few (castAt S T pr v m0) = false) (hcast : ∀ m, Valid (n :: r) m → castAt S' T' pr' v m = castAt S T pr v m)
    (hland : ∀ m, Valid (n' :: r) m → ¬ Valid (n :: r) m → Few (castAt S' T' pr' v m) = true)
    (h : E'.filter (atSea (n' :: r) (castAt S' T' pr' v)) = E.filter (atSea (n :: r) (castAt S T pr v)))
    (hpml : PmlRows n n' r o.pml pml') {p0 p0' : PArgInit F} (hp0 : StartBoth n n' r o.kind (castAt S T pr v) p0 p0') :
    (∀ hs out st, omegaSurf o dims coord S T P (gridL E) pc p0 = .ok (hs, out, st) →
      ∃ out' st', omegaSurf { o with pml := pml' } dims coord S' T' P' (gridL E') pc p0' = .ok (n' :: r, out', st') ∧ st'.last = st.last ∧
        ∀ m, Valid (n :: r) m → out' m = out m) ∧
    ∀ hs' out' st', omegaSurf { o with pml := pml' } dims coord S' T' P' (gridL E') pc p0' = .ok (hs', out', st') →
      ∃ out st, omegaSurf o dims coord S T P (gridL E) pc p0 = .ok (n :: r, out, st) ∧ st'.last = st.last ∧ ∀ m, Valid (n :: r) m → out' m = out m := by
  have hmono : (n :: r).prod ≤ (n' :: r).prod := by
    rw [List.prod_cons, List.prod_cons]; exact Nat.mul_le_mul_right _ hn
  obtain ⟨E0, hE0⟩ : ∃ E0, E0 = E.filter (atSea (n :: r) (castAt S T pr v)) := ⟨_, rfl⟩
  have r0 : ∀ e ∈ E0, e.1.1 < (n :: r).prod ∧ e.1.2 < (n :: r).prod := by
    intro e he
    rw [hE0] at he
    exact hE e (List.mem_filter.1 he).1
  have r0' : ∀ e ∈ E0, e.1.1 < (n' :: r).prod ∧ e.1.2 < (n' :: r).prod := fun e he => ⟨lt_of_lt_of_le (r0 e he).1 hmono, lt_of_lt_of_le (r0 e he).2 hmono⟩
  have hg : ∀ (N : ℕ), (∀ e ∈ E0, e.1.1 < N ∧ e.1.2 < N) → ∀ e ∈ (gridL E0).edges, e.1 < N ∧ e.2 < N := by
    intro N hh e he
    obtain ⟨y, hy, rfl⟩ := List.mem_map.1 he
    exact hh y hy
  have small : omegaSurf o dims coord S T P (gridL E0) pc p0 = omegaSurf o dims coord S T P (gridL E) pc p0 := by
    refine omegaSurf_land_links L hN A (by rw [hsh]; exact hE) (by rw [hsh]; exact r0) (by rw [hsh]; exact lt_of_le_of_lt hmono hfuel) hpc hsea ?_ p0
    rw [hsh, hE0, List.filter_filter]
    simp only [Bool.and_self]
  have big : omegaSurf { o with pml := pml' } dims coord S' T' P' (gridL E0) pc p0' = omegaSurf { o with pml := pml' } dims coord S' T' P' (gridL E') pc p0' := by
    refine omegaSurf_land_links L hN (o := { o with pml := pml' }) A' (by rw [hsh']; exact hE') (by rw [hsh']; exact r0') (by rw [hsh']; exact hfuel) hpc
      (by rw [hcast m0 hm0]; exact hsea) ?_ p0'
    rw [hsh', hE0, ← h, List.filter_filter]
    simp only [Bool.and_self]
  rw [← small, ← big]
  constructor
  · intro hs out st hrun
    have hq : StartRows n n' r o.kind (fun m => castAt S' T' pr' v m) p0 p0' := start_up hcast hland hp0
    obtain ⟨out', st', e1, e2, e3⟩ := omegaSurf_rows L A A' hsh hsh' (hg _ r0) (hg _ r0') (lt_of_le_of_lt hmono hfuel) hfuel hpc (valid_more hn hm0)
      (fun m hm _ => hcast m hm) hpml hq hrun
    exact ⟨out', st', e1, e2, fun m hm => e3 m hm (valid_more hn hm)⟩
  · intro hs' out' st' hrun
    have hq : StartRows n' n r o.kind (fun m => castAt S T pr v m) p0' p0 := start_down hp0
    have hpml2 := pml_rows_symm hpml
    obtain ⟨out, st, e1, e2, e3⟩ := omegaSurf_rows L (o := { o with pml := pml' }) (pml' := o.pml) A' A hsh' hsh (hg _ r0') (hg _ r0) hfuel
      (lt_of_le_of_lt hmono hfuel) hpc hm0 (fun m _ hm => (hcast m hm).symm) hpml2 hq hrun
    exact ⟨out, st, e1, e2.symm, fun m hm => (e3 m (valid_more hn hm) hm).symm⟩

/-! ## Rectilinear grids -/

theorem flat_add {A : Type*} (a b m : ℕ) (f : ℕ → ℕ → A) : Grid.flat (a + b) m f = Grid.flat a m f ++ Grid.flat b m fun i j => f (a + i) j := by
  unfold Grid.flat
  rw [List.range_add, List.flatMap_append, List.flatMap_map]

/-- The links at sea of a rectilinear grid, open in the first dimension, with `k` further rows of land are those of the grid without. -/
theorem rectE_rows {n k nj : ℕ} (hn : 0 < n) {p1 : Bool} {x y yg xg : ℕ → ℕ → F} {cast cast' : List ℕ → Cast F}
    (hcast : ∀ i < n, ∀ j < nj, cast' [i, j] = cast [i, j]) (hland : ∀ i, n ≤ i → i < n + k → ∀ j < nj, Few (cast' [i, j]) = true) :
    (rectE (n + k) nj false p1 x y yg xg).filter (atSea [n + k, nj] cast') = (rectE n nj false p1 x y yg xg).filter (atSea [n, nj] cast) := by
  have same : ∀ i < n, ∀ j < nj, cast' (unravel [n + k, nj] (Grid.cell nj i j)) = cast (unravel [n, nj] (Grid.cell nj i j)) := by
    intro i hi j hj
    rw [unravel_cell (by omega) hj, unravel_cell hi hj, hcast i hi j hj]
  have gone : ∀ i, n ≤ i → i < n + k → ∀ j < nj, Few (cast' (unravel [n + k, nj] (Grid.cell nj i j))) = true := by
    intro i h1 h2 j hj
    rw [unravel_cell h2 hj]; exact hland i h1 h2 j hj
  have part : ∀ (a m : ℕ) (f : ℕ → ℕ → (ℕ × ℕ) × F × F), (∀ i < a, ∀ j < m, atSea [n + k, nj] cast' (f i j) = atSea [n, nj] cast (f i j)) →
      (∀ i < k, ∀ j < m, atSea [n + k, nj] cast' (f (a + i) j) = false) →
      (Grid.flat (a + k) m f).filter (atSea [n + k, nj] cast') = (Grid.flat a m f).filter (atSea [n, nj] cast) := by
    intro a m f h1 h2
    have e1 : (Grid.flat k m fun i j => f (a + i) j).filter (atSea [n + k, nj] cast') = [] := by
      rw [List.filter_eq_nil_iff]
      intro e he
      obtain ⟨i, hi, j, hj, rfl⟩ := mem_flat_at he
      rw [h2 i hi j hj]; simp
    rw [flat_add, List.filter_append, e1, List.append_nil]
    apply List.filter_congr
    intro e he
    obtain ⟨i, hi, j, hj, rfl⟩ := mem_flat_at he
    exact h1 i hi j hj
  unfold rectE
  rw [List.filter_append, List.filter_append]
  congr 1
  · have shape : ∀ N, Grid.flat (N - Grid.off false) nj (fun i j => ((Grid.cell nj (i + Grid.off false) j, Grid.cell nj (Grid.prev N false (i + Grid.off false)) j),
        x (i + Grid.off false) j, yg (i + Grid.off false) j)) = Grid.flat (N - 1) nj fun i j => ((Grid.cell nj (i + 1) j, Grid.cell nj i j), x (i + 1) j, yg (i + 1) j) := by
      intro N
      show Grid.flat (N - 1) nj _ = _
      apply flat_congr_at
      intro i hi j hj
      show ((Grid.cell nj (i + 1) j, Grid.cell nj (Grid.prev N false (i + 1)) j), x (i + 1) j, yg (i + 1) j) = _
      rw [prev_succ_at (by omega)]
    rw [shape, shape, show n + k - 1 = n - 1 + k by omega]
    refine part (n - 1) nj _ ?_ ?_
    · intro i hi j hj
      unfold atSea
      dsimp only
      rw [same (i + 1) (by omega) j hj, same i (by omega) j hj]
    · intro i hi j hj
      unfold atSea
      dsimp only
      rw [gone (n - 1 + i + 1) (by omega) (by omega) j hj]; rfl
  · refine part n _ _ ?_ ?_
    · intro i hi j hj
      have hb : Grid.prev nj p1 (j + Grid.off p1) < nj := prev_lt (by omega) (by omega)
      unfold atSea
      dsimp only
      rw [same i hi _ (by omega), same i hi _ hb]
    · intro i hi j hj
      unfold atSea
      dsimp only
      rw [gone _ (by omega) (by omega) _ (by omega)]; rfl

/-- **C192, rectilinear grids.** `k` rows of land after the last row of an ocean on a rectilinear grid, open in that dimension, do not change the surface. -/
theorem omegaSurf_rect_rows (L : NanLaws F) (hN : isNaN (nan : F) = true) {o : Opts F} {pml' : Option (Nd F)} {dims : Option (List String)}
    {coord : String → Option (List ℚ)} {S T S' T' : Nd F} {P P' : PArg F} {v : ℕ} {pr pr' : List ℕ → ℕ → F} (A : Args o.vertDim dims S T P v pr)
    (A' : Args o.vertDim dims S' T' P' v pr') {n k nj : ℕ} (hsh : S.shape.eraseIdx v = [n, nj]) (hsh' : S'.shape.eraseIdx v = [n + k, nj])
    {p1 : Bool} {dxC dyC dyG dxG dxC' dyC' dyG' dxG' : Grid.Data F} {x y yg xg : ℕ → ℕ → F}
    (hx : Grid.broadcastTo n nj dxC = .ok x) (hy : Grid.broadcastTo n nj dyC = .ok y) (hyg : Grid.broadcastTo n nj dyG = .ok yg) (hxg : Grid.broadcastTo n nj dxG = .ok xg)
    (hx' : Grid.broadcastTo (n + k) nj dxC' = .ok x) (hy' : Grid.broadcastTo (n + k) nj dyC' = .ok y)
    (hyg' : Grid.broadcastTo (n + k) nj dyG' = .ok yg) (hxg' : Grid.broadcastTo (n + k) nj dxG' = .ok xg)
    {g g' : Grid.G F} (hg : Grid.rectGrid n nj false p1 dxC dyC dyG dxG = .ok g) (hg' : Grid.rectGrid (n + k) nj false p1 dxC' dyC' dyG' dxG' = .ok g')
    (hfuel : (n + k) * nj < o.fuel) {pc : PinCast} {i0 j0 : ℕ} (hpc : processPinCast coord pc = .ok [(i0 : ℤ), (j0 : ℤ)]) (hi0 : i0 < n) (hj0 : j0 < nj)
    (hsea : Few (castAt S T pr v [i0, j0]) = false) (hcast : ∀ i < n, ∀ j < nj, castAt S' T' pr' v [i, j] = castAt S T pr v [i, j])
    (hland : ∀ i, n ≤ i → i < n + k → ∀ j < nj, Few (castAt S' T' pr' v [i, j]) = true)
    (hpml : PmlRows n (n + k) [nj] o.pml pml') {p0 p0' : PArgInit F} (hp0 : StartBoth n (n + k) [nj] o.kind (castAt S T pr v) p0 p0') :
    (∀ hs out st, omegaSurf o dims coord S T P ⟨g.edges, some g.dist, some g.distperp⟩ pc p0 = .ok (hs, out, st) →
      ∃ out' st', omegaSurf { o with pml := pml' } dims coord S' T' P' ⟨g'.edges, some g'.dist, some g'.distperp⟩ pc p0' = .ok ([n + k, nj], out', st') ∧
        st'.last = st.last ∧ ∀ i < n, ∀ j < nj, out' [i, j] = out [i, j]) ∧
    ∀ hs' out' st', omegaSurf { o with pml := pml' } dims coord S' T' P' ⟨g'.edges, some g'.dist, some g'.distperp⟩ pc p0' = .ok (hs', out', st') →
      ∃ out st, omegaSurf o dims coord S T P ⟨g.edges, some g.dist, some g.distperp⟩ pc p0 = .ok ([n, nj], out, st) ∧
        st'.last = st.last ∧ ∀ i < n, ∀ j < nj, out' [i, j] = out [i, j] := by
  obtain ⟨g1, h1, e1⟩ := rectGrid_gridL (p0 := false) (p1 := p1) hx hy hyg hxg
  obtain ⟨g2, h2, e2⟩ := rectGrid_gridL (p0 := false) (p1 := p1) hx' hy' hyg' hxg'
  rw [hg] at h1
  rw [hg'] at h2
  cases h1
  cases h2
  rw [e1, e2]
  have two : ∀ {N : ℕ} {m : List ℕ}, Valid [N, nj] m → ∃ i j, m = [i, j] ∧ i < N ∧ j < nj := by
    intro N m hm
    cases hm with
    | cons a b =>
      cases b with
      | cons b c => cases c; exact ⟨_, _, rfl, a, b⟩
  have mk : ∀ {N i j : ℕ}, i < N → j < nj → Valid [N, nj] [i, j] := fun a b => .cons a (.cons b .nil)
  obtain ⟨a, b⟩ := omegaSurf_land_rows L hN (pml' := pml') A A' (Nat.le_add_right n k) hsh hsh' rectE_range rectE_range
    (by rw [List.prod_cons, List.prod_singleton]; exact hfuel) (m0 := [i0, j0]) hpc (mk hi0 hj0) hsea
    (fun m hm => by obtain ⟨i, j, rfl, hi, hj⟩ := two hm; exact hcast i hi j hj)
    (fun m hm hn => by
      obtain ⟨i, j, rfl, hi, hj⟩ := two hm
      refine hland i ?_ hi j hj
      by_contra hc
      exact hn (mk (by omega) hj))
    (rectE_rows (p1 := p1) (x := x) (y := y) (yg := yg) (xg := xg) (by omega) hcast hland) hpml hp0
  constructor
  · intro hs out st hr
    obtain ⟨out', st', q1, q2, q3⟩ := a hs out st hr
    exact ⟨out', st', q1, q2, fun i hi j hj => q3 _ (mk hi hj)⟩
  · intro hs out st hr
    obtain ⟨out', st', q1, q2, q3⟩ := b hs out st hr
    exact ⟨out', st', q1, q2, fun i hi j hj => q3 _ (mk hi hj)⟩

/-! ## Example: the row of three casts whose last is land, and the row of two -/

/-- The first two casts of `rowS 2`. -/
def twoS : Nd (Fl ℚ) := ⟨[4, 2, 1], (rowS 2).get⟩
def twoT : Nd (Fl ℚ) := ⟨[4, 2, 1], fun _ => .fin 0⟩

theorem two_args : Args (.int 0) none twoS twoT demoP 0 (fun _ k => .fin k) := ⟨rfl, by show 0 < 3; decide, rfl, rfl, fun _ _ => rfl⟩

/-- The run on three casts and the run on two give the same pressures on these two, and they are not all the initial pressure. -/
example : ∃ g g', Grid.rectGrid 2 1 false false (.scalar (.fin 1)) (.scalar (.fin 1)) (.scalar (.fin 1)) (.scalar (.fin (1 : ℚ))) = .ok g ∧
    Grid.rectGrid (F := Fl ℚ) 3 1 false false (.scalar (.fin 1)) (.scalar (.fin 1)) (.scalar (.fin 1)) (.scalar (.fin 1)) = .ok g' ∧
    ∃ out st, omegaSurf (demoO "poisson") none (fun _ => none) twoS twoT demoP ⟨g.edges, some g.dist, some g.distperp⟩ (.tuple [0, 0]) (.scalar (.fin 2)) =
      .ok ([2, 1], out, st) ∧ (out [0, 0]).2.2 = .fin 2 ∧ (out [1, 0]).2.2 = .fin 1 := by
  obtain ⟨g, hg, -⟩ := rectGrid_gridL (F := Fl ℚ) (ni := 2) (nj := 1) (p0 := false) (p1 := false) (dxC := .scalar (.fin 1)) (dyC := .scalar (.fin 1))
    (dyG := .scalar (.fin 1)) (dxG := .scalar (.fin 1)) rfl rfl rfl rfl
  obtain ⟨g', hg', -⟩ := rectGrid_gridL (F := Fl ℚ) (ni := 3) (nj := 1) (p0 := false) (p1 := false) (dxC := .scalar (.fin 1)) (dyC := .scalar (.fin 1))
    (dyG := .scalar (.fin 1)) (dxG := .scalar (.fin 1)) rfl rfl rfl rfl
  refine ⟨g, g', hg, hg', ?_⟩
  have hrun : ∃ r, rowRun 2 false = .ok r ∧ (r.2.1 [0, 0]).2.2 = .fin 2 ∧ (r.2.1 [1, 0]).2.2 = .fin 1 := by
    have h : rowP 2 false = some [.fin 2, .fin 1, Fl.nan] := by decide +kernel
    unfold rowP at h
    split at h
    · next r hr =>
      refine ⟨r, hr, ?_⟩
      have := Option.some.inj h
      rw [show List.range 3 = [0, 1, 2] from rfl] at this
      exact ⟨(List.cons.inj this).1, (List.cons.inj (List.cons.inj this).2).1⟩
    · cases h
  obtain ⟨⟨hs, out', st'⟩, hr, q0, q1⟩ := hrun
  have e : rowG false = (⟨g'.edges, some g'.dist, some g'.distperp⟩ : GridDict (Fl ℚ)) := by unfold rowG; rw [hg']
  unfold rowRun at hr
  rw [e] at hr
  obtain ⟨-, b⟩ := omegaSurf_rect_rows nanLaws_fl rfl (o := demoO "poisson") (pml' := (demoO "poisson").pml) two_args (row_args 2) (n := 2) (k := 1) (nj := 1) rfl rfl
    (p1 := false) (dxC := .scalar (.fin 1)) (dyC := .scalar (.fin 1)) (dyG := .scalar (.fin 1)) (dxG := .scalar (.fin 1))
    (dxC' := .scalar (.fin 1)) (dyC' := .scalar (.fin 1)) (dyG' := .scalar (.fin 1)) (dxG' := .scalar (.fin 1)) rfl rfl rfl rfl rfl rfl rfl rfl hg hg'
    (by show (2 + 1) * 1 < 200; decide) (pc := .tuple [0, 0]) (coord := fun _ => none) (i0 := 0) (j0 := 0) rfl (by decide) (by decide) (by decide +kernel)
    (fun _ _ _ _ => rfl) (by decide +kernel) trivial (p0 := .scalar (.fin 2)) (p0' := .scalar (.fin 2)) rfl
  obtain ⟨out, st, c1, -, c3⟩ := b _ _ _ hr
  exact ⟨out, st, c1, by rw [← c3 0 (by decide) 0 (by decide)]; exact q0, by rw [← c3 1 (by decide) 0 (by decide)]; exact q1⟩

end Omega
