import Verif.Props.FlatOmega
import Verif.Props.OmegaRoundApi

/-!
# Calls of `omega_surf` where the water at one pressure is the same everywhere (C158)
-/

set_option linter.unusedSectionVars false

namespace Omega
open FloatLike Fzero Interp Traj VertSolve Bfs Lib
open Fl hiding nan

section run
variable {F : Type*} [FloatLike F]

/-- A call with well formed arguments runs the iteration on the casts in C order. -/
theorem omegaSurf_run {o : Opts F} {dims : Option (List String)} {coord : String → Option (List ℚ)} {S T : Nd F} {P : PArg F}
    {v : ℕ} {pr : List ℕ → ℕ → F} (A : Args o.vertDim dims S T P v pr) (hS : 2 ≤ S.shape.length) {g : GridDict F}
    (hg : ∀ e ∈ g.edges, e.1 < (S.shape.eraseIdx v).prod ∧ e.2 < (S.shape.eraseIdx v).prod) {pc : PinCast} {m0 : List ℕ}
    (hpc : processPinCast coord pc = .ok (m0.map fun i : ℕ => (i : ℤ))) (hv : Valid (S.shape.eraseIdx v) m0) {q d : List F}
    (hq : g.distperp = some q) (hd : g.dist = some d) {solver} (hsol : solverOf o g.edges (List.zipWith (fun x y => x / y) q d) = .ok solver)
    {init : PArgInit F} {Q : PInit F} (hQ : checkInit (S.shape.eraseIdx v) init = .ok Q) :
    ∃ c : Cfg F, c.N = (S.shape.eraseIdx v).prod ∧ c.pin = ravel (S.shape.eraseIdx v) m0 ∧ c.kind = o.kind ∧ c.fuel = o.fuel ∧ c.solver = solver ∧
      Follows c o (S.shape.eraseIdx v) ∧ InRange c.G c.N ∧ (∀ m, c.G.nbrs m = Graph.otherEnds m g.edges) ∧
      (∀ m, Valid (S.shape.eraseIdx v) m → c.casts (ravel (S.shape.eraseIdx v) m) = castAt S T pr v m) ∧
      omegaSurf o dims coord S T P g pc init =
        (ofIter (omega c Q)).bind fun st => .ok (S.shape.eraseIdx v, reshapeGet (S.shape.eraseIdx v) st.stp, st) := by
  have hne : S.shape.eraseIdx v ≠ [] := by
    intro h
    have := congrArg List.length h
    rw [List.length_eraseIdx, if_pos A.lt] at this
    simp at this; omega
  obtain ⟨STP, hSTP⟩ : ∃ STP, processCasts dims S T P o.vertDim = .ok STP := by
    obtain ⟨h1, h2⟩ := processCasts_spec dims S T o.vertDim v A.lt A.dim (by rw [A.shape])
    have hp := A.press
    cases P with
    | full P => obtain ⟨_, _, _, e, _⟩ := h2 P (by rw [hp.1]); exact ⟨_, e⟩
    | small size P => obtain ⟨_, _, _, e, _⟩ := h1 size P hp.1; exact ⟨_, e⟩
  obtain ⟨a1, a2⟩ := A.casts hSTP
  have hhs : STP.1.shape.dropLast = S.shape.eraseIdx v := by rw [a1, List.dropLast_concat]
  obtain ⟨G, g1, -, -, g0⟩ := Graph.edgesToCsr_spec g.edges (S.shape.eraseIdx v).prod o.garbage hg
  obtain ⟨-, g3⟩ := Graph.edgesToCsr_mem _ _ _ hg G g1
  refine ⟨cfgOf o (S.shape.eraseIdx v) STP.1 STP.2.1 STP.2.2 G (ravel (S.shape.eraseIdx v) m0) solver, rfl, rfl, rfl, rfl, rfl,
    cfgOf_follows _ _ _ _ _ _ _ _, g3, g0, a2, ?_⟩
  have hratio : distRatio g = .ok (List.zipWith (fun x y => x / y) q d) := by unfold distRatio; rw [hq, hd]
  unfold omegaSurf
  rw [hpc, hSTP]
  simp only [ofLib, FRes.bind, hhs]
  rw [if_neg hne, ravelMultiIndex_ok.2 ⟨m0, rfl, hv, rfl⟩]
  simp only [FRes.bind]
  rw [hratio]
  simp only [FRes.bind]
  rw [g1]
  simp only [ofGraph, FRes.bind]
  rw [hsol]
  simp only
  rw [hQ]

end run

variable {α : Type*} [Field α] [LinearOrder α] [IsStrictOrderedRing α] {rnd : α → α}

/-- Well formed arguments of a call in an ocean where every cast is land, has the water `(σ, τ)` at the pressure `p` with lighter water above, or has
no neutral link with that water; ratios of lengths are numbers, the matrix solver returns zero for a zero right-hand side, and the computed mean of as many copies of `p` as there are links
at a cast (or fewer) is `p`. -/
structure FlatCall (o : Opts (Rfl rnd)) (dims : Option (List String)) (coord : String → Option (List ℚ)) (S T : Nd (Rfl rnd)) (P : PArg (Rfl rnd))
    (v : ℕ) (pr : List ℕ → ℕ → Rfl rnd) (g : GridDict (Rfl rnd)) (pc : PinCast) (m0 : List ℕ) (σ τ p : α) : Prop where
  rounding : BinRound rnd
  args : Args o.vertDim dims S T P v pr
  horiz : 2 ≤ S.shape.length
  pin : processPinCast coord pc = .ok (m0.map fun i : ℕ => (i : ℤ))
  valid : Valid (S.shape.eraseIdx v) m0
  within : ∀ x ∈ g.edges, x.1 < (S.shape.eraseIdx v).prod ∧ x.2 < (S.shape.eraseIdx v).prod
  dist : ∃ q d, g.distperp = some q ∧ g.dist = some d ∧ (∀ x ∈ List.zipWith (fun x y => x / y) q d, isFinite x = true ∧ isFinite (o.sqrt x) = true)
  form : o.formulation.toLower = "poisson" ∧ OmegaMat.ZeroSolve o.spsolve ∨ o.formulation.toLower = "gradient" ∧ OmegaMat.ZeroLsqr o.lsqr
  eosST : OmegaMat.EosAt rnd o.eosST σ τ p
  tol : ∃ x : α, o.tol = Rfl.fin x
  enough : (S.shape.eraseIdx v).prod < o.fuel
  casts : ∀ m, Valid (S.shape.eraseIdx v) m → LandR (castAt S T pr v m) ∨ (∃ e A B, FlatCast rnd o.kind o.eos e σ τ p A B (castAt S T pr v m)) ∨
    ∃ s t, ntpBottleToCast o.fuel o.tol o.eos o.kind (Rfl.fin σ) (Rfl.fin τ) (Rfl.fin p) (castAt S T pr v m) = .ret (s, t, Rfl.qnan)
  here : ∃ e A B, FlatCast rnd o.kind o.eos e σ τ p A B (castAt S T pr v m0)
  mean : ∀ m < (S.shape.eraseIdx v).prod, ∀ j, 1 ≤ j → j ≤ (Graph.otherEnds m g.edges).length → meanR rnd (fun _ => p) (List.range j) = p
  diags : o.diags = true → 1 ≤ o.iterMax

/-- `p_init` is the pressure `p`, or an array of it on the casts with the water `(σ, τ)` there, and NaN at others. -/
def FlatStart (o : Opts (Rfl rnd)) (S T : Nd (Rfl rnd)) (v : ℕ) (pr : List ℕ → ℕ → Rfl rnd) (m0 : List ℕ) (σ τ p : α) : PArgInit (Rfl rnd) → Prop
  | .scalar q => q = Rfl.fin p
  | .array q => q.shape = S.shape.eraseIdx v ∧ q.get m0 = Rfl.fin p ∧ ∀ m, Valid (S.shape.eraseIdx v) m →
      q.get m = Rfl.qnan ∨ q.get m = Rfl.fin p ∧ ∃ e A B, FlatCast rnd o.kind o.eos e σ τ p A B (castAt S T pr v m)
  | .other => False

/-- Casts connected with `m0` by links between casts with the property. -/
inductive Linked (hs : List ℕ) (edges : List (ℕ × ℕ)) (good : List ℕ → Prop) (m0 : List ℕ) : List ℕ → Prop
  | root : good m0 → Linked hs edges good m0 m0
  | step {m n} : Linked hs edges good m0 m → Valid hs n → (ravel hs m, ravel hs n) ∈ edges ∨ (ravel hs n, ravel hs m) ∈ edges → good n →
      Linked hs edges good m0 n

theorem meanR_const (p : α) (ns : List ℕ) : meanR rnd (fun _ => p) ns = meanR rnd (fun _ => p) (List.range ns.length) := by
  have : ∀ (a : α) (l l' : List ℕ), l.length = l'.length → l.foldl (fun a _ => rnd (a + p)) a = l'.foldl (fun a _ => rnd (a + p)) a := by
    intro a l
    induction l generalizing a with
    | nil => intro l' h; rw [List.length_eq_zero_iff.1 h.symm]
    | cons x l ih =>
      intro l' h
      cases l' with
      | nil => cases h
      | cons y l' => exact ih _ _ (Nat.succ.inj h)
  unfold meanR sumR
  rw [this 0 ns (List.range ns.length) (by rw [List.length_range]), List.length_range]

theorem flatCast_two {kind : PPKind} {eos : Rfl rnd → Rfl rnd → Rfl rnd → Rfl rnd} {e : α → α → α → α} {σ τ p A B : α} {x : Cast (Rfl rnd)}
    (h : FlatCast rnd kind eos e σ τ p A B x) {c : Cfg (Rfl rnd)} {n : ℕ} (hk : c.kind = kind) (hx : c.casts n = x) :
    interpTwo c (Rfl.fin p) n = some (Rfl.fin σ, Rfl.fin τ) := by
  obtain ⟨k, K, a, s, t, G, -, -⟩ := h.data
  have hv : validRange2 x.P x.S = validRange2 x.P x.T := by rw [G.S.vr.1, G.T.vr.1]
  have hs := h.same
  unfold interpTwo
  rw [hk, hx]
  cases kind with
  | linear => exact (ppinterp1Two_eq hv _ _ _ _).2 hs
  | pchip => exact (ppinterp1Two_eq hv _ _ _ _).2 hs

/-- **C158** A call of `omega_surf` from a level surface in an ocean where the water at that pressure is the same everywhere returns the same level surface: at the
pinning cast and at all casts of an array `p_init` that are linked with it below the mixed layer exactly the initial bottle, at every other cast that bottle or no pressure.  With a positive
tolerance it stops as soon as it may. -/
theorem omegaSurf_flat_partial {o : Opts (Rfl rnd)} {dims : Option (List String)} {coord : String → Option (List ℚ)} {S T : Nd (Rfl rnd)} {P : PArg (Rfl rnd)}
    {v : ℕ} {pr : List ℕ → ℕ → Rfl rnd} {g : GridDict (Rfl rnd)} {pc : PinCast} {m0 : List ℕ} {σ τ p : α}
    (C : FlatCall o dims coord S T P v pr g pc m0 σ τ p) {init : PArgInit (Rfl rnd)} (hI : FlatStart o S T v pr m0 σ τ p init)
    (hml : ∀ x, o.pml = some x → x.shape = S.shape.eraseIdx v ∧ lt (Rfl.fin p) (x.get m0) = false) :
    ∃ out st, omegaSurf o dims coord S T P g pc init = .ok (S.shape.eraseIdx v, out, st) ∧ out m0 = (Rfl.fin σ, Rfl.fin τ, Rfl.fin p) ∧
      (∀ m, Valid (S.shape.eraseIdx v) m → isFinite (out m).2.2 = false ∨ out m = (Rfl.fin σ, Rfl.fin τ, Rfl.fin p)) ∧
      (∀ q, init = .array q → ∀ m, Linked (S.shape.eraseIdx v) g.edges
        (fun m => q.get m = Rfl.fin p ∧ ∀ x, o.pml = some x → lt (Rfl.fin p) (x.get m) = false) m0 m → out m = (Rfl.fin σ, Rfl.fin τ, Rfl.fin p)) ∧
      (lt (Rfl.fin 0) (if lt (o.eos (lit (345/10)) (lit 3) (lit 1000)) (lit 1) then o.tolPhi / lit 1000000 else o.tolPhi) = true →
        st.last = min o.iterMax (max 1 o.iterMin)) := by
  obtain ⟨q, d, hq, hd, hfin⟩ := C.dist
  have R := C.rounding
  obtain ⟨solver, s1, s2⟩ : ∃ solver, solverOf o g.edges (List.zipWith (fun x y => x / y) q d) = .ok solver ∧
      ∀ s t q m pin, m.Nodup → pin ∈ m → OmegaMat.LevelOn σ τ p m s t q → ∃ φ, solver s t q m pin = .ok φ ∧ OmegaMat.ZeroOn m φ := by
    unfold solverOf
    rcases C.form with ⟨h, hz⟩ | ⟨h, hz⟩
    · rw [if_pos h]
      exact ⟨_, rfl, fun s t q m pin hm hp hl => poisson_flat R C.eosST hz (ratio := .arr _) (fun x hx => (hfin x hx).1) hm hp hl⟩
    · rw [if_neg (by rw [h]; decide), if_pos h]
      have hr : FiniteRatio (.arr ((List.zipWith (fun x y => x / y) q d).map o.sqrt)) := by
        intro x hx
        obtain ⟨y, hy, rfl⟩ := List.mem_map.1 hx
        exact (hfin y hy).2
      exact ⟨_, rfl, fun s t q m pin hm hp hl => gradient_flat R C.eosST hz hr hm hp hl⟩
  obtain ⟨Q, hQ, hQs⟩ : ∃ Q, checkInit (S.shape.eraseIdx v) init = .ok Q ∧
      (init = .scalar (Rfl.fin p) ∧ Q = .scalar (Rfl.fin p) ∨ ∃ q, init = .array q ∧ Q = .array (flatten q)) := by
    cases init with
    | scalar z => obtain rfl : z = Rfl.fin p := hI; exact ⟨_, rfl, Or.inl ⟨rfl, rfl⟩⟩
    | array z => exact ⟨_, by rw [checkInit, if_pos hI.1], Or.inr ⟨_, rfl, rfl⟩⟩
    | other => exact absurd hI id
  obtain ⟨c, hN, hpin, hkind, hfuel, hsol, hfol, hG, hnb, hcast, hrun⟩ := omegaSurf_run C.args C.horiz C.within C.pin C.valid hq hd s1 hQ
  obtain ⟨hs, hhs⟩ : ∃ hs, hs = S.shape.eraseIdx v := ⟨_, rfl⟩
  have hcasts := C.casts
  have hmean := C.mean
  have hen := C.enough
  have hv := C.valid
  have hI' : ∀ q, init = .array q → q.shape = hs ∧ q.get m0 = Rfl.fin p ∧ ∀ m, Valid hs m →
      q.get m = Rfl.qnan ∨ q.get m = Rfl.fin p ∧ ∃ e A B, FlatCast rnd o.kind o.eos e σ τ p A B (castAt S T pr v m) := by
    rintro q rfl; rw [hhs]; exact hI
  rw [← hhs] at hN hpin hcast hrun hcasts hmean hen hv hml hfol ⊢
  have W : FlatWorld c σ τ p :=
    { rounding := R
      ok := ⟨hG, by rw [hpin, hN]; exact ravel_lt hv, by rw [hN, hfuel]; exact hen⟩
      tol := by rw [hfol.tol]; exact C.tol
      casts := by
        intro m hm h2d
        rw [hN] at hm
        obtain ⟨u1, u2⟩ := valid_unravel hm
        have hcm := hcast _ u1
        rw [u2] at hcm
        rw [hkind, hfol.eos, hfuel, hfol.tol]
        rcases hcasts _ u1 with h | h | h
        · exfalso
          rw [← hcm] at h
          have := (ofCasts_data 0 (Rfl.fin 0) c.eos .linear c.casts (fun _ => Rfl.qnan) m).2 h2d
          simp only [Ocean.ofCasts, decide_eq_true_iff] at this
          have := h.1
          omega
        · left; rw [hcm]; exact h
        · right; rw [hcm]; exact h
      mean := by
        intro m hm ns hns h0
        rw [hnb] at hns
        rw [meanR_const]
        exact hmean m (by rw [← hN]; exact hm) _ (List.length_pos_iff.2 h0) hns.length_le
      solver := by
        intro s t q m hm hp hl
        rw [hsol]
        exact s2 s t q m _ hm hp hl }
  obtain ⟨e, A, B, hhere⟩ := C.here
  have hp2 : interpTwo c (Rfl.fin p) c.pin = some (Rfl.fin σ, Rfl.fin τ) := flatCast_two hhere hkind (by rw [hpin]; exact hcast _ hv)
  have hP : FlatInit c σ τ p Q := by
    rcases hQs with ⟨-, rfl⟩ | ⟨q, rfl, rfl⟩
    · rfl
    · obtain ⟨i1, i2, i3⟩ := hI' q rfl
      refine ⟨by rw [hpin, flatten, i1, unravel_ravel hv, i2], fun n hn => ?_⟩
      rw [hN] at hn
      obtain ⟨u1, u2⟩ := valid_unravel hn
      rw [flatten, i1]
      rcases i3 _ u1 with h | ⟨h, e, A, B, hf⟩
      · right
        rw [h]
        refine ⟨Rfl.qnan, ?_⟩
        unfold interpTwo
        cases c.kind with
        | linear => exact if_pos (by unfold outside; simp)
        | pchip => exact if_pos (by unfold outside; simp)
      · left
        have hcm := hcast _ u1
        rw [u2] at hcm
        exact ⟨h, flatCast_two hf hkind hcm⟩
  have hpml : ∀ m, Valid hs m → (∀ x, o.pml = some x → lt (Rfl.fin p) (x.get m) = false) → lt (Rfl.fin p) (c.pml (ravel hs m)) = false := by
    intro m hm h
    cases hp : o.pml with
    | none =>
      rw [hfol.noml hp]
      have : (lit 1 / lit 0 : Rfl rnd) = Fl.pinf := by
        rw [Rfl.lit_eq, Rfl.lit_eq]
        show Rfl.round rnd (Fl.div (Fl.fin _) (Fl.fin _)) = _
        simp [Fl.div, Rfl.round, R.zero, R.one]
      rw [this]
      rfl
    | some x => rw [hfol.pml x hp (hml x hp).1 m hm]; exact h x hp
  have hml' : lt (Rfl.fin p) (c.pml c.pin) = false := by
    rw [hpin]; exact hpml _ hv fun x hx => (hml x hx).2
  obtain ⟨st, stp0, r1, r2, r3, r4, r5, r6⟩ := omega_flat_partial W hP hp2 hml' (by rw [hfol.diags, hfol.iterMax]; exact C.diags)
  refine ⟨reshapeGet hs st.stp, st, by rw [hrun, r1]; rfl, ?_, ?_, ?_, ?_⟩
  · rw [reshape_ravel _ hv, ← hpin, r5]
  · intro m hm
    rw [reshape_ravel _ hm]
    exact r4 _ (by rw [hN]; exact ravel_lt hm)
  · rintro q rfl m hm
    obtain ⟨i1, -, i3⟩ := hI' q rfl
    have hQ' : Q = .array (flatten q) := by
      rcases hQs with ⟨h, -⟩ | ⟨q', h, h'⟩
      · cases h
      · cases h; exact h'
    have hgood : ∀ m, Valid hs m → q.get m = Rfl.fin p → (∀ x, o.pml = some x → lt (Rfl.fin p) (x.get m) = false) →
        (isFinite (stp0 (ravel hs m)).2.2 && !lt (Rfl.fin p) (c.pml (ravel hs m))) = true := by
      intro m hm h1 h2
      rw [hpml m hm h2, Bool.and_eq_true]
      refine ⟨?_, rfl⟩
      rcases i3 m hm with h | ⟨-, e, A, B, hf⟩
      · rw [h] at h1; exact absurd h1.symm (Rfl.fin_ne_qnan _)
      · have h3 := flatCast_two hf hkind (hcast m hm)
        have hlt : ravel hs m < c.N := by rw [hN]; exact ravel_lt hm
        have hq' : flatten q (ravel hs m) = Rfl.fin p := by rw [flatten, i1, unravel_ravel hm, h1]
        have r2' := r2
        rw [hQ'] at r2'
        unfold init at r2'
        cases hr : initRaw c (.array (flatten q)) with
        | ok x =>
          rw [hr] at r2'
          have hx : x = fun m => if m < c.N then ((((interpTwo c (flatten q m) m).getD (nan, nan)).1), ((interpTwo c (flatten q m) m).getD (nan, nan)).2, flatten q m)
              else (nan, nan, nan) := by
            unfold initRaw at hr
            dsimp only at hr
            split_ifs at hr
            cases hr; rfl
          change (if isNaN (x c.pin).1 = true then _ else _) = _ at r2'
          split_ifs at r2'
          cases r2'
          rw [hx]
          simp only [if_pos hlt, hq', h3]
          rfl
        | indexError => rw [hr] at r2'; cases r2'
        | runtimeError => rw [hr] at r2'; cases r2'
        | unbound => rw [hr] at r2'; cases r2'
        | noReturn => rw [hr] at r2'; cases r2'
    have key : ∀ m, Linked hs g.edges (fun m => q.get m = Rfl.fin p ∧ ∀ x, o.pml = some x → lt (Rfl.fin p) (x.get m) = false) m0 m →
        Valid hs m ∧ Reach c.G (fun n => isFinite (stp0 n).2.2 && !lt (Rfl.fin p) (c.pml n)) c.pin (ravel hs m) := by
      intro m hm
      induction hm with
      | root h => exact ⟨hv, 0, by rw [hpin]; exact .root (hgood _ hv h.1 h.2)⟩
      | step _ hn he h ih =>
        obtain ⟨-, k, w⟩ := ih
        refine ⟨hn, k + 1, w.step ?_ (hgood _ hn h.1 h.2)⟩
        have := (Graph.edgesToCsr_mem g.edges c.N (fun _ => 0) (by rw [hN, hhs]; exact C.within))
        obtain ⟨G', e1, -, -, e2⟩ := Graph.edgesToCsr_spec g.edges c.N (fun _ => 0) (by rw [hN, hhs]; exact C.within)
        rw [hnb, ← e2]
        exact ((this G' e1).1 _ _).2 he
    obtain ⟨h1, h2⟩ := key m hm
    rw [reshape_ravel _ h1]
    exact r6 _ h2
  · intro ht
    have := omega_flat_stops W hP hp2 hml' (by rw [hfol.tolPhi]; exact ht) r1
    rw [this, hfol.iterMax, hfol.iterMin]

/-! ## An example: three equal casts in a row and land -/

theorem flat_call {rnd : ℝ → ℝ} (R : BinRound rnd) {spsolve} (hz : OmegaMat.ZeroSolve (rnd := rnd) spsolve) : ∃ σ τ,
    FlatCall (floatO rnd spsolve) none (fun _ => none) (floatS rnd) (floatT rnd) (.small 5 (exCastR rnd).P.get) 0 (fun _ k => (exCastR rnd).P.get k)
      ⟨[(0, 1), (1, 2), (2, 3)], some [Rfl.fin 1, Rfl.fin 1, Rfl.fin 1], some [Rfl.fin 1, Rfl.fin 2, Rfl.fin 1]⟩ (.tuple [0, 1]) [0, 1] σ τ 1 := by
  obtain ⟨σ, τ, H⟩ := exFlat R
  have C := float_call R spsolve
  have hj : ∀ m, Valid [1, 4] m → ∃ j, castAt (floatS rnd) (floatT rnd) (fun _ k => (exCastR rnd).P.get k) 0 m =
      ⟨⟨5, fun k => if j = 3 then Rfl.qnan else (exCastR rnd).S.get k⟩,
        ⟨5, fun k => if j = 3 then Rfl.qnan else (exCastR rnd).T.get k⟩, (exCastR rnd).P⟩ := by
    intro m hm
    unfold Valid at hm
    rcases m with _ | ⟨i, _ | ⟨j, _ | ⟨_, _⟩⟩⟩
    · simp at hm
    · simp at hm
    · exact ⟨j, rfl⟩
    · simp at hm
  refine ⟨σ, τ, R, C.args, C.horiz, C.pin, C.valid, by simp [floatS], ⟨_, _, rfl, rfl, ?_⟩, Or.inl ⟨by show "Poisson".toLower = _; decide +kernel, hz⟩,
    ⟨1, -1, rfl⟩, ⟨_, rfl⟩, C.enough, ?_, ⟨_, _, _, H⟩, ?_, C.diags⟩
  · intro x hx
    have : isFinite x = true := by
      simp only [List.zipWith, List.mem_cons, List.not_mem_nil, or_false] at hx
      rcases hx with rfl | rfl | rfl <;> rw [Rfl.fin_div _ _ one_ne_zero] <;> rfl
    exact ⟨this, this⟩
  · intro m hm
    obtain ⟨j, h⟩ := hj m hm
    rw [h]
    by_cases h : j = 3
    · left; simp only [h, if_true]; exact ⟨Nat.le_of_ble_eq_true rfl, Nat.le_of_ble_eq_true rfl⟩
    · right; left; simp only [h, if_false]; exact ⟨_, _, _, H⟩
  · intro m hm j h1 h2
    have hm : m < 4 := by simpa [floatS] using hm
    have h3 : (Graph.otherEnds m [(0, 1), (1, 2), (2, 3)]).length ≤ 2 := by interval_cases m <;> decide
    refine mean_same_few R R.one (by intro h; rw [List.range_eq_nil] at h; omega) ?_
    rw [List.length_range]; exact h2.trans h3

/-- The whole row comes back at the pressure 1, whatever `spsolve` returns for other right-hand sides. -/
example {rnd : ℝ → ℝ} (R : BinRound rnd) {spsolve} (hz : OmegaMat.ZeroSolve (rnd := rnd) spsolve) : ∃ σ τ out st,
    omegaSurf (floatO rnd spsolve) none (fun _ => none) (floatS rnd) (floatT rnd)
      (.small 5 (exCastR rnd).P.get) ⟨[(0, 1), (1, 2), (2, 3)], some [Rfl.fin 1, Rfl.fin 1, Rfl.fin 1], some [Rfl.fin 1, Rfl.fin 2, Rfl.fin 1]⟩
      (.tuple [0, 1]) (.array ⟨[1, 4], fun m => if m = [0, 3] then Rfl.qnan else Rfl.fin 1⟩) = .ok ([1, 4], out, st) ∧
    ∀ j < 3, out [0, j] = (Rfl.fin σ, Rfl.fin τ, Rfl.fin 1) := by
  obtain ⟨σ, τ, C⟩ := flat_call R hz
  obtain ⟨out, st, h1, h2, -, h4, -⟩ := omegaSurf_flat_partial C (init := .array ⟨[1, 4], fun m => if m = [0, 3] then Rfl.qnan else Rfl.fin 1⟩) ⟨rfl, rfl, by
      intro m hm
      have hm : Valid [1, 4] m := hm
      unfold Valid at hm
      rcases m with _ | ⟨i, _ | ⟨j, _ | ⟨_, _⟩⟩⟩
      · simp at hm
      · simp at hm
      · by_cases h : [i, j] = [0, 3]
        · left; simp [h]
        · right
          refine ⟨by simp only [h, if_false], ?_⟩
          have hj : j ≠ 3 := by
            rintro rfl
            apply h
            simp at hm
            rw [hm]
          obtain ⟨e, A, B, H⟩ := C.here
          refine ⟨e, A, B, ?_⟩
          have : castAt (floatS rnd) (floatT rnd) (fun _ k => (exCastR rnd).P.get k) 0 [i, j] =
              castAt (floatS rnd) (floatT rnd) (fun _ k => (exCastR rnd).P.get k) 0 [0, 1] := by
            show Cast.mk ⟨5, fun k => if j = 3 then Rfl.qnan else (exCastR rnd).S.get k⟩ ⟨5, fun k => if j = 3 then Rfl.qnan else (exCastR rnd).T.get k⟩ _ = _
            simp only [if_neg hj]
            rfl
          rw [this]; exact H
      · simp at hm⟩ (by intro x hx; cases hx)
  refine ⟨σ, τ, out, st, h1, fun j hj => ?_⟩
  have hl := h4 _ rfl
  have l1 : Linked [1, 4] [(0, 1), (1, 2), (2, 3)] (fun m => (if m = [0, 3] then Rfl.qnan else Rfl.fin 1 : Rfl rnd) = Rfl.fin 1 ∧
      ∀ x, (floatO rnd spsolve).pml = some x → lt (Rfl.fin 1) (x.get m) = false) [0, 1] [0, 1] := .root ⟨rfl, by intro x hx; cases hx⟩
  interval_cases j
  · exact hl _ (l1.step (by unfold Valid; simp) (by decide) ⟨rfl, by intro x hx; cases hx⟩)
  · exact h2
  · exact hl _ (l1.step (by unfold Valid; simp) (by decide) ⟨rfl, by intro x hx; cases hx⟩)

end Omega
