import Verif.Model.Omega
import Verif.Props.BfsPerim
import Verif.Props.OmegaMat
import Verif.Props.VertSolve

/-! # The iteration of omega surfaces (C41, C42, C43, C44, C78, C79) -/

namespace Omega
open FloatLike Fzero Traj VertSolve Bfs
open Fl hiding nan

set_option linter.unusedSectionVars false

variable {F : Type*} [FloatLike F]

theorem bind_ok {A B : Type*} {x : Res A} {k : A → Res B} {b : B} (h : x.bind k = .ok b) : ∃ a, x = .ok a ∧ k a = .ok b := by
  cases x <;> first | exact ⟨_, rfl, h⟩ | cases h

theorem ofOption_ok {A : Type*} {x : Option A} {a : A} (h : ofOption x = .ok a) : x = some a := by
  cases x with
  | none => cases h
  | some b => cases h; rfl

theorem ofOutcome_ok {A : Type*} {x : Outcome A} {a : A} (h : ofOutcome x = .ok a) : x = .ret a := by
  cases x <;> first | (cases h; rfl) | cases h

theorem ofMat_ok {A : Type*} {x : OmegaMat.Res A} {a : A} (h : ofMat x = .ok a) : x = .ok a := by
  cases x <;> cases h; rfl

/-- What is assumed of the arguments: the graph stays inside the `N` casts, the pinning cast is one of them, the fuel of the model
suffices for the searches. -/
structure Ok (c : Cfg F) : Prop where
  graph : InRange c.G c.N
  pin : c.pin < c.N
  fuel : c.N < c.fuel

/-- the wetting search does nothing from a dry root -/
theorem perim_dry {G : Csr} {O : Ocean F} {N root nrep : ℕ} {stp stp' : ℕ → F × F × F} {newly : ℕ} {W : List ℕ}
    (S : PerimSpec G O N root nrep stp stp' newly W) (h : wet stp root = false) : W = [] := by
  have hno : ∀ v, ¬ Reach G (wet stp) root v := by
    rintro v ⟨k, w⟩
    have : wet stp root = true := by
      clear S
      induction w with
      | root h => exact h
      | step _ _ _ ih => exact ih
    rw [h] at this; cases this
  cases W with
  | nil => rfl
  | cons v W =>
    obtain ⟨_, ns, _, hne, hns, _⟩ := S.links 0 v rfl
    obtain ⟨n, ns', rfl⟩ := List.exists_cons_of_ne_nil hne
    rcases (hns n List.mem_cons_self).1 with h | h
    · exact absurd h (hno n)
    · simp at h

theorem Reach_root {G : Csr} {good : ℕ → Bool} {root n : ℕ} (h : Reach G good root n) : good root = true := by
  obtain ⟨k, w⟩ := h
  induction w with
  | root h => exact h
  | step _ _ _ ih => exact ih

/-- Specification of the region: the sorted wet casts connected with the pinning cast. -/
theorem region_spec (hnan : isFinite (nan : F) = false) {c : Cfg F} (C : Ok c) {iter : ℕ} {stp stp1 : Surf F} {qu : List ℕ} {newly : ℕ}
    (h : region c iter stp = .ok (stp1, qu, newly)) :
    qu.Nodup ∧ qu.Pairwise (· ≤ ·) ∧ (∀ n ∈ qu, n < c.N ∧ wet stp1 n = true) ∧
    (wet stp c.pin = true → c.pin ∈ qu) ∧ (wet stp c.pin = false → qu = []) ∧
    (∀ n, Reach c.G (wet stp) c.pin n → stp1 n = stp n ∧ n ∈ qu) := by
  unfold region at h
  split_ifs at h with hw
  · obtain ⟨⟨s1, nw⟩, h1, h2⟩ := bind_ok h
    cases h2
    unfold wetting at h1
    obtain ⟨r, h3, h4⟩ := bind_ok h1
    cases h4
    have h3 := ofOption_ok h3
    obtain ⟨r', W, h5, S⟩ := wetPerim_spec hnan c.G c.ocean c.N c.pin stp C.graph C.pin c.garbage c.nrep c.fuel C.fuel
    rw [h3] at h5
    cases h5
    have hk : ∀ n, Reach c.G (wet stp) c.pin n → n < c.N := by
      rintro n ⟨k, w⟩
      clear S h3
      induction w with
      | root _ => exact C.pin
      | step _ hn _ ih => exact C.graph _ ih _ hn
    have hin : ∀ n, Reach c.G (wet stp) c.pin n → r.stp n = stp n ∧ n ∈ (List.range c.N).filter fun n => isFinite (r.stp n).2.2 := by
      intro n hn
      have e := S.kept n hn
      refine ⟨e, List.mem_filter.2 ⟨List.mem_range.2 (hk n hn), ?_⟩⟩
      obtain ⟨k, w⟩ := hn
      rw [e]; exact w.good
    refine ⟨List.Nodup.filter _ List.nodup_range, ?_, ?_, ?_, ?_, hin⟩
    · exact (List.pairwise_lt_range.imp (fun h => Nat.le_of_lt h)).filter _
    · intro n hn
      have := List.mem_filter.1 hn
      exact ⟨List.mem_range.1 this.1, this.2⟩
    · intro hp
      exact (hin c.pin ⟨0, .root hp⟩).2
    · intro hp
      rw [List.filter_eq_nil_iff]
      intro n _
      have hno : ¬ Reach c.G (wet stp) c.pin n := by
        intro w
        have : wet stp c.pin = true := Reach_root w
        rw [hp] at this; cases this
      dsimp only
      rw [S.cut n hno (by rw [perim_dry S hp]; simp)]
      rw [hnan]; simp
  · obtain ⟨q, h1, h2⟩ := bind_ok h
    cases h2
    have h1 := ofOption_ok h1
    obtain ⟨q', h3, h4, h5, h6, h7, h8, _⟩ := bfs_component c.G c.N c.pin (wet stp) C.graph C.pin c.fuel C.fuel
    have : q = q' := by
      have : some q = some q' := by rw [← h1, ← h3]
      cases this; rfl
    subst this
    have hk : ∀ n, Reach c.G (wet stp) c.pin n → n < c.N := by
      rintro n ⟨k, w⟩
      clear h6 h3 h1 h7 h8
      induction w with
      | root _ => exact C.pin
      | step _ hn _ ih => exact C.graph _ ih _ hn
    refine ⟨(List.perm_insertionSort _ _).nodup_iff.2 h4, ?_, ?_, ?_, ?_, ?_⟩
    · exact List.pairwise_insertionSort _ _
    · intro n hn
      have hn := (h6 n).1 ((List.mem_insertionSort _).1 hn)
      exact ⟨hk n hn, by obtain ⟨k, w⟩ := hn; exact w.good⟩
    · intro hp
      exact (List.mem_insertionSort _).2 ((h6 _).2 ⟨0, .root hp⟩)
    · intro hp
      rw [h8 hp]; simp
    · intro n hn
      exact ⟨rfl, (List.mem_insertionSort _).2 ((h6 n).2 hn)⟩

/-- A global solver that fails on the empty region and whose correction vanishes at a reference cast of the region. -/
structure PinSolver (solver : (ℕ → F) → (ℕ → F) → (ℕ → F) → List ℕ → ℕ → OmegaMat.Res (ℕ → F)) : Prop where
  empty : ∀ s t p r, solver s t p [] r = .indexError
  zero : ∀ s t p m r φ, solver s t p m r = .ok φ → r ∈ m → m.Nodup → feq (φ r) (lit 0) = true
  out : ∀ s t p m r φ, solver s t p m r = .ok φ → r ∈ m → m.Nodup → ∀ n, n ∉ m → φ n = nan

/-- The Poisson solver is one, whatever `spsolve` returns and whatever the arithmetic. -/
theorem poisson_pinSolver (h0 : feq (lit 0 : F) (lit 0) = true) (spsolve : ℕ → (ℕ → ℕ → F) → (ℕ → F) → ℕ → F)
    (eosST : Ntp.EosST F) (edges : List (ℕ × ℕ)) (ratio : OmegaMat.Ratio F) :
    PinSolver fun s t p m r => OmegaMat.poisson spsolve eosST s t p edges ratio m r := by
  constructor
  · intro s t p r; rfl
  · intro s t p m r φ h hr _
    unfold OmegaMat.poisson at h
    split_ifs at h with hl
    · match m, hl, hr, h with
      | [x], _, hr, h =>
        cases h
        rw [List.mem_singleton.1 hr, Function.update_self, h0]
    · split at h
      · cases h; rw [Function.update_self, h0]
      · cases h
  · intro s t p m r φ h hr hm n hn
    have hnr : n ≠ r := fun e => hn (e ▸ hr)
    unfold OmegaMat.poisson at h
    split_ifs at h with hl
    · match m, hl, hr, h with
      | [x], _, hr, h =>
        cases h
        rw [Function.update_of_ne (by simpa using hn)]
    · split at h
      · cases h; rw [Function.update_of_ne hnr, OmegaMat.scatter_eq hm, if_neg hn]
      · cases h

/-- The gradient solver is one, provided that `x - x = 0` for what `lsqr` returns at the reference cast (so not when it is NaN
or infinite). -/
theorem gradient_pinSolver (h0 : feq (lit 0 : F) (lit 0) = true) (lsqr : ℕ → ℕ → (ℕ → ℕ → F) → (ℕ → F) → ℕ → F)
    (eosST : Ntp.EosST F) (edges : List (ℕ × ℕ)) (ratio : OmegaMat.Ratio F)
    (hx : ∀ R C M b i, feq (lsqr R C M b i - lsqr R C M b i) (lit 0) = true) :
    PinSolver fun s t p m r => OmegaMat.gradient lsqr eosST s t p edges ratio m r := by
  constructor
  · intro s t p r; rfl
  · intro s t p m r φ h hr hm
    unfold OmegaMat.gradient at h
    split_ifs at h with hl
    · match m, hl, hr, h with
      | [x], _, hr, h =>
        cases h
        rw [List.mem_singleton.1 hr, Function.update_self, h0]
    · cases h
      rw [OmegaMat.scatter_eq hm, if_pos hr, OmegaMat.refOf_eq hm hr, hx]
  · intro s t p m r φ h hr hm n hn
    unfold OmegaMat.gradient at h
    split_ifs at h with hl
    · match m, hl, hr, h with
      | [x], _, hr, h =>
        cases h
        rw [Function.update_of_ne (by simpa using hn)]
    · cases h
      rw [OmegaMat.scatter_eq hm, if_neg hn]

/-! ## C41 -/

/-- One pass of the loop keeps a pinned surface pinned; it returns only if the pinning point is finite and, from the second pass
on, not above the mixed layer. -/
theorem step_pinned (hnan : isFinite (nan : F) = false) {c : Cfg F} (C : Ok c) (hs : PinSolver c.solver) {pinP s0 t0 : F} {iter : ℕ}
    {stp : Surf F} {r : Iter F} (hp : stp c.pin = (s0, t0, pinP)) (h : step c pinP iter stp = .ok r) :
    r.new c.pin = (s0, t0, pinP) ∧ r.old c.pin = (s0, t0, pinP) ∧ isFinite pinP = true ∧
      (1 < iter → lt pinP (c.pml c.pin) = false) := by
  unfold step at h
  obtain ⟨⟨stp1, qu, nw⟩, h1, h2⟩ := bind_ok h
  obtain ⟨phi, h3, h4⟩ := bind_ok h2
  obtain ⟨stp2, h5, h6⟩ := bind_ok h4
  cases h6
  have h3 := ofMat_ok h3
  have h5 := ofOutcome_ok h5
  obtain ⟨i1, _, _, i4, i5, i6⟩ := region_spec hnan C h1
  dsimp only at h3 h5 ⊢
  have hwet : wet (removeML c iter stp) c.pin = true := by
    rcases Bool.eq_false_or_eq_true (wet (removeML c iter stp) c.pin) with h | h
    · exact h
    · rw [i5 h, hs.empty] at h3; cases h3
  have hml : 1 < iter → lt pinP (c.pml c.pin) = false := by
    intro hi
    rcases Bool.eq_false_or_eq_true (lt pinP (c.pml c.pin)) with h | h
    · unfold removeML at hwet
      rw [if_pos hi] at hwet
      unfold wet at hwet
      dsimp only at hwet
      rw [hp] at hwet
      dsimp only at hwet
      rw [if_pos h] at hwet
      dsimp only at hwet
      rw [hnan] at hwet; cases hwet
    · exact h
  have hrem : removeML c iter stp c.pin = (s0, t0, pinP) := by
    unfold removeML
    split_ifs with hi
    · dsimp only
      rw [hp]
      dsimp only
      rw [hml hi]; rfl
    · exact hp
  have hold : stp1 c.pin = (s0, t0, pinP) := by rw [(i6 c.pin ⟨0, .root hwet⟩).1, hrem]
  have hz := hs.zero _ _ _ _ _ _ h3 (i4 hwet) i1
  have hv := ((vertsolveOmega_pointwise _ _ _ _ _ _ _ _ _).1 h5).1 c.pin C.pin
  rw [omega_zero _ _ _ _ _ _ _ hz] at hv
  have hv : stp1 c.pin = stp2 c.pin := by injection hv
  refine ⟨?_, hold, ?_, hml⟩
  · rw [Function.update_self, ← hv, hold]
  · unfold wet at hwet
    rw [hrem] at hwet; exact hwet

theorem loop_pinned (hnan : isFinite (nan : F) = false) {c : Cfg F} (C : Ok c) (hs : PinSolver c.solver) {pinP s0 t0 : F} :
    ∀ (left iter : ℕ) (s s' : State F), s.stp c.pin = (s0, t0, pinP) → loop c pinP left iter s = .ok s' →
      s'.stp c.pin = (s0, t0, pinP) := by
  intro left
  induction left with
  | zero => intro iter s s' h1 h2; cases h2; exact h1
  | succ left ih =>
    intro iter s s' h1 h2
    unfold loop at h2
    obtain ⟨r, h3, h4⟩ := bind_ok h2
    have h5 := step_pinned hnan C hs h1 h3
    split_ifs at h4
    · cases h4; exact h5.1
    · exact ih _ _ _ h5.1 h4

/-- The initial surface passes through the pinning point. -/
theorem init_pinned (hnan : isFinite (nan : F) = false) {c : Cfg F} (C : Ok c) {p0 : PInit F} (hf : isFinite (pinPOf c p0) = true)
    {stp : Surf F} (h : init c p0 = .ok stp) :
    ∃ s0 t0, interpTwo c (pinPOf c p0) c.pin = some (s0, t0) ∧ isNaN s0 = false ∧ stp c.pin = (s0, t0, pinPOf c p0) := by
  unfold init at h
  obtain ⟨stp1, h1, h2⟩ := bind_ok h
  split_ifs at h2 with hn
  cases h2
  have hn : isNaN (stp1 c.pin).1 = false := by simpa using hn
  suffices ∃ s0 t0, interpTwo c (pinPOf c p0) c.pin = some (s0, t0) ∧ stp1 c.pin = (s0, t0, pinPOf c p0) by
    obtain ⟨s0, t0, e1, e2⟩ := this
    refine ⟨s0, t0, e1, ?_, ?_⟩
    · rw [e2] at hn; exact hn
    · dsimp only
      rw [hn]
      exact e2
  cases p0 with
  | scalar p =>
    unfold initRaw at h1
    obtain ⟨st, e1, e2⟩ := bind_ok h1
    obtain ⟨⟨s1, nw⟩, e3, e4⟩ := bind_ok e2
    cases e4
    unfold wetting at e3
    obtain ⟨r, e5, e6⟩ := bind_ok e3
    cases e6
    have e5 := ofOption_ok e5
    obtain ⟨r', W, e7, S⟩ := wetPerim_spec hnan c.G c.ocean c.N c.pin _ C.graph C.pin c.garbage c.nrep c.fuel C.fuel
    rw [e5] at e7
    cases e7
    refine ⟨st.1, st.2, ofOption_ok e1, ?_⟩
    dsimp only
    have hr : Reach c.G (wet (Function.update (fun _ => (nan, nan, nan)) c.pin (st.1, st.2, p))) c.pin c.pin :=
      ⟨0, .root (by unfold wet; rw [Function.update_self]; exact hf)⟩
    rw [S.kept c.pin hr, Function.update_self]
    rfl
  | array p =>
    unfold initRaw at h1
    dsimp only at h1
    split_ifs at h1 with ha
    cases h1
    obtain ⟨st, hst⟩ := Option.isSome_iff_exists.1 (ha c.pin C.pin)
    refine ⟨st.1, st.2, hst, ?_⟩
    dsimp only
    rw [if_pos C.pin, hst]
    rfl

/-- **C41.** Whenever `omega_surf` returns, after any number of passes with any wetting, the surface at the pinning cast is exactly
at the pinning pressure, with the salinity and temperature interpolated there; for every global solver that gives no correction
at the reference cast (see `poisson_pinSolver`, `gradient_pinSolver`), any arithmetic. -/
theorem omega_pinned (hnan : isFinite (nan : F) = false) {c : Cfg F} (C : Ok c) (hs : PinSolver c.solver) {p0 : PInit F}
    (hf : isFinite (pinPOf c p0) = true) {s : State F} (h : omega c p0 = .ok s) :
    ∃ s0 t0, interpTwo c (pinPOf c p0) c.pin = some (s0, t0) ∧ isNaN s0 = false ∧ s.stp c.pin = (s0, t0, pinPOf c p0) := by
  unfold omega at h
  obtain ⟨stp, h1, h2⟩ := bind_ok h
  obtain ⟨s', h3, h4⟩ := bind_ok h2
  split_ifs at h4
  cases h4
  obtain ⟨s0, t0, e1, e2, e3⟩ := init_pinned hnan C hf h1
  exact ⟨s0, t0, e1, e2, loop_pinned hnan C hs _ _ ⟨stp, _, _, _⟩ _ e3 h3⟩

/-! ## C42 -/

/-- `Δp_RMS` of a pass, as used in the test: zero when it is not computed. -/
def rmsAt (c : Cfg F) (r : Iter F) : F :=
  if c.diags = true ∨ lt (lit 0) c.tolP = true then c.sqrt (nanmean c.N fun n => dp r n * dp r n) else lit 0

/-- The tolerance test on a pass. -/
def small (c : Cfg F) (r : Iter F) : Bool := lt (phiMAV c r) c.tolPhi || lt (rmsAt c r) c.tolP

/-- The surface before pass `k + 1`. -/
def surfAt (stp0 : Surf F) (it : ℕ → Iter F) : ℕ → Surf F
  | 0 => stp0
  | k + 1 => (it k).new

/-- `it k` is what pass `k + 1` did, for the `n` passes made. -/
def Run (c : Cfg F) (pinP : F) (stp0 : Surf F) (it : ℕ → Iter F) (n : ℕ) : Prop :=
  ∀ k < n, step c pinP (k + 1) (surfAt stp0 it k) = .ok (it k)

theorem dpRMS_eq {c : Cfg F} {prev : F} {r : Iter F} (h : (c.diags = true ∨ lt (lit 0) c.tolP = true) ∨ prev = lit 0) :
    dpRMS c prev r = rmsAt c r := by
  unfold dpRMS rmsAt
  by_cases hd : c.diags = true ∨ lt (lit 0) c.tolP = true
  · rw [if_pos (by simpa using hd), if_pos hd]
  · rw [if_neg (by simpa using hd), if_neg hd]
    exact h.resolve_left hd

theorem rms_inv {c : Cfg F} {prev : F} {r : Iter F} (h : (c.diags = true ∨ lt (lit 0) c.tolP = true) ∨ prev = lit 0) :
    (c.diags = true ∨ lt (lit 0) c.tolP = true) ∨ dpRMS c prev r = lit 0 := by
  rw [dpRMS_eq h]
  unfold rmsAt
  by_cases hd : c.diags = true ∨ lt (lit 0) c.tolP = true
  · exact Or.inl hd
  · rw [if_neg hd]; exact Or.inr rfl

theorem loop_run {c : Cfg F} {pinP : F} : ∀ (left iter : ℕ) (s s' : State F),
    ((c.diags = true ∨ lt (lit 0) c.tolP = true) ∨ s.rms = lit 0) → s.last = iter → loop c pinP left (iter + 1) s = .ok s' →
    iter ≤ s'.last ∧ s'.last ≤ iter + left ∧
    ∃ it : ℕ → Iter F, (∀ k, iter + k < s'.last → step c pinP (iter + k + 1) (surfAt s.stp it k) = .ok (it k)) ∧
      s'.stp = surfAt s.stp it (s'.last - iter) ∧
      s'.rows = s.rows ++ (if c.diags then (List.range (s'.last - iter)).map (fun k => diagOf c (rmsAt c (it k)) (it k)) else []) ∧
      (∀ k, iter + k + 1 < s'.last → c.iterMin ≤ iter + k + 1 → small c (it k) = false) ∧
      (s'.last < iter + left → ∃ k, iter + k + 1 = s'.last ∧ c.iterMin ≤ s'.last ∧ small c (it k) = true) := by
  intro left
  induction left with
  | zero =>
    intro iter s s' _ hl h
    cases h
    have hd : ∀ r : Iter F, True := fun _ => trivial
    refine ⟨by omega, by omega, fun _ => ⟨s.stp, s.stp, [], fun _ => nan, 0⟩, fun k hk => by omega, ?_, ?_, fun k hk => by omega, fun hk => by omega⟩
    · rw [hl, Nat.sub_self]; rfl
    · rw [hl, Nat.sub_self]; cases c.diags <;> simp
  | succ left ih =>
    intro iter s s' hr hl h
    unfold loop at h
    obtain ⟨r, h1, h2⟩ := bind_ok h
    have hsm : (lt (phiMAV c r) c.tolPhi || lt (dpRMS c s.rms r) c.tolP) = small c r := by
      unfold small; rw [dpRMS_eq hr]
    split_ifs at h2 with hc
    · cases h2
      unfold converged at hc
      rw [hsm, Bool.and_eq_true, decide_eq_true_eq] at hc
      have e : (after c (iter + 1) s r).last = iter + 1 := rfl
      have e1 : iter + 1 - iter = 0 + 1 := by omega
      refine ⟨by rw [e]; omega, by rw [e]; omega, fun _ => r, ?_, ?_, ?_, ?_, ?_⟩
      · intro k hk
        rw [e] at hk
        obtain rfl : k = 0 := by omega
        exact h1
      · rw [e, e1]; rfl
      · rw [e, e1]
        unfold after
        dsimp only
        rw [dpRMS_eq hr]
        cases c.diags <;> simp
      · intro k hk; rw [e] at hk; omega
      · intro _
        exact ⟨0, by rw [e], by rw [e]; exact hc.2, hc.1⟩
    · have e : (after c (iter + 1) s r).last = iter + 1 := rfl
      have hr' : (c.diags = true ∨ lt (lit 0) c.tolP = true) ∨ (after c (iter + 1) s r).rms = lit 0 := rms_inv hr
      obtain ⟨i1, i2, it, i3, i4, i5, i6, i7⟩ := ih (iter + 1) (after c (iter + 1) s r) s' hr' e h2
      obtain ⟨d, hd⟩ : ∃ d, s'.last - iter = d + 1 := ⟨s'.last - (iter + 1), by omega⟩
      have hd' : s'.last - (iter + 1) = d := by omega
      refine ⟨by omega, by omega, fun k => match k with | 0 => r | k + 1 => it k, ?_, ?_, ?_, ?_, ?_⟩
      · intro k hk
        cases k with
        | zero => exact h1
        | succ k =>
          have := i3 k (by omega)
          rw [show iter + (k + 1) + 1 = iter + 1 + k + 1 by omega]
          cases k with
          | zero => exact this
          | succ k => exact this
      · rw [hd, i4, hd']
        cases d with
        | zero => rfl
        | succ d => rfl
      · rw [i5, hd', hd]
        unfold after
        dsimp only
        rw [dpRMS_eq hr]
        cases c.diags
        · simp
        · simp only [if_true, List.append_assoc, List.range_succ_eq_map, List.map_cons, List.map_map]
          rfl
      · intro k hk hm
        cases k with
        | zero =>
          unfold converged at hc
          rw [hsm, Bool.and_eq_true, decide_eq_true_eq] at hc
          dsimp only
          rcases Bool.eq_false_or_eq_true (small c r) with h | h
          · exact absurd ⟨h, by omega⟩ hc
          · exact h
        | succ k =>
          exact i6 k (by omega) (by omega)
      · intro hk
        obtain ⟨k, k1, k2, k3⟩ := i7 (by omega)
        exact ⟨k + 1, by omega, k2, k3⟩

/-- **C42.** The passes made by `omega_surf`: at least `min(ITER_MIN, ITER_MAX)`, at most `ITER_MAX`; each starts from the
surface left by the one before; the surface returned is that of the last; the loop ends before `ITER_MAX` only when the test
holds on the last pass, and it failed on every earlier pass from `ITER_MIN` on.  Any arithmetic, solver and options. -/
theorem omega_iterations {c : Cfg F} {p0 : PInit F} {s : State F} (h : omega c p0 = .ok s) :
    s.last ≤ c.iterMax ∧ min c.iterMin c.iterMax ≤ s.last ∧
    ∃ stp0 it, init c p0 = .ok stp0 ∧ Run c (pinPOf c p0) stp0 it s.last ∧ s.stp = surfAt stp0 it s.last ∧
      (s.last < c.iterMax → ∃ k, k + 1 = s.last ∧ c.iterMin ≤ s.last ∧ small c (it k) = true) ∧
      (∀ k, k + 1 < s.last → c.iterMin ≤ k + 1 → small c (it k) = false) := by
  unfold omega at h
  obtain ⟨stp, h1, h2⟩ := bind_ok h
  obtain ⟨s', h3, h4⟩ := bind_ok h2
  split_ifs at h4
  cases h4
  obtain ⟨_, i2, it, i3, i4, _, i6, i7⟩ := loop_run _ 0 ⟨stp, lit 0, if c.diags then [diag0 c stp] else [], 0⟩ s (Or.inr rfl) rfl h3
  simp only [Nat.zero_add, Nat.sub_zero] at i2 i3 i4 i6 i7
  refine ⟨i2, ?_, stp, it, h1, i3, i4, i7, i6⟩
  by_cases hlt : s.last < c.iterMax
  · obtain ⟨_, _, k2, _⟩ := i7 hlt
    omega
  · omega

/-! ## C43 -/

theorem take_all {A : Type*} (n : ℕ) (x : A) (f : ℕ → A) :
    (x :: (List.range (n + 1)).map f).take (n + 1 + 1) = x :: (List.range (n + 1)).map f :=
  List.take_of_length_le (by simp)

theorem take_less {A : Type*} (n : ℕ) (x : A) (f : ℕ → A) :
    (x :: (List.range (n + 1)).map f).take (n + 1) = x :: (List.range n).map f := by
  rw [List.take_succ_cons, ← List.map_take, List.take_range]
  simp

theorem surf_list {A : Type*} (stp : Surf F) (it : ℕ → Iter F) (g : Surf F → A) (m : ℕ) :
    (List.range (m + 1)).map (fun k => g (surfAt stp it k)) = g stp :: (List.range m).map (fun k => g (it k).new) := by
  rw [List.range_succ_eq_map, List.map_cons, List.map_map]
  rfl

/-- **C43 (partial).** With diagnostics: `e_RMS`, `e_MAV` have an entry for the initial surface and for each pass; the other
diagnostics have one entry less, so that of pass `i` is in place only for `1 ≤ i < last`.  The documentation says that entry
`i` describes pass `i`, for all passes. -/
theorem omega_diags_partial {c : Cfg F} (hd : c.diags = true) {p0 : PInit F} {s : State F} (h : omega c p0 = .ok s) :
    ∃ stp0 it, init c p0 = .ok stp0 ∧ Run c (pinPOf c p0) stp0 it s.last ∧ 1 ≤ s.last ∧
      (trim s).eRMS = (List.range (s.last + 1)).map (fun k => (c.errs (surfAt stp0 it k)).1) ∧
      (trim s).eMAV = (List.range (s.last + 1)).map (fun k => (c.errs (surfAt stp0 it k)).2) ∧
      (trim s).nWet = (List.range s.last).map (fun k => nWet c (surfAt stp0 it k)) ∧
      (trim s).phiMAV = lit 0 :: (List.range (s.last - 1)).map (fun k => phiMAV c (it k)) ∧
      (trim s).dpRMS = lit 0 :: (List.range (s.last - 1)).map (fun k => rmsAt c (it k)) ∧
      (trim s).dpMAV = lit 0 :: (List.range (s.last - 1)).map (fun k => nanmean c.N fun n => FloatLike.abs (dp (it k) n)) ∧
      (trim s).dpLinf = lit 0 :: (List.range (s.last - 1)).map (fun k => nanmax c.N fun n => FloatLike.abs (dp (it k) n)) ∧
      (trim s).newly = 0 :: (List.range (s.last - 1)).map (fun k => (it k).newly) := by
  unfold omega at h
  obtain ⟨stp, h1, h2⟩ := bind_ok h
  obtain ⟨s', h3, h4⟩ := bind_ok h2
  split_ifs at h4 with hl
  cases h4
  rw [hd] at hl
  have hl : s.last ≠ 0 := by simpa using hl
  obtain ⟨_, i2, it, i3, i4, i5, _, _⟩ := loop_run _ 0 ⟨stp, lit 0, if c.diags then [diag0 c stp] else [], 0⟩ s (Or.inr rfl) rfl h3
  simp only [Nat.zero_add, Nat.sub_zero, hd, if_true] at i2 i3 i4 i5
  obtain ⟨n, hn⟩ : ∃ n, s.last = n + 1 := ⟨s.last - 1, by omega⟩
  refine ⟨stp, it, h1, i3, by omega, ?_⟩
  unfold trim
  rw [i5, hn]
  simp only [List.singleton_append, List.map_cons, List.map_map, Nat.add_sub_cancel]
  rw [surf_list _ _ (fun x => (c.errs x).1), surf_list _ _ (fun x => (c.errs x).2), surf_list _ _ (nWet c)]
  exact ⟨take_all _ _ _, take_all _ _ _, take_less _ _ _, take_less _ _ _, take_less _ _ _, take_less _ _ _, take_less _ _ _, take_less _ _ _⟩

/-- **C43 is violated**, on every run: what the last pass did is never reported. -/
theorem omega_diags_false {c : Cfg F} (hd : c.diags = true) {p0 : PInit F} {s : State F} (h : omega c p0 = .ok s) :
    (trim s).phiMAV[s.last]? = none ∧ (trim s).dpRMS[s.last]? = none ∧ (trim s).dpMAV[s.last]? = none ∧
    (trim s).dpLinf[s.last]? = none ∧ (trim s).newly[s.last]? = none ∧ (trim s).nWet[s.last]? = none := by
  obtain ⟨stp0, it, _, _, hl, _, _, h3, h4, h5, h6, h7, h8⟩ := omega_diags_partial hd h
  rw [h3, h4, h5, h6, h7, h8]
  refine ⟨?_, ?_, ?_, ?_, ?_, ?_⟩ <;> rw [List.getElem?_eq_none_iff] <;> simp <;> omega

/-! ## C44 -/

/-- A global solver that fails only on the empty region. -/
def Total (solver : (ℕ → F) → (ℕ → F) → (ℕ → F) → List ℕ → ℕ → OmegaMat.Res (ℕ → F)) : Prop :=
  ∀ s t p m r, m ≠ [] → m.Nodup → ∃ φ, solver s t p m r = .ok φ

theorem aggsum_ok {l : List (ℤ × F)} {n : ℕ} (h : ∀ x ∈ l, x.1 < (n : ℤ)) : ∃ b, Lib.aggsum l n = .ok b := by
  unfold Lib.aggsum
  rw [if_pos (by rw [List.all_eq_true]; intro x hx; exact decide_eq_true (h x hx))]
  exact ⟨_, rfl⟩

theorem helper_lt {eosST : Ntp.EosST F} {s t p : ℕ → F} {edges : List (ℕ × ℕ)} {ratio : OmegaMat.Ratio F} {m : List ℕ} (hm : m.Nodup)
    (k : OmegaMat.Row F) (hk : k ∈ OmegaMat.helper eosST s t p edges ratio m) : k.a < m.length ∧ k.b < m.length := by
  have key : ∀ x : (ℕ × ℕ) × F, (decide (0 ≤ OmegaMat.remap m x.1.1) && decide (0 ≤ OmegaMat.remap m x.1.2)) = true →
      (OmegaMat.remap m x.1.1).toNat < m.length ∧ (OmegaMat.remap m x.1.2).toNat < m.length := by
    intro x hx
    rw [OmegaMat.remap_eq hm, OmegaMat.remap_eq hm] at hx ⊢
    by_cases h1 : x.1.1 ∈ m
    · by_cases h2 : x.1.2 ∈ m
      · rw [if_pos h1, if_pos h2, Int.toNat_natCast, Int.toNat_natCast]
        exact ⟨List.idxOf_lt_length_of_mem h1, List.idxOf_lt_length_of_mem h2⟩
      · simp [h2] at hx
    · simp [h1] at hx
  unfold OmegaMat.helper at hk
  cases ratio with
  | scalar d =>
    obtain ⟨x, hx, rfl⟩ := List.mem_map.1 hk
    exact key x (List.mem_filter.1 hx).2
  | arr l =>
    obtain ⟨x, hx, rfl⟩ := List.mem_map.1 hk
    exact key x (List.mem_filter.1 hx).2

/-- Both solvers fail only on the empty region. -/
theorem poisson_total (spsolve : ℕ → (ℕ → ℕ → F) → (ℕ → F) → ℕ → F) (eosST : Ntp.EosST F) (edges : List (ℕ × ℕ))
    (ratio : OmegaMat.Ratio F) : Total fun s t p m r => OmegaMat.poisson spsolve eosST s t p edges ratio m r := by
  intro s t p m r hne hm
  unfold OmegaMat.poisson
  dsimp only
  split_ifs with hl
  · cases m with
    | nil => exact absurd rfl hne
    | cons x m => exact ⟨_, rfl⟩
  · have hlt := fun k hk => helper_lt (eosST := eosST) (s := s) (t := t) (p := p) (edges := edges) (ratio := ratio) hm k hk
    generalize OmegaMat.helper eosST s t p edges ratio m = rows at hlt
    unfold OmegaMat.poissonSystem
    have a1 : ∀ (f : OmegaMat.Row F → F), ∃ b, Lib.aggsum (rows.map fun x => ((x.a : ℤ), f x)) m.length = .ok b := by
      intro f
      apply aggsum_ok
      intro x hx
      obtain ⟨k, hk, rfl⟩ := List.mem_map.1 hx
      exact Int.ofNat_lt.2 (hlt k hk).1
    have a2 : ∀ (f : OmegaMat.Row F → F), ∃ b, Lib.aggsum (rows.map fun x => ((x.b : ℤ), f x)) m.length = .ok b := by
      intro f
      apply aggsum_ok
      intro x hx
      obtain ⟨k, hk, rfl⟩ := List.mem_map.1 hx
      exact Int.ofNat_lt.2 (hlt k hk).2
    obtain ⟨b1, h1⟩ := a1 fun x => x.e
    obtain ⟨b2, h2⟩ := a2 fun x => x.e
    obtain ⟨b3, h3⟩ := a1 fun x => x.w
    obtain ⟨b4, h4⟩ := a2 fun x => x.w
    simp only [h1, h2, h3, h4]
    exact ⟨_, rfl⟩

theorem gradient_total (lsqr : ℕ → ℕ → (ℕ → ℕ → F) → (ℕ → F) → ℕ → F) (eosST : Ntp.EosST F) (edges : List (ℕ × ℕ))
    (ratio : OmegaMat.Ratio F) : Total fun s t p m r => OmegaMat.gradient lsqr eosST s t p edges ratio m r := by
  intro s t p m r hne _
  unfold OmegaMat.gradient
  dsimp only
  split_ifs with hl
  · cases m with
    | nil => exact absurd rfl hne
    | cons x m => exact ⟨_, rfl⟩
  · exact ⟨_, rfl⟩

theorem bind_index {A B : Type*} {x : Res A} {k : A → Res B} (h : x.bind k = .indexError) :
    x = .indexError ∨ ∃ a, x = .ok a ∧ k a = .indexError := by
  cases x <;> first | exact Or.inr ⟨_, rfl, h⟩ | exact Or.inl rfl | cases h

theorem ofOption_index {A : Type*} {x : Option A} : ofOption x ≠ .indexError := by
  cases x <;> intro h <;> cases h

theorem ofOutcome_index {A : Type*} {x : Outcome A} : ofOutcome x ≠ .indexError := by
  cases x <;> intro h <;> cases h

theorem wetting_index {c : Cfg F} {stp : Surf F} : wetting c stp ≠ .indexError := by
  intro h
  unfold wetting at h
  rcases bind_index h with h | ⟨_, _, h⟩
  · exact ofOption_index h
  · cases h

theorem region_index {c : Cfg F} {iter : ℕ} {stp : Surf F} : region c iter stp ≠ .indexError := by
  intro h
  unfold region at h
  split_ifs at h
  · rcases bind_index h with h | ⟨_, _, h⟩
    · exact wetting_index h
    · cases h
  · rcases bind_index h with h | ⟨_, _, h⟩
    · exact ofOption_index h
    · cases h

theorem removeML_pin {c : Cfg F} {iter : ℕ} {stp : Surf F} {s0 t0 pinP : F} (hp : stp c.pin = (s0, t0, pinP))
    (hml : lt pinP (c.pml c.pin) = false) : removeML c iter stp c.pin = (s0, t0, pinP) := by
  unfold removeML
  split_ifs
  · dsimp only
    rw [hp]
    dsimp only
    rw [hml]; rfl
  · exact hp

/-- **C44 (partial).** The region handed to the matrix solver contains the pinning cast, and no `IndexError` is raised, when
the pinning point is not above the mixed layer.  (The code comments claim it in general.) -/
theorem omega_region_nonempty_partial (hnan : isFinite (nan : F) = false) {c : Cfg F} (C : Ok c) (hs : PinSolver c.solver)
    (ht : Total c.solver) {p0 : PInit F} (hf : isFinite (pinPOf c p0) = true) (hml : lt (pinPOf c p0) (c.pml c.pin) = false) :
    omega c p0 ≠ .indexError := by
  have hstep : ∀ s0 t0 iter stp, stp c.pin = (s0, t0, pinPOf c p0) → step c (pinPOf c p0) iter stp ≠ .indexError := by
    intro s0 t0 iter stp hp h
    unfold step at h
    rcases bind_index h with h | ⟨⟨stp1, qu, nw⟩, h1, h⟩
    · exact region_index h
    · obtain ⟨i1, _, _, i4, _, _⟩ := region_spec hnan C h1
      have hq : c.pin ∈ qu := i4 (by unfold wet; rw [removeML_pin hp hml]; exact hf)
      rcases bind_index h with h | ⟨phi, _, h⟩
      · dsimp only at h
        obtain ⟨φ, hφ⟩ := ht (fun n => (stp1 n).1) (fun n => (stp1 n).2.1) (fun n => (stp1 n).2.2) qu c.pin
          (List.ne_nil_of_mem hq) i1
        rw [hφ] at h
        cases h
      · rcases bind_index h with h | ⟨_, _, h⟩
        · exact ofOutcome_index h
        · cases h
  have hloop : ∀ left iter s s0 t0, s.stp c.pin = (s0, t0, pinPOf c p0) → loop c (pinPOf c p0) left iter s ≠ .indexError := by
    intro left
    induction left with
    | zero => intro iter s s0 t0 _ h; cases h
    | succ left ih =>
      intro iter s s0 t0 hp h
      unfold loop at h
      rcases bind_index h with h | ⟨r, h1, h⟩
      · exact hstep _ _ _ _ hp h
      · split_ifs at h
        exact ih _ _ _ _ (step_pinned hnan C hs hp h1).1 h
  intro h
  unfold omega at h
  rcases bind_index h with h | ⟨stp, h1, h⟩
  · unfold init at h
    rcases bind_index h with h | ⟨_, _, h⟩
    · cases p0 with
      | scalar p =>
        unfold initRaw at h
        rcases bind_index h with h | ⟨_, _, h⟩
        · exact ofOption_index h
        · rcases bind_index h with h | ⟨_, _, h⟩
          · exact wetting_index h
          · cases h
      | array p =>
        unfold initRaw at h
        dsimp only at h
        split_ifs at h
    · split_ifs at h
  · obtain ⟨s0, t0, _, _, e⟩ := init_pinned hnan C hf h1
    rcases bind_index h with h | ⟨s, h2, h⟩
    · exact hloop _ _ _ _ _ e h
    · split_ifs at h

/-- **C44 is violated**, on every run whose pinning point is above the mixed layer and which does not stop after the first pass:
the region is empty in the second pass and the matrix solver raises `IndexError`. -/
theorem omega_region_empty_false (hnan : isFinite (nan : F) = false) {c : Cfg F} (C : Ok c) (hs : PinSolver c.solver) {p0 : PInit F}
    (hf : isFinite (pinPOf c p0) = true) (hml : lt (pinPOf c p0) (c.pml c.pin) = true) {stp : Surf F} {r : Iter F}
    (h0 : init c p0 = .ok stp) (h1 : step c (pinPOf c p0) 1 stp = .ok r) (h2 : small c r = false) (hi : 2 ≤ c.iterMax) :
    omega c p0 = .indexError := by
  obtain ⟨s0, t0, _, _, e⟩ := init_pinned hnan C hf h0
  have e1 := (step_pinned hnan C hs e h1).1
  have hdry : wet (removeML c 2 r.new) c.pin = false := by
    unfold wet removeML
    rw [if_pos (by omega), e1]
    dsimp only
    rw [if_pos hml]
    exact hnan
  have hreg : ∃ x, region c 2 (removeML c 2 r.new) = .ok x := by
    unfold region
    split_ifs
    · unfold wetting
      obtain ⟨r', W, h5, _⟩ := wetPerim_spec hnan c.G c.ocean c.N c.pin (removeML c 2 r.new) C.graph C.pin c.garbage c.nrep c.fuel C.fuel
      rw [h5]
      exact ⟨_, rfl⟩
    · obtain ⟨q, h5, _⟩ := bfs_component c.G c.N c.pin (wet (removeML c 2 r.new)) C.graph C.pin c.fuel C.fuel
      have h5 : bfs c.G c.pin (fun n => isFinite (removeML c 2 r.new n).2.2) c.fuel = some q := h5
      rw [h5]
      exact ⟨_, rfl⟩
  obtain ⟨⟨stp1, qu, nw⟩, hreg⟩ := hreg
  have hqu := (region_spec hnan C hreg).2.2.2.2.1 hdry
  have hstep : step c (pinPOf c p0) 2 r.new = .indexError := by
    unfold step
    rw [hreg]
    show Res.bind (ofMat (c.solver _ _ _ qu c.pin)) _ = _
    rw [hqu, hs.empty]
    rfl
  obtain ⟨k, hk⟩ : ∃ k, c.iterMax = k + 2 := ⟨c.iterMax - 2, by omega⟩
  unfold omega
  rw [h0]
  show Res.bind (loop c (pinPOf c p0) c.iterMax 1 _) _ = _
  rw [hk]
  unfold loop
  rw [h1]
  show Res.bind (if converged c 1 r (dpRMS c (lit 0) r) = true then _ else _) _ = _
  have hc : converged c 1 r (dpRMS c (lit 0) r) = false := by
    unfold converged
    rw [dpRMS_eq (Or.inr rfl)]
    unfold small at h2
    rw [h2, Bool.false_and]
  rw [hc]
  show Res.bind (loop c (pinPOf c p0) (k + 1) 2 (after c 1 _ r)) _ = _
  unfold loop
  show Res.bind (Res.bind (step c (pinPOf c p0) 2 r.new) _) _ = _
  rw [hstep]
  rfl

/-! ## C78 -/

/-- The region of a pass is connected with the pinning cast through casts of the region (on a graph that lists each edge from
both its ends; exact arithmetic). -/
theorem region_connected {α : Type*} [Field α] [LinearOrder α] [IsStrictOrderedRing α] {c : Cfg (Fl α)} (C : Ok c) (hsym : ∀ a b, b ∈ c.G.nbrs a → a ∈ c.G.nbrs b)
    {iter : ℕ} {stp stp1 : Surf (Fl α)} {qu : List ℕ} {newly : ℕ} (h : region c iter stp = .ok (stp1, qu, newly)) :
    ∀ n ∈ qu, Reach c.G (fun k => decide (k ∈ qu)) c.pin n := by
  have hnan : isFinite (nan : Fl α) = false := rfl
  have hspec := region_spec hnan C h
  -- casts of the old component
  have hold : ∀ n, Reach c.G (wet stp) c.pin n → Reach c.G (fun k => decide (k ∈ qu)) c.pin n := by
    rintro n ⟨k, w⟩
    refine ⟨k, ?_⟩
    induction w with
    | root hg => exact .root (decide_eq_true (hspec.2.2.2.1 hg))
    | step w hn hg ih => exact .step ih hn (decide_eq_true (hspec.2.2.2.2.2 _ ⟨_, .step w hn hg⟩).2)
  unfold region at h
  split_ifs at h with hw
  · obtain ⟨⟨s1, nw⟩, h1, h2⟩ := bind_ok h
    cases h2
    unfold wetting at h1
    obtain ⟨r, h3, h4⟩ := bind_ok h1
    cases h4
    have h3 := ofOption_ok h3
    obtain ⟨r', W, h5, S⟩ := wetPerim_spec hnan c.G c.ocean c.N c.pin stp C.graph C.pin c.garbage c.nrep c.fuel C.fuel
    rw [h3] at h5
    cases h5
    intro n hn
    dsimp only at hn hspec hold ⊢
    have hwet := (List.mem_filter.1 hn).2
    by_cases hr : Reach c.G (wet stp) c.pin n
    · exact hold n hr
    · have hW : n ∈ W := by
        by_contra hW
        rw [S.cut n hr hW] at hwet
        dsimp only at hwet
        rw [hnan] at hwet; cases hwet
      -- wetted casts, in order
      have key : ∀ (i v : ℕ), W[i]? = some v → wet r.stp v = true →
          Reach c.G (fun k => decide (k ∈ (List.range c.N).filter fun n => isFinite (r.stp n).2.2)) c.pin v := by
        intro i
        induction i using Nat.strong_induction_on with
        | _ i ih =>
          intro v hv hwv
          obtain ⟨_, ns, l1, l2, l3, _⟩ := S.links i v hv
          obtain ⟨u, ns', rfl⟩ := List.exists_cons_of_ne_nil l2
          have huv : u ∈ c.G.nbrs v := l1.subset List.mem_cons_self
          have hvq : v ∈ (List.range c.N).filter fun n => isFinite (r.stp n).2.2 :=
            List.mem_filter.2 ⟨List.mem_range.2 (S.was_dry v (List.mem_of_getElem? hv)).2, hwv⟩
          have hu : Reach c.G (fun k => decide (k ∈ (List.range c.N).filter fun n => isFinite (r.stp n).2.2)) c.pin u := by
            rcases (l3 u List.mem_cons_self).1 with h | h
            · exact hold u h
            · obtain ⟨j, hj, hju⟩ := List.mem_take_iff_getElem.1 h
              have hj' : j < i := by omega
              have hju' : W[j]? = some u := by rw [List.getElem?_eq_getElem (by omega), hju]
              exact ih j hj' u hju' ((wetPerim_count S).2 u |>.2 (Or.inr (List.mem_of_getElem? hju')))
          obtain ⟨k, w⟩ := hu
          exact ⟨k + 1, .step w (hsym _ _ huv) (decide_eq_true hvq)⟩
      obtain ⟨i, hi, hin⟩ := List.mem_iff_getElem.1 hW
      exact key i n (by rw [List.getElem?_eq_getElem hi, hin]) hwet
  · obtain ⟨q, h1, h2⟩ := bind_ok h
    cases h2
    have h1 := ofOption_ok h1
    obtain ⟨q', h3, h4, h5, h6, h7, h8, _⟩ := bfs_component c.G c.N c.pin (wet stp) C.graph C.pin c.fuel C.fuel
    have : q = q' := by
      have : some q = some q' := by rw [← h1, ← h3]
      cases this; rfl
    subst this
    intro n hn
    exact hold n ((h6 n).1 ((List.mem_insertionSort _).1 hn))

/-- **C78.** The surface left by a pass: NaN in all three variables at every cast outside the region of that pass (any
arithmetic in which NaN is neither finite nor zero). -/
theorem step_region (hnan : isFinite (nan : F) = false) (hnz : feq (nan : F) (lit 0) = false) {c : Cfg F} (C : Ok c)
    (hs : PinSolver c.solver) {pinP s0 t0 : F} {iter : ℕ} {stp : Surf F} {r : Iter F} (hp : stp c.pin = (s0, t0, pinP))
    (h : step c pinP iter stp = .ok r) :
    c.pin ∈ r.qu ∧ r.qu.Nodup ∧ (∃ nw, region c iter (removeML c iter stp) = .ok (r.old, r.qu, nw)) ∧
    ∀ n < c.N, n ∉ r.qu → r.new n = (nan, nan, nan) := by
  have hpin := step_pinned hnan C hs hp h
  unfold step at h
  obtain ⟨⟨stp1, qu, nw⟩, h1, h2⟩ := bind_ok h
  obtain ⟨phi, h3, h4⟩ := bind_ok h2
  obtain ⟨stp2, h5, h6⟩ := bind_ok h4
  cases h6
  have h3 := ofMat_ok h3
  have h5 := ofOutcome_ok h5
  obtain ⟨i1, _, _, i4, i5, i6⟩ := region_spec hnan C h1
  dsimp only at h3 h5 hpin ⊢
  have hq : c.pin ∈ qu := by
    rcases Bool.eq_false_or_eq_true (wet (removeML c iter stp) c.pin) with h | h
    · exact i4 h
    · rw [i5 h, hs.empty] at h3; cases h3
  refine ⟨hq, i1, ⟨nw, h1⟩, ?_⟩
  intro n hn hnq
  have hne : n ≠ c.pin := fun e => hnq (e ▸ hq)
  rw [Function.update_of_ne hne]
  have hv := ((vertsolveOmega_pointwise _ _ _ _ _ _ _ _ _).1 h5).1 n hn
  have hφ := hs.out _ _ _ _ _ _ h3 hq i1 n hnq
  rw [hφ, omega_nan _ _ _ _ _ _ _ hnz (Or.inl hnan)] at hv
  injection hv with hv
  exact hv.symm

/-- **C78.** The surface returned by `omega_surf` (after one pass at least) is NaN in `s`, `t` and `p` at every cast outside a
region that is connected with the pinning cast. -/
theorem omega_connected {α : Type*} [Field α] [LinearOrder α] [IsStrictOrderedRing α] {c : Cfg (Fl α)} (C : Ok c)
    (hs : PinSolver c.solver) (hsym : ∀ a b, b ∈ c.G.nbrs a → a ∈ c.G.nbrs b) {p0 : PInit (Fl α)}
    (hf : isFinite (pinPOf c p0) = true) {s : State (Fl α)} (h : omega c p0 = .ok s) (hl : 1 ≤ s.last) :
    ∃ qu : List ℕ, c.pin ∈ qu ∧ (∀ n ∈ qu, Reach c.G (fun k => decide (k ∈ qu)) c.pin n) ∧
      ∀ n < c.N, n ∉ qu → s.stp n = (Fl.nan, Fl.nan, Fl.nan) := by
  have hnan : isFinite (nan : Fl α) = false := rfl
  obtain ⟨_, _, stp0, it, h1, hrun, hst, _⟩ := omega_iterations h
  obtain ⟨s0, t0, _, _, e⟩ := init_pinned hnan C hf h1
  have hpin : ∀ k ≤ s.last, surfAt stp0 it k c.pin = (s0, t0, pinPOf c p0) := by
    intro k
    induction k with
    | zero => intro _; exact e
    | succ k ih =>
      intro hk
      exact (step_pinned hnan C hs (ih (by omega)) (hrun k (by omega))).1
  obtain ⟨n, hn⟩ : ∃ n, s.last = n + 1 := ⟨s.last - 1, by omega⟩
  have hstep := hrun n (by omega)
  obtain ⟨a1, _, ⟨nw, a3⟩, a4⟩ := step_region hnan rfl C hs (hpin n (by omega)) hstep
  refine ⟨(it n).qu, a1, region_connected C hsym a3, ?_⟩
  rw [hst, hn]
  exact a4

/-! ## C79 -/

/-- **C79.** A pass on a surface that is neutral on all edges of its region leaves it as it is there (exact arithmetic, Poisson
formulation with an exact solver). -/
theorem step_neutral {α : Type*} [Field α] [LinearOrder α] [IsStrictOrderedRing α] {c : Cfg (Fl α)} (C : Ok c)
    {E : List ((ℕ × ℕ) × α)} {eosST : Ntp.EosST (Fl α)} {ε : ℕ × ℕ → α}
    {spsolve : ℕ → (ℕ → ℕ → Fl α) → (ℕ → Fl α) → ℕ → Fl α} (hex : OmegaMat.ExactSolve spsolve)
    (hsolver : c.solver = fun s t p m r => OmegaMat.poisson spsolve eosST s t p (E.map Prod.fst) (.arr (E.map fun x => .fin x.2)) m r)
    {pinP s0 t0 : Fl α} {iter : ℕ} {stp : Surf (Fl α)} {r : Iter (Fl α)} (hp : stp c.pin = (s0, t0, pinP))
    (h : step c pinP iter stp = .ok r)
    (H : OmegaMat.Region E r.qu c.pin eosST (fun n => (r.old n).1) (fun n => (r.old n).2.1) (fun n => (r.old n).2.2) ε)
    (h0 : ∀ x ∈ OmegaMat.inner E r.qu, ε x.1 = 0) :
    ∀ n ∈ r.qu, r.new n = r.old n := by
  have hnan : isFinite (nan : Fl α) = false := rfl
  have hs : PinSolver c.solver := by
    rw [hsolver]; exact poisson_pinSolver (by simp) _ _ _ _
  have hpin := step_pinned hnan C hs hp h
  unfold step at h
  obtain ⟨⟨stp1, qu, nw⟩, h1, h2⟩ := bind_ok h
  obtain ⟨phi, h3, h4⟩ := bind_ok h2
  obtain ⟨stp2, h5, h6⟩ := bind_ok h4
  cases h6
  have h3 := ofMat_ok h3
  have h5 := ofOutcome_ok h5
  obtain ⟨_, _, i3, _, _, _⟩ := region_spec hnan C h1
  dsimp only at h3 h5 hpin H h0 ⊢
  rw [hsolver] at h3
  dsimp only at h3
  rw [OmegaMat.poisson_neutral H h0 hex] at h3
  injection h3 with h3
  intro n hn
  by_cases hne : n = c.pin
  · subst hne
    rw [hpin.1, hpin.2.1]
  · rw [Function.update_of_ne hne]
    have hv := ((vertsolveOmega_pointwise _ _ _ _ _ _ _ _ _).1 h5).1 n (i3 n hn).1
    rw [omega_zero _ _ _ _ _ _ _ (by rw [← h3]; simp [hn])] at hv
    injection hv with hv
    exact hv.symm

/-! ## Tolerances -/

section exact
variable {α : Type*} [Field α] [LinearOrder α] [IsStrictOrderedRing α]

/-- not NaN and not negative -/
def NN : Fl α → Prop
  | .fin x => 0 ≤ x
  | .pinf => True
  | _ => False

theorem NN.add {x y : Fl α} (hx : NN x) (hy : NN y) : NN (x + y) := by
  cases x <;> cases y <;> first | exact add_nonneg hx hy | exact trivial | exact hx.elim | exact hy.elim

theorem NN.abs {x : Fl α} (h : isNaN (FloatLike.abs x) = false) : NN (FloatLike.abs x) := by
  cases x
  · cases h
  · exact trivial
  · exact trivial
  · exact abs_nonneg _

theorem NN.sum {l : List (Fl α)} (h : ∀ x ∈ l, NN x) : NN (Ntp.sum l) := by
  unfold Ntp.sum
  have : ∀ (l : List (Fl α)) (a : Fl α), NN a → (∀ x ∈ l, NN x) → NN (l.foldl (· + ·) a) := by
    intro l
    induction l with
    | nil => intro a ha _; exact ha
    | cons y l ih =>
      intro a ha h
      exact ih _ (ha.add (h y List.mem_cons_self)) fun x hx => h x (List.mem_cons_of_mem _ hx)
  exact this l _ (by simp [NN]) h

/-- the mean of absolute values is never below zero -/
theorem phiMAV_not_neg (c : Cfg (Fl α)) (r : Iter (Fl α)) : lt (phiMAV c r) (lit 0) = false := by
  unfold phiMAV nanmean
  dsimp only
  split_ifs with hl
  · rfl
  · have h := NN.sum (l := (((List.range c.N).map fun n => FloatLike.abs (r.phi n)).filter fun x => !isNaN x)) (by
      intro x hx
      obtain ⟨h1, h2⟩ := List.mem_filter.1 hx
      obtain ⟨n, _, rfl⟩ := List.mem_map.1 h1
      exact NN.abs (by simpa using h2))
    generalize Ntp.sum (F := Fl α) _ = y at h ⊢
    generalize List.length (α := Fl α) _ = k at hl ⊢
    have hk : (0 : α) < k := by exact_mod_cast Nat.pos_of_ne_zero hl
    rw [lit_eq, Rat.cast_natCast]
    cases y with
    | nan => exact h.elim
    | ninf => exact h.elim
    | pinf =>
      show lt (if (k : α) < 0 then Fl.ninf else Fl.pinf) _ = false
      rw [if_neg (not_lt.2 hk.le)]
      rfl
    | fin x =>
      rw [fin_div _ _ hk.ne', lit_eq, Rat.cast_zero]
      simpa using div_nonneg h hk.le

/-- **C42.** "Set to 0 to deactivate": with both tolerances zero all `ITER_MAX` passes are made. -/
theorem omega_no_tolerance {c : Cfg (Fl α)} (h1 : c.tolPhi = lit 0) (h2 : c.tolP = lit 0) (hsq : ∀ x, lt (c.sqrt x) (lit 0) = false)
    {p0 : PInit (Fl α)} {s : State (Fl α)} (h : omega c p0 = .ok s) : s.last = c.iterMax := by
  obtain ⟨i1, _, stp0, it, _, _, _, i5, _⟩ := omega_iterations h
  by_contra hne
  obtain ⟨k, _, _, hk⟩ := i5 (by omega)
  unfold small at hk
  rw [h1, h2, phiMAV_not_neg, Bool.false_or] at hk
  unfold rmsAt at hk
  split_ifs at hk
  · rw [hsq] at hk; cases hk
  · simp at hk

end exact

/-! ## Examples -/

/-- Two casts 0 and 1 joined by an edge, density = salinity: salinity `p` at cast 0 and `p + 1` at cast 1, for `p = 0, 1, 2, 3`;
`m` gives the mixed layer and `k` the number of passes. -/
def demo (m : Fl ℚ) (k : ℕ) : Cfg (Fl ℚ) where
  N := 2
  G := ⟨fun n => n, fun n => 1 - n⟩
  casts n := ⟨⟨4, fun i => .fin (i + n)⟩, ⟨4, fun _ => .fin 0⟩, ⟨4, fun i => .fin i⟩⟩
  kind := .linear
  eos s _ _ := s
  solver s t p m r := OmegaMat.poisson (fun _ L D i => if i = 0 then .fin 0 else D 1 / L 1 1) (fun _ _ _ => (.fin 1, .fin 0))
    s t p [(0, 1)] (.arr [.fin 1]) m r
  errs _ := (.fin 0, .fin 0)
  sqrt x := x
  pin := 0
  pml _ := m
  tol := .fin (1/100)
  tolPhi := .fin 0
  tolP := .fin 0
  diags := true
  iterMin := 1
  iterMax := k
  startWet := 1
  stopWet := 5
  nrep := 10
  garbage _ := 0
  fuel := 200

theorem demo_ok (m : Fl ℚ) (k : ℕ) : Ok (demo m k) := by
  refine ⟨?_, by show 0 < 2; omega, by show 2 < 200; omega⟩
  intro i hi n hn
  have : n = 1 - i := by
    simpa [demo, Csr.nbrs] using hn
  show n < 2
  omega

theorem demo_solver (m : Fl ℚ) (k : ℕ) : PinSolver (demo m k).solver :=
  poisson_pinSolver (F := Fl ℚ) (by simp) (fun _ L D i => if i = 0 then .fin 0 else D 1 / L 1 1) (fun _ _ _ => (.fin 1, .fin 0))
    [(0, 1)] (.arr [.fin 1])

/-- The initial surface at `p = 2` on both casts is moved at cast 1 and stays at cast 0; the diagnostics of the last pass are lost. -/
theorem demo_run : (match omega (demo .ninf 2) (.array fun _ => .fin 2) with
    | .ok s => some (s.last, (s.stp 0).2.2, (s.stp 1).2.2, (trim s).phiMAV) | _ => none) =
    some (2, .fin 2, .fin 1, [.fin 0, .fin (1/2)]) := by decide +kernel

/-- With the pinning point above the mixed layer the same call raises `IndexError`. -/
theorem demo_index : (match omega (demo (.fin 3) 2) (.array fun _ => .fin 2) with | .indexError => true | _ => false) = true := by
  decide +kernel

/-- No pass with diagnostics: `UnboundLocalError`. -/
theorem demo_unbound : (match omega (demo .ninf 0) (.array fun _ => .fin 2) with | .unbound => true | _ => false) = true := by
  decide +kernel

end Omega
