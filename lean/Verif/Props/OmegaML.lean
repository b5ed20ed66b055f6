import Verif.Props.Omega

/-! # Omega surfaces and the mixed layer (C103) -/

namespace Omega
open FloatLike Fzero Traj VertSolve Bfs
open Fl hiding nan

set_option linter.unusedSectionVars false

variable {F : Type*} [FloatLike F]

/-- Without wetting, the region of a pass has only casts that were wet and (after the first pass) not in the mixed layer. -/
theorem region_dry {c : Cfg F} (C : Ok c) {iter : ℕ} (hw : ¬ (c.startWet ≤ iter ∧ iter ≤ c.stopWet))
    {stp stp1 : Surf F} {qu : List ℕ} {nw : ℕ} (h : region c iter stp = .ok (stp1, qu, nw)) :
    stp1 = stp ∧ ∀ n ∈ qu, isFinite (stp n).2.2 = true := by
  unfold region at h
  rw [if_neg hw] at h
  obtain ⟨q, h1, h2⟩ := bind_ok h
  cases h2
  have h1 := ofOption_ok h1
  refine ⟨rfl, fun n hn => ?_⟩
  obtain ⟨q', h3, _, _, h6, _⟩ := bfs_component c.G c.N c.pin (wet stp) C.graph C.pin c.fuel C.fuel
  have : q = q' := by
    have : some q = some q' := by rw [← h1, ← h3]
    cases this; rfl
  subst this
  obtain ⟨k, w⟩ := (h6 n).1 ((List.mem_insertionSort _).1 hn)
  cases w with
  | root h => exact h
  | step _ _ h => exact h

/-- A pass without wetting: casts that were dry, or (after the first pass) in the mixed layer, are NaN afterwards. -/
theorem step_dry (hnan : isFinite (nan : F) = false) (hnz : feq (nan : F) (lit 0) = false) {c : Cfg F} (C : Ok c)
    (hs : PinSolver c.solver) {pinP s0 t0 : F} {iter : ℕ} (hw : ¬ (c.startWet ≤ iter ∧ iter ≤ c.stopWet)) {stp : Surf F}
    {r : Iter F} (hp : stp c.pin = (s0, t0, pinP)) (h : step c pinP iter stp = .ok r) {n : ℕ} (hn : n < c.N)
    (hd : isFinite (stp n).2.2 = false ∨ 1 < iter ∧ lt (stp n).2.2 (c.pml n) = true) : r.new n = (nan, nan, nan) := by
  obtain ⟨_, _, ⟨nw, a3⟩, a4⟩ := step_region hnan hnz C hs hp h
  refine a4 n hn fun hq => ?_
  have hf := (region_dry C hw a3).2 n hq
  unfold removeML at hf
  by_cases h1 : 1 < iter
  · rw [if_pos h1] at hf
    by_cases h2 : lt (stp n).2.2 (c.pml n) = true
    · simp only [h2, if_true] at hf
      rw [hnan] at hf; cases hf
    · simp only [h2, if_false, Bool.false_eq_true] at hf
      rcases hd with hd | hd
      · rw [hd] at hf; cases hf
      · exact h2 hd.2
  · rw [if_neg h1] at hf
    rcases hd with hd | hd
    · rw [hd] at hf; cases hf
    · exact h1 hd.1

/-- **C103, partial.** Once wetting has stopped, a cast found in the mixed layer after some pass (other than the last) is NaN in
the surface returned, and a cast that is dry stays dry.  Missing: the surface left by the last pass, and casts wetted. -/
theorem omega_ml_partial (hnan : isFinite (nan : F) = false) (hnz : feq (nan : F) (lit 0) = false) {c : Cfg F} (C : Ok c)
    (hs : PinSolver c.solver) {p0 : PInit F} (hf : isFinite (pinPOf c p0) = true) {s : State F} (h : omega c p0 = .ok s) :
    ∃ stp0 it, init c p0 = .ok stp0 ∧ Run c (pinPOf c p0) stp0 it s.last ∧ s.stp = surfAt stp0 it s.last ∧
      ∀ k, c.stopWet ≤ k → k < s.last → ∀ n < c.N,
        (isFinite (surfAt stp0 it k n).2.2 = false ∨ 1 ≤ k ∧ lt (surfAt stp0 it k n).2.2 (c.pml n) = true) →
        s.stp n = (nan, nan, nan) := by
  obtain ⟨_, _, stp0, it, h1, hrun, hst, _⟩ := omega_iterations h
  refine ⟨stp0, it, h1, hrun, hst, ?_⟩
  obtain ⟨s0, t0, _, _, e⟩ := init_pinned hnan C hf h1
  have hpin : ∀ k ≤ s.last, surfAt stp0 it k c.pin = (s0, t0, pinPOf c p0) := by
    intro k
    induction k with
    | zero => intro _; exact e
    | succ k ih =>
      intro hk
      exact (step_pinned hnan C hs (ih (by omega)) (hrun k (by omega))).1
  intro k hk hkl n hn hd
  have hdry : ∀ j, c.stopWet ≤ j → j < s.last →
      (isFinite (surfAt stp0 it j n).2.2 = false ∨ 1 ≤ j ∧ lt (surfAt stp0 it j n).2.2 (c.pml n) = true) →
      surfAt stp0 it (j + 1) n = (nan, nan, nan) := by
    intro j hj hjl hd
    refine step_dry hnan hnz C hs (by omega) (hpin j (by omega)) (hrun j hjl) hn ?_
    rcases hd with hd | hd
    · exact Or.inl hd
    · exact Or.inr ⟨by omega, hd.2⟩
  have hall : ∀ m, k + 1 + m ≤ s.last → surfAt stp0 it (k + 1 + m) n = (nan, nan, nan) := by
    intro m
    induction m with
    | zero => intro _; exact hdry k hk hkl hd
    | succ m ih =>
      intro hm
      have := ih (by omega)
      exact hdry (k + 1 + m) (by omega) (by omega) (Or.inl (by rw [this]; exact hnan))
  rw [hst]
  have := hall (s.last - (k + 1)) (by omega)
  rwa [show k + 1 + (s.last - (k + 1)) = s.last by omega] at this

/-- The two casts of `demo` with a mixed layer of base 3/2 at cast 1 only and wetting up to pass `w`. -/
def demoML (w k : ℕ) : Cfg (Fl ℚ) := { demo .ninf k with pml := fun n => if n = 1 then .fin (3/2) else .ninf, stopWet := w }

/-- **C103 is false:** the surface returned after one pass, and with wetting also after five, is at pressure 1 at cast 1, in the
mixed layer (base 3/2). -/
theorem omega_ml_false : (∀ k ∈ [1, 2, 5], (match omega (demoML 5 k) (.array fun _ => .fin 2) with
      | .ok s => some ((s.stp 1).2.2, lt (s.stp 1).2.2 ((demoML 5 k).pml 1)) | _ => none) = some (.fin 1, true)) ∧
    (match omega (demoML 0 1) (.array fun _ => .fin 2) with
      | .ok s => some ((s.stp 1).2.2, lt (s.stp 1).2.2 ((demoML 0 1).pml 1)) | _ => none) = some (.fin 1, true) := by
  decide +kernel

/-- Two passes without wetting: cast 1 is removed (a case of `omega_ml_partial`). -/
example : (match omega (demoML 0 2) (.array fun _ => .fin 2) with
      | .ok s => some (s.last, (s.stp 0).2.2, (s.stp 1).2.2) | _ => none) = some (2, .fin 2, Fl.nan) ∧
    Ok (demoML 0 2) ∧ PinSolver (demoML 0 2).solver :=
  ⟨by decide +kernel, ⟨(demo_ok .ninf 2).graph, (demo_ok .ninf 2).pin, (demo_ok .ninf 2).fuel⟩, demo_solver .ninf 2⟩

end Omega
