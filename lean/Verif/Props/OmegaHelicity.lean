import Verif.Props.OmegaTotal

/-!
# When the correction of an omega surface eliminates the errors (C147)

The corrected errors of a pass vanish exactly when the neutrality errors add to nothing around every closed path of the region; in particular on every section (casts in a line).
-/

namespace OmegaMat
open Finset FloatLike
open Fl hiding nan

set_option linter.unusedSectionVars false

variable {α : Type*} [Field α] [LinearOrder α] [IsStrictOrderedRing α]

/-- A path over edges of the region from `a` to `b`, in either direction of each edge, along which the errors add to `σ`. -/
inductive Path (E : List ((ℕ × ℕ) × α)) (m : List ℕ) (ε : ℕ × ℕ → α) (a : ℕ) : ℕ → α → Prop
  | start : Path E m ε a a 0
  | forward {x : (ℕ × ℕ) × α} {σ : α} : Path E m ε a x.1.1 σ → x ∈ inner E m → Path E m ε a x.1.2 (σ + ε x.1)
  | backward {x : (ℕ × ℕ) × α} {σ : α} : Path E m ε a x.1.2 σ → x ∈ inner E m → Path E m ε a x.1.1 (σ - ε x.1)

variable {E : List ((ℕ × ℕ) × α)} {m : List ℕ} {mref : ℕ} {eos : Ntp.EosST (Fl α)} {s t p : ℕ → Fl α} {ε : ℕ × ℕ → α}

theorem Path.trans {a b c : ℕ} {σ τ : α} (h : Path E m ε a b σ) (h' : Path E m ε b c τ) : Path E m ε a c (σ + τ) := by
  induction h' with
  | start => rw [add_zero]; exact h
  | forward _ hx ih => rw [← add_assoc]; exact ih.forward hx
  | backward _ hx ih => rw [← add_sub_assoc]; exact ih.backward hx

theorem Path.reverse {a b : ℕ} {σ : α} (h : Path E m ε a b σ) : Path E m ε b a (-σ) := by
  induction h with
  | start => rw [neg_zero]; exact .start
  | @forward x σ _ hx ih =>
    have := (Path.start.backward hx : Path E m ε x.1.2 x.1.1 (0 - ε x.1)).trans ih
    rwa [show 0 - ε x.1 + -σ = -(σ + ε x.1) by ring] at this
  | @backward x σ _ hx ih =>
    have := (Path.start.forward hx : Path E m ε x.1.1 x.1.2 (0 + ε x.1)).trans ih
    rwa [show 0 + ε x.1 + -σ = -(σ - ε x.1) by ring] at this

/-- Along a path over edges with vanishing corrected errors, the correction falls by the sum of the errors. -/
theorem Path.falls {φ : ℕ → α} (h : ∀ x ∈ inner E m, corr ε φ x.1 = 0) {a b : ℕ} {σ : α} (hp : Path E m ε a b σ) : φ b = φ a - σ := by
  induction hp with
  | start => ring
  | forward _ hx ih => have := h _ hx; unfold corr at this; linear_combination this + ih
  | backward _ hx ih => have := h _ hx; unfold corr at this; linear_combination ih - this

theorem conn_path {a b : ℕ} (h : Relation.ReflTransGen (Joined E m) a b) : ∃ σ, Path E m ε a b σ := by
  induction h with
  | refl => exact ⟨0, .start⟩
  | tail _ hj ih =>
    obtain ⟨σ, hσ⟩ := ih
    obtain ⟨h1, h2, x, hx, hx'⟩ := hj
    have hin : x ∈ inner E m := by
      unfold inner
      rw [List.mem_filter, decide_eq_true_eq]
      rcases hx' with e | e <;> rw [e]
      · exact ⟨hx, h1, h2⟩
      · exact ⟨hx, h2, h1⟩
    rcases hx' with e | e
    · have := (show Path E m ε a x.1.1 σ by rw [e]; exact hσ).forward hin
      rw [e] at this
      exact ⟨_, this⟩
    · have := (show Path E m ε a x.1.2 σ by rw [e]; exact hσ).backward hin
      rw [e] at this
      exact ⟨_, this⟩

/-- A correction that eliminates all errors is balanced. -/
theorem balanced_of_exact {ψ : ℕ → α} (h : ∀ x ∈ inner E m, corr ε ψ x.1 = 0) : Balanced E m ε ψ := by
  have z : ∀ (g : (ℕ × ℕ) × α → Prop) [DecidablePred g], ((inner E m).map fun x => if g x then x.2 * corr ε ψ x.1 else 0).sum = 0 := by
    intro g _
    apply List.sum_eq_zero
    intro y hy
    obtain ⟨x, hx, rfl⟩ := List.mem_map.1 hy
    rw [h x hx]
    split_ifs <;> simp
  intro i _
  rw [z, z]

/-- If any correction eliminates all errors, then every balanced one does. -/
theorem exact_of_exact (H : Region E m mref eos s t p ε) {φ ψ : ℕ → α} (hφ : Balanced E m ε φ) (hψ : ∀ x ∈ inner E m, corr ε ψ x.1 = 0) :
    ∀ x ∈ inner E m, corr ε φ x.1 = 0 := by
  have hc : cost E m ε ψ = 0 := by
    unfold cost
    apply List.sum_eq_zero
    intro y hy
    obtain ⟨x, hx, rfl⟩ := List.mem_map.1 hy
    rw [hψ x hx]; simp
  obtain ⟨h1, h2⟩ := poisson_minimises H hφ ψ
  have h0 : 0 ≤ cost E m ε φ := by
    unfold cost
    apply List.sum_nonneg
    intro y hy
    obtain ⟨x, hx, rfl⟩ := List.mem_map.1 hy
    exact mul_nonneg (H.pos x hx).le (sq_nonneg _)
  obtain ⟨k, hk⟩ := h2.1 (by linarith)
  intro x hx
  obtain ⟨-, a, b⟩ := mem_inner hx
  have := hψ x hx
  unfold corr at this ⊢
  rw [hk _ a, hk _ b] at this
  linear_combination this

/-- **C147** The correction of the matrix problem eliminates the errors of the region exactly when they add to nothing around every closed path. -/
theorem eliminates_iff (H : Region E m mref eos s t p ε) {φ : ℕ → α} (hφ : Balanced E m ε φ) :
    (∀ x ∈ inner E m, corr ε φ x.1 = 0) ↔ ∀ a σ, Path E m ε a a σ → σ = 0 := by
  constructor
  · intro h a σ hp
    have := hp.falls h
    linear_combination this
  · intro h
    choose! σ hσ using fun n (hn : n ∈ m) => conn_path (ε := ε) (H.conn n hn)
    refine exact_of_exact H hφ (ψ := fun n => -σ n) fun x hx => ?_
    obtain ⟨-, a, b⟩ := mem_inner hx
    have := h mref _ (((hσ _ a).forward hx).trans (hσ _ b).reverse)
    unfold corr
    linear_combination this

/-- Casts in a line: every edge joins two that follow each other. -/
def Section (E : List ((ℕ × ℕ) × α)) : Prop := ∀ x ∈ E, x.1.2 = x.1.1 + 1 ∨ x.1.1 = x.1.2 + 1

/-- **C147** On a section, whatever the distances, the correction eliminates all errors. -/
theorem section_eliminates (H : Region E m mref eos s t p ε) {φ : ℕ → α} (hφ : Balanced E m ε φ) (hE : Section E) :
    ∀ x ∈ inner E m, corr ε φ x.1 = 0 := by
  -- errors along the line
  let d : ℕ → α := fun i => num (Ntp.epsErr eos s t p (i, i + 1))
  refine exact_of_exact H hφ (ψ := fun n => -∑ i ∈ range n, d i) fun x hx => ?_
  have he := H.err x hx
  obtain ⟨⟨a, b⟩, w⟩ := x
  rcases hE _ (mem_inner hx).1 with h | h <;> dsimp only at h he <;> subst h
  · have : d a = ε (a, a + 1) := by show num _ = _; rw [he]; rfl
    unfold corr
    dsimp only
    rw [sum_range_succ, this]
    ring
  · have : d b = -ε (b + 1, b) := by
      show num _ = _
      rw [Ntp.epsErr_reverse eos s t p (b + 1) b, he]
      rfl
    unfold corr
    dsimp only
    rw [sum_range_succ, this]
    ring

/-- **C147** The distances do not matter when the errors add to nothing around closed paths: the corrections with any two sets of positive weights are the same. -/
theorem weights_do_not_matter {E' : List ((ℕ × ℕ) × α)} (H : Region E m mref eos s t p ε) (H' : Region E' m mref eos s t p ε)
    (hE : E'.map Prod.fst = E.map Prod.fst) (h0 : ∀ a σ, Path E m ε a a σ → σ = 0) {φ φ' : ℕ → α} (hφ : Balanced E m ε φ) (hφ' : Balanced E' m ε φ')
    (hr : φ mref = 0) (hr' : φ' mref = 0) : ∀ n ∈ m, φ n = φ' n := by
  have h1 := (eliminates_iff H hφ).2 h0
  have h2 : ∀ x ∈ inner E' m, corr ε φ x.1 = 0 := by
    intro x hx
    obtain ⟨k1, k2, k3⟩ := mem_inner hx
    have : x.1 ∈ E.map Prod.fst := by rw [← hE]; exact List.mem_map.2 ⟨x, k1, rfl⟩
    obtain ⟨y, hy, e⟩ := List.mem_map.1 this
    rw [← e]
    refine h1 y ?_
    unfold inner
    rw [List.mem_filter, decide_eq_true_eq, e]
    exact ⟨hy, k2, k3⟩
  obtain ⟨χ, -, -, -, hu⟩ := balanced_unique H'
  exact fun n hn => (hu φ (balanced_of_exact h2) hr n hn).trans (hu φ' hφ' hr' n hn).symm

/-- The triangle of the example of `OmegaMat`: the errors 1, 2 and -3 add to nothing. -/
example : ∃ φ, Balanced demoE [0, 1, 2] (fun x => if x = (0, 1) then 1 else if x = (1, 2) then 2 else -3) φ ∧ φ 1 = 0 ∧ φ 0 = 1 ∧ φ 2 = -2 := by
  refine ⟨fun n => if n = 0 then 1 else if n = 1 then 0 else -2, balanced_of_exact ?_, rfl, rfl, rfl⟩
  decide +kernel

/-- Derivative with respect to salinity proportional to pressure, salinities 0, 1, 2, pressures 0, 0, 2 around a triangle: the errors add to -1, so no correction
eliminates them. -/
example : ∃ ε, Region demoE [0, 1, 2] 1 (fun _ _ p => (p, .fin 0)) (fun n => if n = 0 then .fin 0 else if n = 1 then .fin 1 else .fin 2)
    (fun _ => .fin 0) (fun n => if n = 2 then .fin 2 else .fin 0) ε ∧ ∀ φ, Balanced demoE [0, 1, 2] ε φ → ¬ ∀ x ∈ inner demoE [0, 1, 2], corr ε φ x.1 = 0 := by
  have H : Region demoE [0, 1, 2] 1 (fun _ _ p => (p, .fin 0)) (fun n => if n = 0 then .fin 0 else if n = 1 then .fin 1 else .fin 2)
      (fun _ => .fin 0) (fun n => if n = 2 then .fin 2 else .fin 0) (fun x => if x = (0, 1) then 0 else if x = (1, 2) then 1 else -2) := by
    obtain ⟨h1, h2, h3, h4, h5, -⟩ := demo_region
    exact ⟨h1, h2, h3, h4, h5, by decide +kernel⟩
  refine ⟨_, H, fun φ hφ h => ?_⟩
  have hm : ∀ x ∈ demoE, x ∈ inner demoE [0, 1, 2] := by decide
  have := (eliminates_iff H hφ).1 h 0 _ (((Path.start.forward (hm ((0, 1), 1) (by decide))).forward (hm ((1, 2), 2) (by decide))).forward (hm ((2, 0), 1) (by decide)))
  norm_num at this

end OmegaMat

namespace Omega
open FloatLike Fzero Interp Traj VertSolve Bfs
open Fl hiding nan

variable {c : Cfg (Fl ℝ)} {E : List ((ℕ × ℕ) × ℝ)} {eosST : Ntp.EosST (Fl ℝ)} {e : ℝ → ℝ → ℝ → ℝ} {smin tol : ℝ} {n : ℕ} {b : List ℕ → ℕ → ℝ}

/-- **C147** A pass of `omega_surf` with an exact solver on a section: the corrections eliminate all the errors of the surface along the section. -/
theorem pass_section (hb : ∀ q m, b q m = 0) (hE : OmegaMat.Section E) {iter : ℕ} {stp : Surf (Fl ℝ)}
    {r : Iter (Fl ℝ)} (hS : PassSpec c E eosST e smin tol n b iter stp r) {x : (ℕ × ℕ) × ℝ} (hx : x ∈ OmegaMat.inner E r.qu) (hne : x.1.1 ≠ x.1.2) :
    ∃ ε φ φ' : ℝ, Ntp.epsErr eosST (fun m => (r.old m).1) (fun m => (r.old m).2.1) (fun m => (r.old m).2.2) x.1 = fin ε ∧
      r.phi x.1.1 = fin φ ∧ r.phi x.1.2 = fin φ' ∧ ε + φ' - φ = 0 := by
  obtain ⟨-, h1, h2⟩ := OmegaMat.mem_inner hx
  rcases hS.posed with h | ⟨ε, H⟩
  · rw [h, List.mem_singleton] at h1 h2
    exact absurd (h1.trans h2.symm) hne
  obtain ⟨ψ, p1, p2, -⟩ := OmegaMat.balanced_unique H
  have hz := OmegaMat.section_eliminates H p2 hE x hx
  obtain ⟨φ, f1, f2⟩ := hS.solved ε ψ H p2 p1 _ h1
  obtain ⟨φ', g1, g2⟩ := hS.solved ε ψ H p2 p1 _ h2
  rw [hb, abs_nonpos_iff, sub_eq_zero] at f2 g2
  refine ⟨ε x.1, φ, φ', H.err x hx, f1, g1, ?_⟩
  rw [f2, g2]
  exact hz

end Omega
