import Verif.Props.OmegaStable
import Verif.Props.OmegaSym

/-!
# Global solvers with a bounded error (C138)
-/

namespace OmegaMat
open FloatLike Finset
open Fl hiding nan

set_option linter.unusedSectionVars false

variable {α : Type*} [Field α] [LinearOrder α] [IsStrictOrderedRing α]

/-- Specification of a global solver for the edges `E` whose error on the region `m` at the cast `n` is at most `b m n`: on a region on which the problem
is posed it gives numbers, zero at the reference cast, that are as close as that to the solution of the Poisson equation that vanishes there, and NaN elsewhere;
on a single cast it gives 0 there. -/
structure SolverWithin (E : List ((ℕ × ℕ) × α)) (eos : Ntp.EosST (Fl α)) (b : List ℕ → ℕ → α)
    (solver : (ℕ → Fl α) → (ℕ → Fl α) → (ℕ → Fl α) → List ℕ → ℕ → Res (ℕ → Fl α)) : Prop where
  posed : ∀ s t p m r ε, Region E m r eos s t p ε → ∃ φ : ℕ → α,
    solver s t p m r = .ok (fun n => if n ∈ m then .fin (φ n) else nan) ∧ φ r = 0 ∧
      ∀ ψ, Balanced E m ε ψ → ψ r = 0 → ∀ n ∈ m, |φ n - ψ n| ≤ b m n
  single : ∀ s t p r, solver s t p [r] r = .ok (fun n => if n = r then lit 0 else nan)

/-- An exact solver has error zero. -/
theorem Solver.within {E : List ((ℕ × ℕ) × α)} {eos : Ntp.EosST (Fl α)}
    {solver : (ℕ → Fl α) → (ℕ → Fl α) → (ℕ → Fl α) → List ℕ → ℕ → Res (ℕ → Fl α)} (h : Solver E eos solver) :
    SolverWithin E eos (fun _ _ => 0) solver := by
  refine ⟨fun s t p m r ε H => ?_, h.single⟩
  obtain ⟨φ, h1, h2, h3⟩ := h.posed s t p m r ε H
  obtain ⟨φ0, -, -, -, h4⟩ := balanced_unique H
  refine ⟨φ, h1, h2, fun ψ hψ hψ0 n hn => ?_⟩
  rw [h4 φ h3 h2 n hn, h4 ψ hψ hψ0 n hn, sub_self, abs_zero]

/-- **C138** The Poisson formulation with a solver whose residuals sum to at most `η`, on a grid with weights of at least `w`. -/
theorem poisson_within (E : List ((ℕ × ℕ) × α)) (eos : Ntp.EosST (Fl α)) {w η : α} (hw : 0 < w) (hmin : ∀ x ∈ E, w ≤ x.2)
    {spsolve : ℕ → (ℕ → ℕ → Fl α) → (ℕ → Fl α) → ℕ → Fl α} (hs : NearSolve η spsolve) (hη : 0 ≤ η) :
    SolverWithin E eos (fun m _ => (1 + m.length / w) * η)
      fun s t p m r => poisson spsolve eos s t p (E.map Prod.fst) (.arr (E.map fun x => .fin x.2)) m r := by
  constructor
  · intro s t p m r ε H
    obtain ⟨φ, h1, h2, h3⟩ := poisson_accuracy H hs
    refine ⟨φ, h1, h2, fun ψ hψ hψ0 n hn => ?_⟩
    obtain ⟨k, R, hr, hk, hR⟩ := route_exists H hw (fun x hx => hmin x (mem_inner hx).1) hn
    refine (h3 ψ hψ hψ0 n k R hr).trans (mul_le_mul_of_nonneg_right ?_ hη)
    have : (k : α) / w ≤ m.length / w := div_le_div_of_nonneg_right (by exact_mod_cast hk.le) hw.le
    linarith
  · intro s t p r
    obtain ⟨⟨f, hf⟩, _⟩ := exact_solvers_exist (α := α)
    have := (poisson_solver E eos hf).single s t p r
    unfold poisson at this ⊢
    rw [if_pos (by simp)] at this ⊢
    exact this

/-- **C138** The gradient formulation with a least squares solver that comes within `g` of the least sum of squares; `h` is at least the square root of `g / w`. -/
theorem gradient_within (V : List ((ℕ × ℕ) × α)) (eos : Ntp.EosST (Fl α)) {w g h : α} (hw : 0 < w) (hmin : ∀ x ∈ squared V, w ≤ x.2)
    {lsqr : ℕ → ℕ → (ℕ → ℕ → Fl α) → (ℕ → Fl α) → ℕ → Fl α} (hl : NearLsqr g lsqr) (hg : 0 ≤ g) (hh : 0 ≤ h) (hgh : g / w ≤ h ^ 2) :
    SolverWithin (squared V) eos (fun m _ => m.length * h)
      fun s t p m r => gradient lsqr eos s t p (V.map Prod.fst) (.arr (V.map fun x => .fin x.2)) m r := by
  constructor
  · intro s t p m r ε H
    obtain ⟨φ, h1, h2, h3⟩ := gradient_accuracy V H hl
    refine ⟨φ, h1, h2, fun ψ hψ hψ0 n hn => ?_⟩
    obtain ⟨k, R, hr, hk, hR⟩ := route_exists H hw (fun x hx => hmin x (mem_inner hx).1) hn
    have hk' : (k : α) ≤ m.length := by exact_mod_cast hk.le
    have hk0 : (0 : α) ≤ k := Nat.cast_nonneg k
    refine abs_le_of_sq_le_sq ?_ (by positivity)
    refine (h3 ψ hψ hψ0 n k R hr).trans ?_
    calc (k : α) * R * g ≤ k * (k / w) * g := by gcongr
      _ = k ^ 2 * (g / w) := by ring
      _ ≤ (m.length : α) ^ 2 * h ^ 2 := by gcongr
      _ = _ := by ring
  · intro s t p r
    obtain ⟨_, ⟨f, hf⟩⟩ := exact_solvers_exist (α := α)
    have := (gradient_solver V eos hf).single s t p r
    unfold gradient at this ⊢
    rw [if_pos (by simp)] at this ⊢
    exact this

/-- Both formulations with inexact solvers, on two edges. -/
example {spsolve : ℕ → (ℕ → ℕ → Fl ℚ) → (ℕ → Fl ℚ) → ℕ → Fl ℚ} (hs : NearSolve (1 / 100) spsolve)
    {lsqr : ℕ → ℕ → (ℕ → ℕ → Fl ℚ) → (ℕ → Fl ℚ) → ℕ → Fl ℚ} (hl : NearLsqr (1 / 100) lsqr) (eos : Ntp.EosST (Fl ℚ)) :
    (∃ f, SolverWithin [((0, 1), 4), ((1, 2), 1)] eos (fun m _ => (1 + m.length / 1) * (1 / 100)) f) ∧
    ∃ f, SolverWithin (squared [((0, 1), 4), ((1, 2), 1)]) eos (fun m _ => m.length * (1 / 10)) f :=
  ⟨⟨_, poisson_within _ eos (w := 1) (by norm_num) (by simp) hs (by norm_num)⟩,
    ⟨_, gradient_within _ eos (w := 1) (by norm_num) (by simp [squared]) hl (by norm_num) (by norm_num) (by norm_num)⟩⟩

end OmegaMat
