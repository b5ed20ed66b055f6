import Verif.Props.Omega
import Verif.Props.OmegaSolver

/-!
# The theorems on the matrix problem and on the loop of `omega_surf` applied to concrete cases
-/

namespace OmegaMat
open FloatLike
open Fl hiding nan

/-- Salinities 0, 1, 3 at the casts 0, 1, 2 of the triangle `demoE`, with exact solvers: the correction exists, is unique, minimises the cost and lowers it. -/
example : ∃ (f : ℕ → (ℕ → ℕ → Fl ℚ) → (ℕ → Fl ℚ) → ℕ → Fl ℚ) (φ : ℕ → ℚ) (ε : ℕ × ℕ → ℚ),
    poisson f (fun _ _ _ => (.fin 1, .fin 0)) (fun n => if n = 0 then .fin 0 else if n = 1 then .fin 1 else .fin 3) (fun _ => .fin 0) (fun _ => .fin 0) (demoE.map Prod.fst)
      (.arr (demoE.map fun x => .fin x.2)) [0, 1, 2] 1 = .ok (fun n => if n ∈ [0, 1, 2] then .fin (φ n) else FloatLike.nan) ∧
    (∀ ψ, cost demoE [0, 1, 2] ε φ ≤ cost demoE [0, 1, 2] ε ψ) ∧ cost demoE [0, 1, 2] ε φ ≤ ((inner demoE [0, 1, 2]).map fun x => x.2 * ε x.1 ^ 2).sum := by
  obtain ⟨⟨f, hf⟩, -⟩ := exact_solvers_exist (α := ℚ)
  obtain ⟨φ, h1, -, h3, -⟩ := poisson_spec demo_region hf
  exact ⟨f, φ, _, h1, fun ψ => (poisson_minimises demo_region h3 ψ).1, (poisson_reduces demo_region h3).1⟩

/-- The same three casts at the same salinity: nothing to correct. -/
example : ∃ f : ℕ → (ℕ → ℕ → Fl ℚ) → (ℕ → Fl ℚ) → ℕ → Fl ℚ,
    poisson f (fun _ _ _ => (.fin 1, .fin 0)) (fun _ => .fin 35) (fun _ => .fin 0) (fun _ => .fin 0) (demoE.map Prod.fst) (.arr (demoE.map fun x => .fin x.2)) [0, 1, 2] 1 =
      .ok (fun n => if n ∈ [0, 1, 2] then .fin 0 else FloatLike.nan) := by
  obtain ⟨⟨f, hf⟩, -⟩ := exact_solvers_exist (α := ℚ)
  refine ⟨f, poisson_neutral (ε := fun _ => 0) (eos := fun _ _ _ => (.fin 1, .fin 0)) (s := fun _ => .fin 35) (t := fun _ => .fin 0) (p := fun _ => .fin 0) ?_ (fun _ _ => rfl) hf⟩
  exact ⟨demo_region.nodup, demo_region.ref, demo_region.two, demo_region.pos, demo_region.conn, by decide +kernel⟩

/-- The two solvers with square roots of weights 1, 2, 1. -/
example : ∃ (f : ℕ → (ℕ → ℕ → Fl ℚ) → (ℕ → Fl ℚ) → ℕ → Fl ℚ) (g : ℕ → ℕ → (ℕ → ℕ → Fl ℚ) → (ℕ → Fl ℚ) → ℕ → Fl ℚ),
    gradient g (fun _ _ _ => (.fin 1, .fin 0)) (fun n => if n = 0 then .fin 0 else if n = 1 then .fin 1 else .fin 3) (fun _ => .fin 0) (fun _ => .fin 0) [(0, 1), (1, 2), (2, 0)]
      (.arr [.fin 1, .fin 2, .fin 1]) [0, 1, 2] 1 =
    poisson f (fun _ _ _ => (.fin 1, .fin 0)) (fun n => if n = 0 then .fin 0 else if n = 1 then .fin 1 else .fin 3) (fun _ => .fin 0) (fun _ => .fin 0) [(0, 1), (1, 2), (2, 0)]
      (.arr [.fin (1 ^ 2), .fin (2 ^ 2), .fin (1 ^ 2)]) [0, 1, 2] 1 := by
  obtain ⟨⟨f, hf⟩, g, hg⟩ := exact_solvers_exist (α := ℚ)
  have e : ∀ x ∈ squared demoE, ∃ y ∈ demoE, y.1 = x.1 := by decide +kernel
  have e' : ∀ y ∈ demoE, ∃ x ∈ squared demoE, x.1 = y.1 := by decide +kernel
  refine ⟨f, g, gradient_eq_poisson demoE (ε := fun x => if x = (0, 1) then 1 else if x = (1, 2) then 2 else -3) ?_ hf hg⟩
  refine ⟨demo_region.nodup, demo_region.ref, demo_region.two, by decide +kernel, fun n hn => ?_, by decide +kernel⟩
  refine Relation.ReflTransGen.mono (fun i j h => ?_) _ _ (demo_region.conn n hn)
  obtain ⟨h1, h2, x, hx, h3⟩ := h
  obtain ⟨y, hy, h4⟩ := e' x hx
  exact ⟨h1, h2, y, hy, by rw [h4]; exact h3⟩

end OmegaMat

namespace Omega
open FloatLike Bfs
open Fl hiding nan

/-- `demo` with no neighbours beyond its two casts. -/
def pair (m : Fl ℚ) (k : ℕ) : Cfg (Fl ℚ) := { demo m k with G := ⟨fun n => min n 2, fun n => 1 - n⟩ }

theorem pair_nbrs (m : Fl ℚ) (k a b : ℕ) (h : b ∈ (pair m k).G.nbrs a) : a < 2 ∧ b = 1 - a := by
  simp only [pair, Csr.nbrs, List.mem_map, List.mem_range, List.mem_range'_1] at h
  omega

theorem pair_sym (m : Fl ℚ) (k a b : ℕ) (h : b ∈ (pair m k).G.nbrs a) : a ∈ (pair m k).G.nbrs b := by
  obtain ⟨h1, rfl⟩ := pair_nbrs _ _ _ _ h
  have : a = 0 ∨ a = 1 := by omega
  rcases this with rfl | rfl <;> simp [pair, Csr.nbrs]

theorem pair_ok (m : Fl ℚ) (k : ℕ) : Ok (pair m k) := by
  refine ⟨?_, by show 0 < 2; omega, by show 2 < 200; omega⟩
  intro i hi n hn
  have := pair_nbrs _ _ _ _ hn
  show n < 2
  omega

theorem pair_run : (match omega (pair .ninf 2) (.array fun _ => .fin 2) with
    | .ok s => some (s.last, (s.stp 0).2.2, (s.stp 1).2.2) | _ => none) = some (2, .fin 2, .fin 1) := by decide +kernel

theorem pair_state : ∃ s, omega (pair .ninf 2) (.array fun _ => .fin 2) = .ok s ∧ s.last = 2 := by
  have h := pair_run
  generalize omega (pair .ninf 2) (.array fun _ => .fin 2) = r at h
  cases r with
  | ok s => simp only [Option.some.injEq, Prod.mk.injEq] at h; exact ⟨s, rfl, h.1⟩
  | _ => cases h

/-- The run goes through the pinning point, its region is connected, and the diagnostics of its last pass are lost. -/
example : ∃ s, omega (pair .ninf 2) (.array fun _ => .fin 2) = .ok s ∧
    (∃ s0 t0, s.stp 0 = (s0, t0, .fin 2)) ∧ (s.last ≤ 2 ∧ 1 ≤ s.last) ∧
    (∃ qu : List ℕ, 0 ∈ qu ∧ ∀ n ∈ qu, Reach (pair .ninf 2).G (fun k => decide (k ∈ qu)) 0 n) ∧
    (trim s).phiMAV[s.last]? = none ∧ ((trim s).eRMS).length = s.last + 1 := by
  obtain ⟨s, h, hl⟩ := pair_state
  refine ⟨s, h, ?_, ?_, ?_, ?_, ?_⟩
  · obtain ⟨s0, t0, -, -, h3⟩ := omega_pinned rfl (pair_ok _ _) (demo_solver .ninf 2) rfl h
    exact ⟨s0, t0, h3⟩
  · obtain ⟨h1, h2, -⟩ := omega_iterations h
    exact ⟨h1, h2⟩
  · obtain ⟨qu, h1, h2, -⟩ := omega_connected (pair_ok _ _) (demo_solver .ninf 2) (pair_sym _ _) rfl h (by omega)
    exact ⟨qu, h1, h2⟩
  · exact (omega_diags_false rfl h).1
  · obtain ⟨stp0, it, -, -, -, h4, -⟩ := omega_diags_partial rfl h
    rw [h4]
    simp

/-- With tolerances of zero both passes are made: `sqrt` here returns 0 on negative numbers and its argument otherwise. -/
example : ∃ s, omega { pair .ninf 2 with sqrt := fun x => if lt x (lit 0) then lit 0 else x } (.array fun _ => .fin 2) = .ok s ∧ s.last = 2 := by
  have h : (match omega { pair .ninf 2 with sqrt := fun x => if lt x (lit 0) then lit 0 else x } (.array fun _ => .fin 2) with
    | .ok _ => true | _ => false) = true := by decide +kernel
  generalize hr : omega { pair .ninf 2 with sqrt := fun x => if lt x (lit 0) then lit 0 else x } (.array fun _ => .fin 2) = r at h
  cases r with
  | ok s =>
    refine ⟨s, rfl, omega_no_tolerance ?_ ?_ ?_ hr⟩
    · simp [pair, demo]
    · simp [pair, demo]
    · intro x
      dsimp only
      split_ifs with hx
      · simp
      · simpa using hx
  | _ => cases h

/-- A mixed layer deeper than the pinning point: the second pass finds no region. -/
example : omega (pair (.fin 3) 2) (.array fun _ => .fin 2) = .indexError := by
  have h0 : (match init (pair (.fin 3) 2) (.array fun _ => .fin 2) with
    | .ok s => (match step (pair (.fin 3) 2) (.fin 2) 1 s with | .ok r => small (pair (.fin 3) 2) r | _ => true) | _ => true) = false := by
    decide +kernel
  generalize hi : init (pair (.fin 3) 2) (.array fun _ => .fin 2) = a at h0
  cases a with
  | ok stp =>
    dsimp only at h0
    generalize hs : step (pair (.fin 3) 2) (.fin 2) 1 stp = b at h0
    cases b with
    | ok r => exact omega_region_empty_false rfl (pair_ok _ _) (demo_solver (.fin 3) 2) rfl (by decide +kernel) hi hs h0 (by decide)
    | _ => cases h0
  | _ => cases h0

/-- No mixed layer: the region is never empty. -/
example : omega (pair .ninf 7) (.array fun _ => .fin 2) ≠ .indexError :=
  omega_region_nonempty_partial rfl (pair_ok _ _) (demo_solver .ninf 7)
    (poisson_total (F := Fl ℚ) (fun _ L D i => if i = 0 then .fin 0 else D 1 / L 1 1) (fun _ _ _ => (.fin 1, .fin 0)) [(0, 1)] (.arr [.fin 1])) rfl (by decide +kernel)

/-- The pinning point stays in one pass, and casts outside of the region become `nan`. -/
example : ∃ r, step (pair .ninf 2) (.fin 2) 1 (fun n => (.fin (2 + n), .fin 0, .fin 2)) = .ok r ∧ r.new 0 = (.fin (2 + (0 : ℕ)), .fin 0, .fin 2) ∧
    0 ∈ r.qu ∧ ∀ n < 2, n ∉ r.qu → r.new n = (.nan, .nan, .nan) := by
  have h : (match step (pair .ninf 2) (.fin 2) 1 (fun n => (.fin (2 + n), .fin 0, .fin 2)) with | .ok _ => true | _ => false) = true := by decide +kernel
  generalize hr : step (pair .ninf 2) (.fin 2) 1 (fun n => (.fin (2 + n), .fin 0, .fin 2)) = r at h
  cases r with
  | ok r =>
    refine ⟨r, rfl, ?_⟩
    obtain ⟨h1, -⟩ := step_pinned rfl (pair_ok _ _) (demo_solver .ninf 2) (s0 := .fin (2 + (0 : ℕ))) (t0 := .fin 0) rfl hr
    obtain ⟨h2, -, -, h3⟩ := step_region rfl (by simp) (pair_ok _ _) (demo_solver .ninf 2) (s0 := .fin (2 + (0 : ℕ))) (t0 := .fin 0) rfl hr
    exact ⟨h1, h2, h3⟩
  | _ => cases h

end Omega
