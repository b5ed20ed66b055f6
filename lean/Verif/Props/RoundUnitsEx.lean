import Verif.Props.SolveAccuracy
import Verif.Props.UnitsEx

/-!
# Theorems on vertical solves in floating point (C124) and on units (C143) applied to concrete cases
-/

set_option linter.unusedSectionVars false

namespace VertSolve
open FloatLike Fzero Interp Traj
variable {rnd : ℝ → ℝ}

/-- the cast of the examples, with the equation of state `s - t` -/
theorem ex_dom (R : BinRound rnd) {pr : ℝ → ℝ} (h : ∀ x, 0 ≤ x → x ≤ 4 → 0 ≤ pr x ∧ pr x ≤ 4) : InDom .linear (exCastR rnd) (exA 1) (exA (4 - 1)) exBox.In pr := by
  obtain ⟨_, _, _, _, hin⟩ := (exCastBox R).inside R.toStdRound .linear
  intro x s t h1 h2 h3 h4
  obtain ⟨p1, p2⟩ := h x (by norm_num [exA] at h1; exact h1) (by norm_num [exA] at h2; linarith)
  exact ((hin x h1 h2).2.2.2 s t h3 h4).1 _ p1 p2

theorem ex_eos (R : BinRound rnd) : EosR rnd (fun s t _ => s - t) (fun s t _ => rnd (s - t)) exBox.In := (exEosBox R.toStdRound).val

/-- potential surface through `s - t = 29` -/
example (R : BinRound rnd) : ∃ r, vertsolve1 (100 + 13) (Rfl.fin (1 / 10)) .linear
    (fun P Sp Tp => zeroPotential (fun s t _ => s - t) P Sp Tp (Rfl.fin 2) (Rfl.fin 29)) (exCastR rnd) = .ret r ∧
    SolvedR .linear (exCastR rnd) (exA 1) (exA 3) (fun s t _ => rnd (s - t) - 29) (1 / 10) r :=
  potential_rounded R .linear (ex_eos R) exGoodR (exCastBox R).rep.1 (exCastBox R).rep.2 (refP := 2) (isoval := 29) (tol := 1 / 10)
    (ex_dom R fun _ _ _ => by norm_num) (by norm_num) 100 (by norm_num [exA])

/-- specific volume anomaly surface with the reference 35, 5 -/
example (R : BinRound rnd) : ∃ r, vertsolve1 (100 + 13) (Rfl.fin (1 / 10)) .linear
    (fun P Sp Tp => zeroAnomaly (fun s t _ => s - t) P Sp Tp (Rfl.fin 35, Rfl.fin 5) (Rfl.fin 0)) (exCastR rnd) = .ret r ∧
    SolvedR .linear (exCastR rnd) (exA 1) (exA 3) (fun s t _ => rnd (rnd (s - t) - rnd (35 - 5)) - 0) (1 / 10) r :=
  anomaly_rounded R .linear (ex_eos R) exGoodR (exCastBox R).rep.1 (exCastBox R).rep.2 (refS := 35) (refT := 5) (isoval := 0) (tol := 1 / 10)
    (ex_dom R fun _ h1 h2 => ⟨h1, h2⟩) (fun p h1 h2 => ⟨by norm_num [exBox], by norm_num [exBox], by norm_num [exBox], by norm_num [exBox],
      by norm_num [exA] at h1; exact h1, by norm_num [exA] at h2; norm_num [exBox]; linarith⟩) (by norm_num) 100 (by norm_num [exA])

/-- the bottle that is heavier by 1/2 than the bottle 35, 7 at the pressure 1 -/
example (R : BinRound rnd) : ∃ r, omegaSolve1 (100 + 13) (Rfl.fin (1 / 10)) .linear (fun s t _ => s - t) (Rfl.fin (1 / 2)) (Rfl.fin 35, Rfl.fin 7, Rfl.fin 1) (exCastR rnd) = .ret r ∧
    SolvedR .linear (exCastR rnd) (exA 1) (exA 3) (fun s t _ => rnd (s - t) - rnd (rnd (35 - 7) + 1 / 2)) (1 / 10) r :=
  omega_rounded R .linear (ex_eos R) exGoodR (exCastBox R).rep.1 (exCastBox R).rep.2 (phi := 1 / 2) (s0 := 35) (t0 := 7) (p0 := 1) (tol := 1 / 10)
    (ex_dom R fun _ _ _ => by norm_num) (by norm_num) (by norm_num [Box.In, exBox]) R.one (by norm_num) 100 (by norm_num [exA])

end VertSolve

namespace UnitChange
open FloatLike Interp Traj
open Fl hiding nan

/-- A neutral trajectory in Pa, Kelvin and salinity per one. -/
example (fuel : ℕ) (cs : List (Cast (Fl ℚ))) : ∃ eos', (exChange ℚ).Eos (fun s t _ => s - t) eos' ∧
    neutralTrajectory fuel (fin 1) eos' .pchip (fin 20000) (cs.map (exChange ℚ).cast) =
      (neutralTrajectory fuel (fin (1 / 10000)) (fun s t _ => s - t) .pchip (fin 2) cs).map (List.map (exChange ℚ).stp) := by
  obtain ⟨eos', he⟩ := eos_exists (exChange ℚ) exChange_pos fun s t _ => s - t
  refine ⟨eos', he, ?_⟩
  have := trajectory_units exChange_pos he fuel (fin (1 / 10000)) .pchip (fin 2) cs
  have e1 : (exChange ℚ).P (fin (1 / 10000)) = fin 1 := by decide +kernel
  have e2 : (exChange ℚ).P (fin 2) = fin 20000 := by decide +kernel
  rw [e1, e2] at this
  exact this

/-- A potential surface with the reference 2000 dbar, pinned at 1000 dbar on the cast 0. -/
example (fuel : ℕ) (casts : ℕ → Cast (Fl ℚ)) (N : ℕ) : ∃ eos', (exChange ℚ).Eos (fun s t _ => s - t) eos' ∧
    Isopycnal.isopycnal fuel ((exChange ℚ).P (fin 1)) .linear eos' .potential (.float (fin 20000000)) none (some 0) (.float (fin 10000000)) (fun n => (exChange ℚ).cast (casts n)) N =
      isoMap (fun r => (fun n => (exChange ℚ).stp (r.1 n), (exChange ℚ).ref r.2.1, (exChange ℚ).iso .potential r.2.2))
        (Isopycnal.isopycnal fuel (fin 1) .linear (fun s t _ => s - t) .potential (.float (fin 2000)) none (some 0) (.float (fin 1000)) casts N) := by
  obtain ⟨eos', he⟩ := eos_exists (exChange ℚ) exChange_pos fun s t _ => s - t
  refine ⟨eos', he, ?_⟩
  have := isopycnal_units exChange_pos he fuel (fin 1) .linear .potential (.float (fin 2000)) none (some 0) (.float (fin 1000)) casts N
  have e1 : (exChange ℚ).P (fin 2000) = fin 20000000 := by decide +kernel
  have e2 : (exChange ℚ).P (fin 1000) = fin 10000000 := by decide +kernel
  have e3 : (exChange ℚ).ref (.float (fin 2000)) = .float (fin 20000000) := by rw [← e1]; rfl
  have e4 : (exChange ℚ).pinP (.float (fin 1000)) = .float (fin 10000000) := by rw [← e2]; rfl
  rw [e3, e4] at this
  exact this

end UnitChange
