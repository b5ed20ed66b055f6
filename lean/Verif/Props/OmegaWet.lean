import Verif.Props.OmegaML
import Mathlib.Tactic.FieldSimp

/-! # Omega surfaces: when wetting happens (C127), and the units of the tolerance (C128) -/

namespace Omega
open FloatLike Fzero Traj VertSolve Bfs
open Fl hiding nan

set_option linter.unusedSectionVars false

variable {F : Type*} [FloatLike F]

/-- The number of newly wet casts and the surface handed to the matrix solver, with and without wetting. -/
theorem step_wetting (hnan : isFinite (nan : F) = false) {c : Cfg F} (C : Ok c) {pinP : F} {iter : ℕ} {stp : Surf F} {r : Iter F}
    (h : step c pinP iter stp = .ok r) :
    (c.startWet ≤ iter ∧ iter ≤ c.stopWet → ∃ W, PerimSpec c.G c.ocean c.N c.pin c.nrep (removeML c iter stp) r.old r.newly W ∧
      ∀ n, n ∈ r.qu ↔ n < c.N ∧ wet r.old n = true) ∧
    (¬ (c.startWet ≤ iter ∧ iter ≤ c.stopWet) → r.newly = 0 ∧ r.old = removeML c iter stp ∧
      ∀ n, n ∈ r.qu ↔ Reach c.G (wet (removeML c iter stp)) c.pin n) := by
  unfold step at h
  obtain ⟨⟨stp1, qu, nw⟩, h1, h2⟩ := bind_ok h
  obtain ⟨phi, h3, h4⟩ := bind_ok h2
  obtain ⟨stp2, h5, h6⟩ := bind_ok h4
  cases h6
  clear h2 h3 h4 h5
  dsimp only
  unfold region at h1
  split_ifs at h1 with hw
  · refine ⟨fun _ => ?_, fun h => absurd hw h⟩
    obtain ⟨⟨s1, nw'⟩, h7, h8⟩ := bind_ok h1
    cases h8
    unfold wetting at h7
    obtain ⟨r, h3, h4⟩ := bind_ok h7
    cases h4
    have h3 := ofOption_ok h3
    obtain ⟨r', W, h5, S⟩ := wetPerim_spec hnan c.G c.ocean c.N c.pin (removeML c iter stp) C.graph C.pin c.garbage c.nrep c.fuel C.fuel
    rw [h3] at h5
    cases h5
    refine ⟨W, S, fun n => ?_⟩
    rw [List.mem_filter, List.mem_range]
  · refine ⟨fun h => absurd h hw, fun _ => ?_⟩
    obtain ⟨q, h7, h8⟩ := bind_ok h1
    cases h8
    have h7 := ofOption_ok h7
    obtain ⟨q', h3, _, _, h6, _⟩ := bfs_component c.G c.N c.pin (wet (removeML c iter stp)) C.graph C.pin c.fuel C.fuel
    have : q = q' := by
      have : some q = some q' := by rw [← h7, ← h3]
      cases this; rfl
    subst this
    exact ⟨rfl, rfl, fun n => by rw [List.mem_insertionSort]; exact h6 n⟩

/-- **C127** In passes from `ITER_START_WETTING` to `ITER_STOP_WETTING`, and only in those, the surface is grown at its perimeter
as `PerimSpec` says; in the other passes nothing is counted as newly wet and dry casts stay dry. -/
theorem omega_wetting_window (hnan : isFinite (nan : F) = false) (hnz : feq (nan : F) (lit 0) = false) {c : Cfg F} (C : Ok c)
    (hs : PinSolver c.solver) {p0 : PInit F} (hf : isFinite (pinPOf c p0) = true) {s : State F} (h : omega c p0 = .ok s) :
    ∃ stp0 it, init c p0 = .ok stp0 ∧ Run c (pinPOf c p0) stp0 it s.last ∧ s.stp = surfAt stp0 it s.last ∧ ∀ k < s.last,
      (c.startWet ≤ k + 1 ∧ k + 1 ≤ c.stopWet → ∃ W,
        PerimSpec c.G c.ocean c.N c.pin c.nrep (removeML c (k + 1) (surfAt stp0 it k)) (it k).old (it k).newly W) ∧
      (¬ (c.startWet ≤ k + 1 ∧ k + 1 ≤ c.stopWet) → (it k).newly = 0 ∧
        ∀ n < c.N, isFinite (surfAt stp0 it k n).2.2 = false → surfAt stp0 it (k + 1) n = (nan, nan, nan)) := by
  obtain ⟨_, _, stp0, it, h1, hrun, hst, _⟩ := omega_iterations h
  refine ⟨stp0, it, h1, hrun, hst, fun k hk => ?_⟩
  obtain ⟨s0, t0, _, _, e⟩ := init_pinned hnan C hf h1
  have hpin : ∀ k ≤ s.last, surfAt stp0 it k c.pin = (s0, t0, pinPOf c p0) := by
    intro k
    induction k with
    | zero => intro _; exact e
    | succ k ih =>
      intro hk
      exact (step_pinned hnan C hs (ih (by omega)) (hrun k (by omega))).1
  obtain ⟨i1, i2⟩ := step_wetting hnan C (hrun k hk)
  refine ⟨fun hw => ?_, fun hw => ⟨(i2 hw).1, fun n hn hd => ?_⟩⟩
  · obtain ⟨W, hW, _⟩ := i1 hw
    exact ⟨W, hW⟩
  · exact step_dry hnan hnz C hs hw (hpin k hk.le) (hrun k hk) hn (Or.inl hd)

/-- **C127** "Set to `np.inf` (`ITER_MAX + 1` would also do) to deactivate": then casts that are dry in the initial surface are NaN
in the surface returned. -/
theorem omega_no_wetting (hnan : isFinite (nan : F) = false) (hnz : feq (nan : F) (lit 0) = false) {c : Cfg F} (C : Ok c)
    (hs : PinSolver c.solver) (hw : c.iterMax < c.startWet) {p0 : PInit F} (hf : isFinite (pinPOf c p0) = true) {s : State F}
    (h : omega c p0 = .ok s) (hl : 1 ≤ s.last) :
    ∃ stp0, init c p0 = .ok stp0 ∧ ∀ n < c.N, isFinite (stp0 n).2.2 = false → s.stp n = (nan, nan, nan) := by
  have hmax := (omega_iterations h).1
  obtain ⟨stp0, it, h1, _, h3, h4⟩ := omega_wetting_window hnan hnz C hs hf h
  refine ⟨stp0, h1, fun n hn hd => ?_⟩
  have key : ∀ k, k < s.last → surfAt stp0 it (k + 1) n = (nan, nan, nan) := by
    intro k
    induction k with
    | zero => intro hk; exact ((h4 0 hk).2 (by omega)).2 n hn hd
    | succ k ih =>
      intro hk
      refine ((h4 (k + 1) hk).2 (by omega)).2 n hn ?_
      rw [ih (by omega)]
      exact hnan
  rw [h3]
  have := key (s.last - 1) (by omega)
  rwa [show s.last - 1 + 1 = s.last by omega] at this

/-- Three casts in a row; the last is dry at first. -/
def demoWet (start : ℕ) : Cfg (Fl ℚ) := { demo .ninf 2 with startWet := start }

/-- With wetting from pass 3 on and 2 passes, the dry cast stays dry; with wetting from pass 1 it is wetted. -/
example : (match omega (demoWet 3) (.array fun n => if n = 0 then .fin 2 else Fl.nan) with
      | .ok s => some (s.last, (s.stp 0).2.2, (s.stp 1).2.2) | _ => none) = some (2, .fin 2, Fl.nan) ∧
    (match omega (demoWet 1) (.array fun n => if n = 0 then .fin 2 else Fl.nan) with
      | .ok s => some (s.last, (s.stp 0).2.2, (s.stp 1).2.2) | _ => none) = some (2, .fin 2, .fin 1) ∧
    Ok (demoWet 3) ∧ PinSolver (demoWet 3).solver ∧ (demoWet 3).iterMax < (demoWet 3).startWet :=
  ⟨by decide +kernel, by decide +kernel, ⟨(demo_ok .ninf 2).graph, (demo_ok .ninf 2).pin, (demo_ok .ninf 2).fuel⟩, demo_solver .ninf 2,
    by decide⟩

/-! ## C128: the tolerance in density units -/

section units
variable {α : Type*} [Field α] [LinearOrder α] [IsStrictOrderedRing α]

/-- a number or NaN -/
def FinOrNan (x : Fl α) : Prop := x = Fl.nan ∨ ∃ a, x = .fin a

/-- The mean of the absolute values of the numbers in a list. -/
def meanAbs (l : List α) : α := (l.map fun x => |x|).sum / l.length

/-- The numbers among the values of `f` at `0 .. N-1`. -/
def nums (N : ℕ) (f : ℕ → Fl α) : List α := (List.range N).filterMap fun n => match f n with | .fin a => some a | _ => none

theorem foldl_fin (l : List α) : ∀ a : α, (l.map Fl.fin).foldl (· + ·) (Fl.fin a) = .fin (a + l.sum) := by
  induction l with
  | nil => intro a; simp
  | cons x l ih =>
    intro a
    rw [List.map_cons, List.foldl_cons, fin_add, ih, List.sum_cons, add_assoc]

/-- `np.nanmean(abs(f))` in exact arithmetic. -/
theorem nanmean_abs {N : ℕ} {f : ℕ → Fl α} (h : ∀ n, FinOrNan (f n)) :
    nanmean N (fun n => FloatLike.abs (f n)) = if nums N f = [] then Fl.nan else .fin (meanAbs (nums N f)) := by
  have e : ((List.range N).map fun n => FloatLike.abs (f n)).filter (fun x => !isNaN x) =
      ((nums N f).map fun x => |x|).map Fl.fin := by
    unfold nums
    generalize List.range N = l
    induction l with
    | nil => rfl
    | cons n l ih =>
      rw [List.map_cons, List.filterMap_cons]
      rcases h n with hn | ⟨a, hn⟩
      · rw [hn, List.filter_cons_of_neg (by show ¬ ((!isNaN (Fl.nan : Fl α)) = true); simp)]
        exact ih
      · rw [hn, List.filter_cons_of_pos (by show (!isNaN (FloatLike.abs (Fl.fin a))) = true; simp)]
        rw [List.map_cons, List.map_cons, ← ih]
        simp
  unfold nanmean
  rw [e]
  simp only [List.length_map]
  by_cases h0 : nums N f = []
  · simp [h0]
  · rw [if_neg h0, if_neg (by simpa using h0)]
    have hl : ((nums N f).length : α) ≠ 0 := by
      exact_mod_cast (by simpa using h0)
    unfold Ntp.sum
    rw [lit_eq, lit_eq, Rat.cast_zero, foldl_fin, zero_add, Rat.cast_natCast, fin_div _ _ hl]
    rfl

theorem FinOrNan.mul {x : Fl α} (h : FinOrNan x) (w : α) : FinOrNan (x * .fin w) := by
  rcases h with rfl | ⟨a, rfl⟩
  · left; rfl
  · right; exact ⟨a * w, by simp⟩

/-- Weights between `lo` and `hi` change the mean of the absolute values by factors between `lo` and `hi`. -/
theorem meanAbs_weight {N : ℕ} {f : ℕ → Fl α} (h : ∀ n, FinOrNan (f n)) {w : ℕ → α} {lo hi : α} (h0 : 0 ≤ lo)
    (hw : ∀ n < N, lo ≤ w n ∧ w n ≤ hi) :
    (nums N (fun n => f n * .fin (w n)) = [] ↔ nums N f = []) ∧
    lo * meanAbs (nums N f) ≤ meanAbs (nums N fun n => f n * .fin (w n)) ∧
    meanAbs (nums N fun n => f n * .fin (w n)) ≤ hi * meanAbs (nums N f) := by
  have key : (nums N (fun n => f n * .fin (w n))).length = (nums N f).length ∧
      lo * ((nums N f).map fun x => |x|).sum ≤ ((nums N fun n => f n * .fin (w n)).map fun x => |x|).sum ∧
      ((nums N fun n => f n * .fin (w n)).map fun x => |x|).sum ≤ hi * ((nums N f).map fun x => |x|).sum := by
    have hw' : ∀ n ∈ List.range N, lo ≤ w n ∧ w n ≤ hi := fun n hn => hw n (List.mem_range.mp hn)
    unfold nums
    generalize List.range N = l at hw'
    induction l with
    | nil => simp
    | cons n l ih =>
      obtain ⟨i1, i2, i3⟩ := ih fun n hn => hw' n (List.mem_cons_of_mem _ hn)
      rcases h n with hn | ⟨a, hn⟩
      · have e : f n * Fl.fin (w n) = Fl.nan := by rw [hn]; rfl
        simp only [List.filterMap_cons, hn, e]
        exact ⟨i1, i2, i3⟩
      · simp only [List.filterMap_cons, hn, fin_mul, List.map_cons, List.sum_cons, List.length_cons, mul_add]
        have hn' := hw' n List.mem_cons_self
        have ha := abs_nonneg a
        have e2 : |a * w n| = |a| * w n := by rw [abs_mul, abs_of_nonneg (h0.trans hn'.1)]
        refine ⟨congrArg (· + 1) i1, ?_, ?_⟩
        · rw [e2]; nlinarith [mul_le_mul_of_nonneg_left hn'.1 ha]
        · rw [e2]; nlinarith [mul_le_mul_of_nonneg_left hn'.2 ha]
  obtain ⟨k1, k2, k3⟩ := key
  refine ⟨?_, ?_, ?_⟩
  · rw [← List.length_eq_zero_iff, ← List.length_eq_zero_iff, k1]
  · unfold meanAbs
    rw [k1, ← mul_div_assoc]
    exact div_le_div_of_nonneg_right k2 (Nat.cast_nonneg _)
  · unfold meanAbs
    rw [k1, ← mul_div_assoc]
    exact div_le_div_of_nonneg_right k3 (Nat.cast_nonneg _)

/-- **C128, partial.** `eos` returns specific volume and densities are between 1000 and `R`.  If the convergence test on `ϕ` holds then
the mean absolute perturbation of density, `ϕ ρ²` to first order, is below `(R/1000)²` times `TOL_LRPD_MAV`; and if that mean is below
`TOL_LRPD_MAV` then the test holds.  Missing: the factor `(R/1000)²`, which is needed (`tol_units_false`). -/
theorem tol_units_partial {c : Cfg (Fl α)} {r : Iter (Fl α)} {eos : Fl α → Fl α → Fl α → Fl α} {tol R : α} {rho : ℕ → α}
    (ht : 0 ≤ tol) (hphi : ∀ n, FinOrNan (r.phi n)) (hrho : ∀ n < c.N, 1000 ≤ rho n ∧ rho n ≤ R)
    (hv : lt (eos (lit (345/10)) (lit 3) (lit 1000)) (lit 1) = true) :
    (lt (phiMAV c r) (tolLRPD eos (.fin tol)) = true →
      lt (nanmean c.N fun n => FloatLike.abs (r.phi n * .fin (rho n ^ 2))) (.fin ((R / 1000) ^ 2 * tol)) = true) ∧
    (lt (nanmean c.N fun n => FloatLike.abs (r.phi n * .fin (rho n ^ 2))) (.fin tol) = true →
      lt (phiMAV c r) (tolLRPD eos (.fin tol)) = true) := by
  have ht' : tolLRPD eos (.fin tol) = .fin (tol / 1000000) := by
    unfold tolLRPD
    rw [if_pos hv, lit_eq, fin_div _ _ (by norm_num)]
    norm_num
  obtain ⟨h1, h2, h3⟩ := meanAbs_weight (N := c.N) hphi (w := fun n => rho n ^ 2) (lo := 1000 ^ 2) (hi := R ^ 2) (by positivity)
    (fun n hn => ⟨pow_le_pow_left₀ (by norm_num) (hrho n hn).1 2,
      pow_le_pow_left₀ (by linarith [(hrho n hn).1]) (hrho n hn).2 2⟩)
  rw [ht']
  unfold phiMAV
  rw [nanmean_abs hphi, nanmean_abs (fun n => (hphi n).mul _)]
  by_cases h0 : nums c.N r.phi = []
  · rw [if_pos h0, if_pos (h1.mpr h0)]
    constructor <;> intro h <;> cases h
  · rw [if_neg h0, if_neg (fun h => h0 (h1.mp h))]
    simp only [lt_fin, decide_eq_true_eq]
    generalize meanAbs (nums c.N r.phi) = m at *
    generalize meanAbs (nums c.N fun n => r.phi n * .fin (rho n ^ 2)) = m' at *
    have hR : 0 < R ^ 2 := by
      by_cases hN : ∃ n, n < c.N
      · obtain ⟨n, hn⟩ := hN
        have := hrho n hn
        have : 0 < R := by linarith
        positivity
      · push Not at hN
        have : c.N = 0 := by have := hN 0; omega
        rw [this] at h0
        exact absurd rfl h0
    constructor
    · intro h
      refine lt_of_le_of_lt h3 ?_
      rw [div_pow, div_mul_eq_mul_div, lt_div_iff₀ (by positivity)]
      rw [lt_div_iff₀ (by norm_num)] at h
      nlinarith
    · intro h
      rw [lt_div_iff₀ (by norm_num)]
      linarith

/-- **C128 is false.** "Units are [kg m-3], even if `eos` returns a specific volume": with density 1030 everywhere the test holds though
the density perturbation exceeds `TOL_LRPD_MAV`. -/
theorem tol_units_false : ∃ (c : Cfg (Fl ℚ)) (r : Iter (Fl ℚ)) (eos : Fl ℚ → Fl ℚ → Fl ℚ → Fl ℚ),
    eos (lit (345/10)) (lit 3) (lit 1000) = .fin (1 / 1030) ∧
    lt (phiMAV c r) (tolLRPD eos (.fin (1 / 10000000))) = true ∧
    lt (.fin (1 / 10000000)) (nanmean c.N fun n => FloatLike.abs (r.phi n * .fin (1030 ^ 2))) = true :=
  ⟨demo .ninf 2, ⟨fun _ => (.fin 0, .fin 0, .fin 0), fun _ => (.fin 0, .fin 0, .fin 0), [0, 1], fun _ => .fin (97 / 1000000000000000), 0⟩,
    fun _ _ _ => .fin (1 / 1030), rfl, by decide +kernel, by decide +kernel⟩

/-- When `eos` returns density the tolerance is used as it is. -/
theorem tol_density {eos : F → F → F → F} (hv : lt (eos (lit (345/10)) (lit 3) (lit 1000)) (lit 1) = false) (tol : F) :
    tolLRPD eos tol = tol := by
  unfold tolLRPD
  rw [hv]
  simp

example : ∃ (c : Cfg (Fl ℚ)) (r : Iter (Fl ℚ)) (eos : Fl ℚ → Fl ℚ → Fl ℚ → Fl ℚ), (∀ n, FinOrNan (r.phi n)) ∧
    lt (eos (lit (345/10)) (lit 3) (lit 1000)) (lit 1) = true ∧ lt (phiMAV c r) (tolLRPD eos (.fin (1 / 10000000))) = true :=
  ⟨demo .ninf 2, ⟨fun _ => (.fin 0, .fin 0, .fin 0), fun _ => (.fin 0, .fin 0, .fin 0), [0, 1], fun _ => .fin (97 / 1000000000000000), 0⟩,
    fun _ _ _ => .fin (1 / 1030), fun _ => Or.inr ⟨_, rfl⟩, by decide +kernel, by decide +kernel⟩

end units
end Omega
