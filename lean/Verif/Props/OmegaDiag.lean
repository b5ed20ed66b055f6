import Verif.Props.OmegaTotal
import Mathlib.Algebra.Order.Chebyshev

/-! # What the diagnostics of an omega surface are (C142) -/

namespace Omega
open FloatLike Fzero Interp Traj VertSolve Bfs Finset
open Fl hiding nan

set_option linter.unusedSectionVars false

section
variable {α : Type*} [Field α] [LinearOrder α] [IsStrictOrderedRing α]

/-- `f` holds the numbers `g` on `A`, and NaN elsewhere. -/
def Holds (N : ℕ) (A : Finset ℕ) (f : ℕ → Fl α) (g : ℕ → α) : Prop :=
  A ⊆ range N ∧ ∀ n < N, (n ∈ A → f n = fin (g n)) ∧ (n ∉ A → f n = Fl.nan)

theorem Holds.list {N : ℕ} {A : Finset ℕ} {f : ℕ → Fl α} {g : ℕ → α} (h : Holds N A f g) :
    ((List.range N).map f).filter (fun x => !isNaN x) = ((List.range N).filter (· ∈ A)).map fun n => fin (g n) := by
  rw [List.filter_map]
  have e : (List.range N).filter ((fun x => !isNaN x) ∘ f) = (List.range N).filter (· ∈ A) := by
    apply List.filter_congr
    intro n hn
    obtain ⟨h1, h2⟩ := h.2 n (List.mem_range.1 hn)
    by_cases hA : n ∈ A
    · simp [h1 hA, hA]
    · simp [h2 hA, hA]
  rw [e]
  apply List.map_congr_left
  intro n hn
  obtain ⟨hn, hA⟩ := List.mem_filter.1 hn
  exact (h.2 n (List.mem_range.1 hn)).1 (by simpa using hA)

theorem Holds.finset {N : ℕ} {A : Finset ℕ} {f : ℕ → Fl α} {g : ℕ → α} (h : Holds N A f g) : ((List.range N).filter (· ∈ A)).toFinset = A := by
  ext n
  simp only [List.toFinset_filter, List.toFinset_range, mem_filter, decide_eq_true_eq]
  exact ⟨fun x => x.2, fun x => ⟨h.1 x, x⟩⟩

theorem foldl_add_fin (l : List ℕ) (g : ℕ → α) (s : α) : (l.map fun n => (fin (g n) : Fl α)).foldl (· + ·) (fin s) = fin (s + (l.map g).sum) := by
  induction l generalizing s with
  | nil => simp
  | cons n l ih => simp only [List.map_cons, List.foldl_cons, fin_add, ih, List.sum_cons, add_assoc]

theorem foldl_fmax (l : List ℕ) (g : ℕ → α) (s : α) : ∃ M, (l.map fun n => (fin (g n) : Fl α)).foldl fmax (fin s) = fin M ∧ s ≤ M ∧ (∀ n ∈ l, g n ≤ M) ∧
    (M = s ∨ ∃ n ∈ l, M = g n) := by
  induction l generalizing s with
  | nil => exact ⟨s, rfl, le_rfl, by simp, .inl rfl⟩
  | cons n l ih =>
    have e : fmax (fin s) (fin (g n)) = (fin (max s (g n)) : Fl α) := by
      unfold fmax
      rw [lt_fin]
      by_cases h : s < g n
      · rw [if_pos (decide_eq_true h), max_eq_right h.le]
      · rw [if_neg (by simpa using h), max_eq_left (not_lt.1 h)]
    obtain ⟨M, h1, h2, h3, h4⟩ := ih (max s (g n))
    refine ⟨M, by rw [List.map_cons, List.foldl_cons, e, h1], (le_max_left _ _).trans h2, ?_, ?_⟩
    · intro k hk
      rcases List.mem_cons.1 hk with rfl | hk
      · exact (le_max_right _ _).trans h2
      · exact h3 k hk
    · rcases h4 with h4 | ⟨k, hk, h4⟩
      · rcases max_choice s (g n) with h | h
        · exact .inl (h4.trans h)
        · exact .inr ⟨n, List.mem_cons_self, h4.trans h⟩
      · exact .inr ⟨k, List.mem_cons_of_mem _ hk, h4⟩

/-- `np.nanmean` is the mean of the numbers. -/
theorem nanmean_holds {N : ℕ} {A : Finset ℕ} {f : ℕ → Fl α} {g : ℕ → α} (h : Holds N A f g) (hA : A.Nonempty) :
    nanmean N f = fin ((∑ n ∈ A, g n) / A.card) := by
  have hn : ((List.range N).filter (· ∈ A)).Nodup := List.nodup_range.filter _
  have hlen : ((List.range N).filter (· ∈ A)).length = A.card := by
    rw [← List.toFinset_card_of_nodup hn, h.finset]
  have hsum : (((List.range N).filter (· ∈ A)).map g).sum = ∑ n ∈ A, g n := by
    rw [← List.sum_toFinset _ hn, h.finset]
  have hc : A.card ≠ 0 := card_ne_zero.2 hA
  unfold nanmean
  dsimp only
  rw [h.list, List.length_map, hlen, if_neg hc]
  unfold Ntp.sum
  rw [lit_eq, lit_eq, foldl_add_fin, hsum, fin_div]
  · simp
  · exact_mod_cast hc

/-- `np.nanmax` is the greatest of the numbers. -/
theorem nanmax_holds {N : ℕ} {A : Finset ℕ} {f : ℕ → Fl α} {g : ℕ → α} (h : Holds N A f g) (hA : A.Nonempty) :
    ∃ M, nanmax N f = fin M ∧ (∃ n ∈ A, M = g n) ∧ ∀ n ∈ A, g n ≤ M := by
  have hf := h.finset
  unfold nanmax
  rw [h.list]
  cases hl : (List.range N).filter (· ∈ A) with
  | nil => rw [hl] at hf; rw [← hf] at hA; simp at hA
  | cons k l =>
    rw [hl] at hf
    have hmem : ∀ n, n ∈ A ↔ n = k ∨ n ∈ l := by intro n; rw [← hf]; simp
    obtain ⟨M, h1, h2, h3, h4⟩ := foldl_fmax l g (g k)
    refine ⟨M, h1, ?_, ?_⟩
    · rcases h4 with h4 | ⟨n, hn, h4⟩
      · exact ⟨k, (hmem k).2 (.inl rfl), h4⟩
      · exact ⟨n, (hmem n).2 (.inr hn), h4⟩
    · intro n hn
      rcases (hmem n).1 hn with rfl | hn
      · exact h2
      · exact h3 n hn

theorem Holds.abs {N : ℕ} {A : Finset ℕ} {f : ℕ → Fl α} {g : ℕ → α} (h : Holds N A f g) :
    Holds N A (fun n => FloatLike.abs (f n)) fun n => |g n| := by
  refine ⟨h.1, fun n hn => ⟨fun hA => ?_, fun hA => ?_⟩⟩
  · dsimp only
    rw [(h.2 n hn).1 hA, abs_fin]
  · dsimp only
    rw [(h.2 n hn).2 hA]; rfl

theorem Holds.sq {N : ℕ} {A : Finset ℕ} {f : ℕ → Fl α} {g : ℕ → α} (h : Holds N A f g) :
    Holds N A (fun n => f n * f n) fun n => g n ^ 2 := by
  refine ⟨h.1, fun n hn => ⟨fun hA => ?_, fun hA => ?_⟩⟩
  · dsimp only
    rw [(h.2 n hn).1 hA, fin_mul, pow_two]
  · dsimp only
    rw [(h.2 n hn).2 hA]; rfl
end

/-- Specification of the diagnostics of a pass: `A` are the casts wet after it, `Δ` the change of pressure there, `R` the casts of the region, `φ` the
correction there.  The number of wet casts; the mean and the greatest absolute change of pressure and its root mean square; the mean absolute correction. -/
structure DiagSpec (c : Cfg (Fl ℝ)) (r : Iter (Fl ℝ)) (A R : Finset ℕ) (Δ φ : ℕ → ℝ) (nw : ℕ) (mav rms linf phi : Fl ℝ) : Prop where
  wet : ∀ n, n ∈ A ↔ n < c.N ∧ ∃ p, (r.new n).2.2 = fin p
  change : ∀ n ∈ A, ∃ p q, (r.old n).2.2 = fin p ∧ (r.new n).2.2 = fin q ∧ Δ n = q - p
  corr : ∀ n < c.N, (n ∈ R → r.phi n = fin (φ n)) ∧ (n ∉ R → r.phi n = Fl.nan)
  region : ∀ n, n ∈ R ↔ Reach c.G (Bfs.wet r.old) c.pin n
  sub : A ⊆ R
  pos : 0 < A.card
  count : nw = A.card
  mean : mav = fin ((∑ n ∈ A, |Δ n|) / A.card)
  square : rms = fin (√((∑ n ∈ A, Δ n ^ 2) / A.card))
  greatest : ∃ M, linf = fin M ∧ (∃ n ∈ A, M = |Δ n|) ∧ ∀ n ∈ A, |Δ n| ≤ M
  phiMean : phi = fin ((∑ n ∈ R, |φ n|) / R.card)

variable {c : Cfg (Fl ℝ)} {E : List ((ℕ × ℕ) × ℝ)} {eosST : Ntp.EosST (Fl ℝ)} {e : ℝ → ℝ → ℝ → ℝ} {smin tol : ℝ} {n : ℕ} {b : List ℕ → ℕ → ℝ}

/-- the mean is at most the root mean square, and this at most the greatest -/
theorem DiagSpec.order {r : Iter (Fl ℝ)} {A R : Finset ℕ} {Δ φ : ℕ → ℝ} {nw : ℕ} {mav rms linf phi : Fl ℝ}
    (S : DiagSpec c r A R Δ φ nw mav rms linf phi) : ∃ x y z : ℝ, mav = fin x ∧ rms = fin y ∧ linf = fin z ∧ 0 ≤ x ∧ x ≤ y ∧ y ≤ z := by
  obtain ⟨M, h1, ⟨k, hk, h2⟩, h3⟩ := S.greatest
  have hc : (0 : ℝ) < A.card := by exact_mod_cast S.pos
  refine ⟨_, _, M, S.mean, S.square, h1, by positivity, ?_, ?_⟩
  · apply Real.le_sqrt_of_sq_le
    rw [div_pow, div_le_div_iff₀ (by positivity) hc]
    have := sq_sum_le_card_mul_sum_sq (s := A) (f := fun n => |Δ n|)
    simp only [sq_abs] at this
    nlinarith
  · apply Real.sqrt_le_iff.2
    refine ⟨by rw [h2]; exact abs_nonneg _, ?_⟩
    rw [div_le_iff₀ hc]
    calc ∑ n ∈ A, Δ n ^ 2 ≤ ∑ _n ∈ A, M ^ 2 := sum_le_sum fun n hn => by rw [← sq_abs]; exact pow_le_pow_left₀ (abs_nonneg _) (h3 n hn) 2
      _ = M ^ 2 * A.card := by rw [sum_const, nsmul_eq_mul, mul_comm]

theorem step_new_pin {pinP : Fl ℝ} {iter : ℕ} {stp : Surf (Fl ℝ)} {r : Iter (Fl ℝ)} (h : step c pinP iter stp = .ok r) : (r.new c.pin).2.2 = pinP := by
  unfold step at h
  obtain ⟨x, _, h⟩ := bind_ok h
  obtain ⟨y, _, h⟩ := bind_ok h
  obtain ⟨z, _, h⟩ := bind_ok h
  cases h
  dsimp only
  rw [Function.update_self]

/-- The diagnostics of a pass as specified. -/
theorem pass_diags (hok : Ok c) (hsq : ∀ x : ℝ, 0 ≤ x → c.sqrt (fin x) = fin (√x)) {iter : ℕ} {stp : Surf (Fl ℝ)} {r : Iter (Fl ℝ)}
    (S : PassSpec c E eosST e smin tol n b iter stp r) {p0 : ℝ} (hp : (r.new c.pin).2.2 = fin p0) :
    ∃ A R Δ φ, DiagSpec c r A R Δ φ (nWet c r.new) (nanmean c.N fun n => FloatLike.abs (dp r n)) (c.sqrt (nanmean c.N fun n => dp r n * dp r n))
      (nanmax c.N fun n => FloatLike.abs (dp r n)) (phiMAV c r) := by
  classical
  have hfin : ∀ m < c.N, (∃ p, (r.new m).2.2 = fin p) ∨ (r.new m).2.2 = Fl.nan := by
    intro m hm
    rcases S.fine m hm with ⟨s, t, p, h, -⟩ | h
    · exact .inl ⟨p, by rw [h]⟩
    · exact .inr h
  have hold : ∀ m < c.N, (∃ p, (r.new m).2.2 = fin p) → (∃ p, (r.old m).2.2 = fin p) ∧ m ∈ r.qu := by
    rintro m hm ⟨p, h⟩
    have hq : m ∈ r.qu := by
      by_contra hq
      have h2 := (S.phi m).2 hq
      rcases S.moved m hm with ⟨h1, -⟩ | ⟨-, h1⟩ | ⟨_, _, _, _, -, h1, -⟩
      · rw [h2] at h1; cases h1
      · rw [h1] at h; cases h
      · rw [h2] at h1; cases h1
    refine ⟨?_, hq⟩
    rcases S.moved m hm with ⟨-, h1⟩ | ⟨-, h1⟩ | ⟨_, _, p', _, h1, -⟩
    · exact ⟨p, by rw [← h1]; exact h⟩
    · rw [h1] at h; cases h
    · exact ⟨p', by rw [h1]⟩
  obtain ⟨A, hA⟩ : ∃ A : Finset ℕ, ∀ m, m ∈ A ↔ m < c.N ∧ ∃ p, (r.new m).2.2 = fin p :=
    ⟨(range c.N).filter fun m => ∃ p, (r.new m).2.2 = fin p, fun m => by rw [mem_filter, mem_range]⟩
  have hpin : c.pin ∈ A := (hA _).2 ⟨hok.pin, _, hp⟩
  have hR : ∀ m, m ∈ r.qu.toFinset ↔ Reach c.G (Bfs.wet r.old) c.pin m := by
    intro m; rw [List.mem_toFinset, S.region]
  have hsub : A ⊆ r.qu.toFinset := by
    intro m hm
    rw [List.mem_toFinset]
    exact (hold m ((hA m).1 hm).1 ((hA m).1 hm).2).2
  have hφ : ∀ m, ∃ φ : ℝ, m ∈ r.qu → r.phi m = fin φ := by
    intro m
    by_cases hm : m ∈ r.qu
    · obtain ⟨φ, h⟩ := (S.phi m).1 hm; exact ⟨φ, fun _ => h⟩
    · exact ⟨0, fun h => absurd h hm⟩
  choose φ hφ using hφ
  have hΔ : ∀ m, ∃ Δ : ℝ, m ∈ A → ∃ p q, (r.old m).2.2 = fin p ∧ (r.new m).2.2 = fin q ∧ Δ = q - p := by
    intro m
    by_cases hm : m ∈ A
    · obtain ⟨h1, q, h2⟩ := (hA m).1 hm
      obtain ⟨⟨p, h3⟩, -⟩ := hold m h1 ⟨q, h2⟩
      exact ⟨q - p, fun _ => ⟨p, q, h3, h2, rfl⟩⟩
    · exact ⟨0, fun h => absurd h hm⟩
  choose Δ hΔ using hΔ
  have hH : Holds c.N A (dp r) Δ := by
    refine ⟨fun m hm => mem_range.2 ((hA m).1 hm).1, fun m hm => ⟨fun h => ?_, fun h => ?_⟩⟩
    · obtain ⟨p, q, h1, h2, h3⟩ := hΔ m h
      rw [dp, h1, h2, fin_sub, h3]
    · rcases hfin m hm with h1 | h1
      · exact absurd ((hA m).2 ⟨hm, h1⟩) h
      · rw [dp, h1]; rfl
  have hHφ : Holds c.N r.qu.toFinset r.phi φ := by
    refine ⟨fun m hm => mem_range.2 (bfs_in_range hok ((hR m).1 hm)), fun m hm => ⟨fun h => ?_, fun h => ?_⟩⟩
    · exact hφ m (List.mem_toFinset.1 h)
    · exact (S.phi m).2 fun h' => h (List.mem_toFinset.2 h')
  refine ⟨A, r.qu.toFinset, Δ, φ, hA, hΔ, hHφ.2, hR, hsub, card_pos.2 ⟨_, hpin⟩, ?_, nanmean_holds hH.abs ⟨_, hpin⟩, ?_, ?_, ?_⟩
  · unfold nWet
    rw [← List.toFinset_card_of_nodup (List.nodup_range.filter _)]
    congr 1
    ext m
    rw [List.mem_toFinset, List.mem_filter, List.mem_range, hA]
    constructor
    · rintro ⟨h1, h2⟩
      refine ⟨h1, ?_⟩
      rcases hfin m h1 with h | h
      · exact h
      · rw [h] at h2; cases h2
    · rintro ⟨h1, p, h2⟩
      exact ⟨h1, by rw [h2]; rfl⟩
  · rw [nanmean_holds hH.sq ⟨_, hpin⟩, hsq]
    positivity
  · exact nanmax_holds hH.abs ⟨_, hpin⟩
  · exact nanmean_holds hHφ.abs ⟨_, hsub hpin⟩

/-- **C142** The diagnostics returned for a run on a well formed ocean: entry `k` of each, for every pass `k` but the last, describes pass `k`. -/
theorem omega_diags_values (W : World c E eosST e smin tol n b) (hsq : ∀ x : ℝ, 0 ≤ x → c.sqrt (fin x) = fin (√x)) (hd : c.diags = true)
    {P : PInit (Fl ℝ)} {p0 : ℝ} (hP : pinPOf c P = fin p0) (R : RunSpec c E eosST e smin tol n b P p0) :
    ∃ s stp0 it, omega c P = .ok s ∧ init c P = .ok stp0 ∧ Run c (fin p0) stp0 it s.last ∧
      ∀ k, k + 1 < s.last → PassSpec c E eosST e smin tol n b (k + 1) (surfAt stp0 it k) (it k) ∧
        ∃ A Q Δ φ nw mav rms linf phi, DiagSpec c (it k) A Q Δ φ nw mav rms linf phi ∧ (trim s).nWet[k + 1]? = some nw ∧ (trim s).dpMAV[k + 1]? = some mav ∧
          (trim s).dpRMS[k + 1]? = some rms ∧ (trim s).dpLinf[k + 1]? = some linf ∧ (trim s).phiMAV[k + 1]? = some phi ∧
          (trim s).newly[k + 1]? = some (it k).newly := by
  obtain ⟨s, stp0, s0, t0, r1, r2, -, -, -, -, r7⟩ := R
  have hlast := (omega_iterations r1).1
  obtain ⟨stp0', it, d1, d2, d3, -, -, d4, d5, d6, d7, d8, d9⟩ := omega_diags_partial hd r1
  rw [r2] at d1
  cases d1
  rw [hP] at d2
  refine ⟨s, stp0, it, r1, r2, d2, ?_⟩
  have hb : ∀ k, k ≤ s.last → Before c (fin p0) stp0 k (surfAt stp0 it k) := by
    intro k
    induction k with
    | zero => intro _; exact .start
    | succ k ih => intro hk; exact .pass (ih (by omega)) (d2 k (by omega))
  intro k hk
  obtain ⟨r', e1, S⟩ := r7 k _ (by omega) (hb k (by omega))
  rw [d2 k (by omega)] at e1
  cases e1
  refine ⟨S, ?_⟩
  obtain ⟨A, Q, Δ, φ, D⟩ := pass_diags W.ok hsq S (step_new_pin (d2 k (by omega)))
  have hrms : rmsAt c (it k) = c.sqrt (nanmean c.N fun n => dp (it k) n * dp (it k) n) := by unfold rmsAt; rw [if_pos (.inl hd)]
  have hget : ∀ {B : Type} (x : B) (f : ℕ → B), (x :: (List.range (s.last - 1)).map f)[k + 1]? = some (f k) := by
    intro B x f
    rw [List.getElem?_cons_succ, List.getElem?_map, List.getElem?_range (by omega)]; rfl
  refine ⟨A, Q, Δ, φ, _, _, _, _, _, D, ?_, ?_, ?_, ?_, ?_, ?_⟩
  · rw [d4, List.getElem?_map, List.getElem?_range hk]; rfl
  · rw [d7, hget]
  · rw [d6, hget, hrms]
  · rw [d8, hget]
  · rw [d5, hget]
  · rw [d9, hget]

/-- The ocean of the other examples, from the pressure 1 at the pinning cast, with a square root. -/
example : ∃ (c : Cfg (Fl ℝ)) (s : State (Fl ℝ)) (P : PInit (Fl ℝ)), c.N = 3 ∧ c.diags = true ∧ omega c P = .ok s ∧ 
    ∀ k, k + 1 < s.last → ∃ x y z, (trim s).dpMAV[k + 1]? = some (fin x) ∧ (trim s).dpRMS[k + 1]? = some (fin y) ∧ (trim s).dpLinf[k + 1]? = some (fin z) ∧
      0 ≤ x ∧ x ≤ y ∧ y ≤ z := by
  obtain ⟨⟨spsolve, hs⟩, -⟩ := OmegaMat.exact_solvers_exist (α := ℝ)
  have P := OmegaMat.poisson_solver [((0, 1), 4), ((1, 2), 9)] (fun _ _ _ => ((fin 1 : Fl ℝ), (fin (-1) : Fl ℝ))) hs
  have W := exWorld (G := exLine) (pin := 0) (by norm_num) (by unfold InRange; decide)
    (by
      have h : ∀ a < 3, ∀ b ∈ exLine.nbrs a, (0, 1) = (a, b) ∨ (0, 1) = (b, a) ∨ (1, 2) = (a, b) ∨ (1, 2) = (b, a) := by decide
      intro a ha b hb
      rcases h a ha b hb with h | h | h | h
      · exact ⟨((0, 1), 4), by simp, .inl h⟩
      · exact ⟨((0, 1), 4), by simp, .inr h⟩
      · exact ⟨((1, 2), 9), by simp, .inl h⟩
      · exact ⟨((1, 2), 9), by simp, .inr h⟩) (by simp) exLine_sym P
  have W' : World { exCfg exLine _ 0 with sqrt := fun x => match x with | .fin x => fin (√x) | x => x } _ _ _ _ _ _ _ :=
    ⟨⟨W.ok.graph, W.ok.pin, W.ok.fuel⟩, W.tolEq, W.tolPos, W.fuel, W.eos, W.der, W.casts, W.edges, W.sym, W.weights, W.solver⟩
  have R := omega_total_scalar (p0 := 1) W'
    ⟨0, 3, ⟨1, 4, _, _, _, exGood, fun i _ _ => by split_ifs <;> norm_num, by norm_num, by norm_num, by norm_num⟩, by norm_num, by norm_num⟩
    rfl (by intro _; show 1 ≤ 10; norm_num)
  obtain ⟨s, _, it, h1, -, -, h2⟩ := omega_diags_values W' (fun _ _ => rfl) rfl rfl R
  refine ⟨_, s, _, rfl, rfl, h1, fun k hk => ?_⟩
  obtain ⟨-, A, Q, Δ, φ, nw, mav, rms, linf, phi, D, -, d2, d3, d4, -⟩ := h2 k hk
  obtain ⟨x, y, z, rfl, rfl, rfl, o⟩ := D.order
  exact ⟨x, y, z, d2, d3, d4, o⟩

end Omega
