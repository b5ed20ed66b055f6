import Verif.Props.Stability
import Verif.Props.EosSolve

/-!
# Stability tests in rounded arithmetic (C133)
-/

set_option linter.unusedSectionVars false

namespace Stability
open FloatLike Interp Traj
variable {rnd : ℝ → ℝ} {b : Box} {eos : Rfl rnd → Rfl rnd → Rfl rnd → Rfl rnd} {e E : ℝ → ℝ → ℝ → ℝ} {η Ls Lt Lp : ℝ}

/-- Specification: the exact density of bottle `k + 1` minus that of bottle `k`, both at the mean of their pressures. -/
noncomputable def lrpdDiff (E : ℝ → ℝ → ℝ → ℝ) (s t p : ℕ → ℝ) (k : ℕ) : ℝ :=
  E (s (k + 1)) (t (k + 1)) ((p k + p (k + 1)) / 2) - E (s k) (t k) ((p k + p (k + 1)) / 2)

/-- Data of `nk` bottles in a box whose pressure bounds are floating point numbers. -/
structure Bottles (rnd : ℝ → ℝ) (b : Box) (S T P : ℕ → Rfl rnd) (s t p : ℕ → ℝ) (nk : ℕ) : Prop where
  hS : ∀ i, i < nk → S i = Rfl.fin (s i)
  hT : ∀ i, i < nk → T i = Rfl.fin (t i)
  hP : ∀ i, i < nk → P i = Rfl.fin (p i)
  inside : ∀ i, i < nk → b.In (s i) (t i) (p i)
  p0 : rnd b.p0 = b.p0
  p1 : rnd b.p1 = b.p1

variable {S T P : ℕ → Rfl rnd} {s t p : ℕ → ℝ} {nk : ℕ}

theorem two_lit (R : BinRound rnd) : rnd ((2 : ℚ) : ℝ) = 2 := by
  have := R.two 1
  rw [R.one] at this
  push_cast
  simpa using this

/-- The two computed densities, and the error of their difference. -/
theorem pair_rounded (R : BinRound rnd) (H : EosBox rnd b eos e E η Ls Lt Lp) (D : Bottles rnd b S T P s t p nk) {k : ℕ} (hk : k + 1 < nk) :
    ∃ r1 r2 : ℝ, eos (S k) (T k) ((P k + P (k + 1)) / lit 2) = Rfl.fin r1 ∧ eos (S (k + 1)) (T (k + 1)) ((P k + P (k + 1)) / lit 2) = Rfl.fin r2 ∧
      |(r2 - r1) - lrpdDiff E s t p k| ≤ 2 * η + 2 * Lp * (max |b.p0| |b.p1| / 2 ^ 53) := by
  have h1 := D.inside k (by omega)
  have h2 := D.inside (k + 1) hk
  have hav := R.avg_mem D.p0 D.p1 h1.2.2.2.2.1 h2.2.2.2.2.1 h1.2.2.2.2.2 h2.2.2.2.2.2
  have hav' : b.p0 ≤ (p k + p (k + 1)) / 2 ∧ (p k + p (k + 1)) / 2 ≤ b.p1 := by
    have := h1.2.2.2.2; have := h2.2.2.2.2
    constructor <;> linarith
  have hm : |rnd (p k + p (k + 1)) / 2 - (p k + p (k + 1)) / 2| ≤ max |b.p0| |b.p1| / 2 ^ 53 := by
    have e1 := R.err (p k + p (k + 1))
    rw [← sub_div, abs_div, abs_of_pos (two_pos (α := ℝ)), div_le_iff₀ two_pos]
    refine e1.trans ?_
    have e2 : |(p k + p (k + 1)) / 2| ≤ max |b.p0| |b.p1| := abs_le_max_abs_abs hav'.1 hav'.2
    rw [abs_div, abs_of_pos (two_pos (α := ℝ)), div_le_iff₀ two_pos] at e2
    rw [div_mul_eq_mul_div]
    exact div_le_div_of_nonneg_right e2 (by positivity)
  have hp : ((P k + P (k + 1)) / lit 2 : Rfl rnd) = Rfl.fin (rnd (p k + p (k + 1)) / 2) := by
    rw [D.hP k (by omega), D.hP (k + 1) hk, Rfl.fin_add, Rfl.lit_eq, two_lit R, Rfl.fin_div _ _ two_ne_zero, R.half, R.idem]
  have q1 : b.In (s k) (t k) (rnd (p k + p (k + 1)) / 2) := ⟨h1.1, h1.2.1, h1.2.2.1, h1.2.2.2.1, hav.1, hav.2⟩
  have q2 : b.In (s (k + 1)) (t (k + 1)) (rnd (p k + p (k + 1)) / 2) := ⟨h2.1, h2.2.1, h2.2.2.1, h2.2.2.2.1, hav.1, hav.2⟩
  refine ⟨_, _, by rw [hp, D.hS k (by omega), D.hT k (by omega), H.val _ _ _ q1], by rw [hp, D.hS (k + 1) hk, D.hT (k + 1) hk, H.val _ _ _ q2], ?_⟩
  have g1 := H.err (eS := 0) (eT := 0) q1 (s'' := s k) (t'' := t k) (p'' := (p k + p (k + 1)) / 2)
    ⟨h1.1, h1.2.1, h1.2.2.1, h1.2.2.2.1, hav'.1, hav'.2⟩ (by simp) (by simp)
  have g2 := H.err (eS := 0) (eT := 0) q2 (s'' := s (k + 1)) (t'' := t (k + 1)) (p'' := (p k + p (k + 1)) / 2)
    ⟨h2.1, h2.2.1, h2.2.2.1, h2.2.2.2.1, hav'.1, hav'.2⟩ (by simp) (by simp)
  have g3 := mul_le_mul_of_nonneg_left hm H.lp
  unfold lrpdDiff
  rw [abs_le] at *
  constructor <;> linarith [g1.1, g1.2, g2.1, g2.2]

/-- **C133.** `count_unstable` in floating point: every pair of bottles whose exact density difference at the mean pressure is below
`-θ` is counted, no pair whose difference is above `θ` is; `θ` is twice the error of the equation of state plus what the rounding of the mean
pressure contributes.  So the count is between the number of pairs certainly unstable and the number of pairs not certainly stable. -/
theorem count_rounded (R : BinRound rnd) (H : EosBox rnd b eos e E η Ls Lt Lp) (D : Bottles rnd b S T P s t p nk) {θ : ℝ}
    (hθ : 2 * η + 2 * Lp * (max |b.p0| |b.p1| / 2 ^ 53) ≤ θ) :
    (List.range (nk - 1)).countP (fun k => decide (lrpdDiff E s t p k < -θ)) ≤ countPairs eos S T P nk ∧
    countPairs eos S T P nk ≤ (List.range (nk - 1)).countP (fun k => decide (lrpdDiff E s t p k ≤ θ)) := by
  unfold countPairs
  constructor
  · refine List.countP_mono_left fun k hk h => ?_
    rw [List.mem_range] at hk
    obtain ⟨r1, r2, h1, h2, h3⟩ := pair_rounded R H D (k := k) (by omega)
    simp only [h1, h2, Rfl.le_fin, decide_eq_true_eq] at h ⊢
    rw [abs_le] at h3
    linarith [h3.1, h3.2]
  · refine List.countP_mono_left fun k hk h => ?_
    rw [List.mem_range] at hk
    obtain ⟨r1, r2, h1, h2, h3⟩ := pair_rounded R H D (k := k) (by omega)
    simp only [h1, h2, Rfl.le_fin, decide_eq_true_eq] at h ⊢
    rw [abs_le] at h3
    linarith [h3.1, h3.2]

/-- The computed gradient of locally referenced potential density: its sign is that of the computed density difference, and its error. -/
theorem grad_rounded (R : BinRound rnd) (H : EosBox rnd b eos e E η Ls Lt Lp) (D : Bottles rnd b S T P s t p nk) {k : ℕ} (hk : k + 1 < nk)
    (hp : p k < p (k + 1)) {θ : ℝ} (hθ : 2 * η + 2 * Lp * (max |b.p0| |b.p1| / 2 ^ 53) ≤ θ) :
    ∃ r1 r2 g : ℝ, eos (S k) (T k) ((P k + P (k + 1)) / lit 2) = Rfl.fin r1 ∧ eos (S (k + 1)) (T (k + 1)) ((P k + P (k + 1)) / lit 2) = Rfl.fin r2 ∧
      grad eos S T P k = Rfl.fin g ∧ (0 < g ↔ r1 < r2) ∧
      |g - lrpdDiff E s t p k / (p (k + 1) - p k)| ≤ (θ + 4 * (|lrpdDiff E s t p k| + θ) / 2 ^ 53) / (p (k + 1) - p k) := by
  obtain ⟨r1, r2, h1, h2, h3⟩ := pair_rounded R H D hk
  have hd : 0 < p (k + 1) - p k := by linarith
  have hd' : 0 < rnd (p (k + 1) - p k) := R.pos_iff.mpr hd
  have hg : grad eos S T P k = Rfl.fin (rnd (rnd (r2 - r1) / rnd (p (k + 1) - p k))) := by
    unfold grad
    simp only [h1, h2]
    rw [D.hP k (by omega), D.hP (k + 1) hk, Rfl.fin_sub, Rfl.fin_sub, Rfl.fin_div _ _ hd'.ne']
  refine ⟨r1, r2, _, h1, h2, hg, ?_, ?_⟩
  · rw [R.pos_iff, div_pos_iff_of_pos_right hd', R.pos_iff, sub_pos]
  · set Δ := p (k + 1) - p k with hΔ
    set d := lrpdDiff E s t p k
    have a1 := R.err (r2 - r1)
    have a2 := R.err Δ
    have a3 := R.err (rnd (r2 - r1) / rnd Δ)
    rw [abs_of_pos hd] at a2
    generalize rnd (rnd (r2 - r1) / rnd Δ) = g at *
    generalize rnd (r2 - r1) = x at *
    generalize rnd Δ = y at *
    have h3' := h3.trans hθ
    set q := r2 - r1
    have hq : |q| ≤ |d| + θ := by
      have := abs_add_le (q - d) d
      rw [sub_add_cancel] at this
      linarith
    -- `x` and `y` are `q` and `Δ` up to a relative error of `2^-53`
    have hy : Δ * (1 - 1 / 2 ^ 53) ≤ y := by rw [abs_le] at a2; linarith [a2.1]
    have hx : |x| ≤ |q| * (1 + 1 / 2 ^ 53) := by
      have := abs_add_le (x - q) q
      rw [sub_add_cancel] at this
      linarith
    have b1 : |x / y - q / Δ| ≤ |q| * (2 / 2 ^ 53 + 4 / 2 ^ 106) / Δ := by
      rw [div_sub_div _ _ hd'.ne' hd.ne', abs_div, abs_of_pos (mul_pos hd' hd), div_le_div_iff₀ (mul_pos hd' hd) hd]
      have e1 : x * Δ - y * q = (x - q) * Δ - (y - Δ) * q := by ring
      have e2 : |x * Δ - y * q| ≤ 2 * (|q| / 2 ^ 53) * Δ := by
        rw [e1]
        refine (abs_sub _ _).trans ?_
        rw [abs_mul, abs_mul, abs_of_pos hd]
        have f1 := mul_le_mul_of_nonneg_right a1 hd.le
        have f2 := mul_le_mul_of_nonneg_right a2 (abs_nonneg q)
        have : Δ / 2 ^ 53 * |q| = |q| / 2 ^ 53 * Δ := by ring
        linarith
      have e3 : 2 * (|q| / 2 ^ 53) * Δ * Δ ≤ |q| * (2 / 2 ^ 53 + 4 / 2 ^ 106) * (y * Δ) := by
        have f1 : |q| * (2 / 2 ^ 53 + 4 / 2 ^ 106) * (Δ * (1 - 1 / 2 ^ 53) * Δ) ≤ |q| * (2 / 2 ^ 53 + 4 / 2 ^ 106) * (y * Δ) :=
          mul_le_mul_of_nonneg_left (mul_le_mul_of_nonneg_right hy hd.le) (by positivity)
        refine le_trans ?_ f1
        have : 0 ≤ |q| * (Δ * Δ) := by positivity
        nlinarith
      exact (mul_le_mul_of_nonneg_right e2 hd.le).trans e3
    have b2 : |x / y| ≤ |q| * (1 + 3 / 2 ^ 53) / Δ := by
      have := abs_add_le (x / y - q / Δ) (q / Δ)
      rw [sub_add_cancel, abs_div q, abs_of_pos hd] at this
      have e : |q| * (2 / 2 ^ 53 + 4 / 2 ^ 106) / Δ + |q| / Δ ≤ |q| * (1 + 3 / 2 ^ 53) / Δ := by
        rw [← add_div]
        refine div_le_div_of_nonneg_right ?_ hd.le
        have := abs_nonneg q
        linarith
      linarith
    have b3 : |g - x / y| ≤ |q| * (1 / 2 ^ 53 + 3 / 2 ^ 106) / Δ := by
      refine a3.trans ?_
      have : |q| * (1 / 2 ^ 53 + 3 / 2 ^ 106) / Δ = |q| * (1 + 3 / 2 ^ 53) / Δ / 2 ^ 53 := by ring
      rw [this]
      exact div_le_div_of_nonneg_right b2 (by positivity)
    have b4 : |q / Δ - d / Δ| ≤ θ / Δ := by
      rw [← sub_div, abs_div, abs_of_pos hd]
      exact div_le_div_of_nonneg_right h3' hd.le
    have b5 : |g - d / Δ| ≤ |q| * (1 / 2 ^ 53 + 3 / 2 ^ 106) / Δ + |q| * (2 / 2 ^ 53 + 4 / 2 ^ 106) / Δ + θ / Δ := by
      have := abs_add_le (g - x / y) (x / y - q / Δ)
      have := abs_add_le (g - x / y + (x / y - q / Δ)) (q / Δ - d / Δ)
      rw [show g - x / y + (x / y - q / Δ) + (q / Δ - d / Δ) = g - d / Δ by ring] at this
      linarith
    refine b5.trans ?_
    rw [← add_div, ← add_div]
    refine div_le_div_of_nonneg_right ?_ hd.le
    have f := mul_le_mul_of_nonneg_right hq (show (0 : ℝ) ≤ 3 / 2 ^ 53 + 7 / 2 ^ 106 by positivity)
    have f' : 0 ≤ |d| + θ := (abs_nonneg q).trans hq
    nlinarith

/-- **C133.** The test of `stabilize_ST` in floating point: if it passes, every exact gradient is at least its minimum up to the error of
`grad_rounded`; if it fails, some exact gradient is below its minimum plus that error. -/
theorem unstable_rounded (R : BinRound rnd) (H : EosBox rnd b eos e E η Ls Lt Lp) (D : Bottles rnd b S T P s t p nk)
    (hp : ∀ k, k + 1 < nk → p k < p (k + 1)) {minG : ℕ → Rfl rnd} {g : ℕ → ℝ} (hg : ∀ k, k + 1 < nk → minG k = Rfl.fin (g k))
    {θ : ℝ} (hθ : 2 * η + 2 * Lp * (max |b.p0| |b.p1| / 2 ^ 53) ≤ θ) :
    (unstable eos S T P minG nk = false → ∀ k, k + 1 < nk →
      g k - (θ + 4 * (|lrpdDiff E s t p k| + θ) / 2 ^ 53) / (p (k + 1) - p k) ≤ lrpdDiff E s t p k / (p (k + 1) - p k)) ∧
    (unstable eos S T P minG nk = true → ∃ k, k + 1 < nk ∧
      lrpdDiff E s t p k / (p (k + 1) - p k) < g k + (θ + 4 * (|lrpdDiff E s t p k| + θ) / 2 ^ 53) / (p (k + 1) - p k)) := by
  unfold unstable
  constructor
  · intro h k hk
    rw [List.any_eq_false] at h
    have := h k (by rw [List.mem_range]; omega)
    obtain ⟨r1, r2, v, -, -, hv, -, he⟩ := grad_rounded R H D hk (hp k hk) hθ
    rw [hv, hg k hk, Rfl.lt_fin, decide_eq_true_eq, not_lt] at this
    rw [abs_le] at he
    linarith [he.1, he.2]
  · intro h
    rw [List.any_eq_true] at h
    obtain ⟨k, hk, h⟩ := h
    rw [List.mem_range] at hk
    have hk' : k + 1 < nk := by omega
    obtain ⟨r1, r2, v, -, -, hv, -, he⟩ := grad_rounded R H D hk' (hp k hk') hθ
    rw [hv, hg k hk', Rfl.lt_fin, decide_eq_true_eq] at h
    rw [abs_le] at he
    exact ⟨k, hk', by linarith [he.1, he.2]⟩

/-- **C133.** In floating point too, a cast that passes the test of `stabilize_ST` with positive minimum gradients has no pair counted by
`count_unstable`: the two tests cannot disagree through rounding. -/
theorem count_zero_after_rounded (R : BinRound rnd) (H : EosBox rnd b eos e E η Ls Lt Lp) (D : Bottles rnd b S T P s t p nk)
    (hp : ∀ k, k + 1 < nk → p k < p (k + 1)) {minG : ℕ → Rfl rnd} {g : ℕ → ℝ} (hg : ∀ k, k + 1 < nk → minG k = Rfl.fin (g k) ∧ 0 < g k)
    (h : unstable eos S T P minG nk = false) : countPairs eos S T P nk = 0 := by
  unfold unstable at h
  unfold countPairs
  rw [List.countP_eq_zero]
  rw [List.any_eq_false] at h
  intro k hk
  have h1 := h k hk
  rw [List.mem_range] at hk
  have hk' : k + 1 < nk := by omega
  obtain ⟨r1, r2, v, e1, e2, hv, hs, -⟩ := grad_rounded R H D hk' (hp k hk') le_rfl
  rw [hv, (hg k hk').1, Rfl.lt_fin, decide_eq_true_eq, not_lt] at h1
  have := hs.mp (lt_of_lt_of_le (hg k hk').2 h1)
  simp only [e1, e2, Rfl.le_fin, decide_eq_true_eq, not_le]
  exact this

end Stability

open Traj Stability

variable {rnd : ℝ → ℝ}

theorem ocean_bound {t0 : ℝ} : max |(oceanBox t0).p0| |(oceanBox t0).p1| = 10000 := by
  unfold oceanBox
  norm_num

/-- **C133.** With jmd95 on the oceanographic range `count_unstable` misjudges no pair whose exact density difference exceeds 2.1e-12 kg/m³. -/
theorem Jmd95.count_unstable (R : BinRound rnd) {S T P : ℕ → Rfl rnd} {s t p : ℕ → ℝ} {nk : ℕ}
    (D : Bottles rnd (oceanBox (-2)) S T P s t p nk) :
    (List.range (nk - 1)).countP (fun k => decide (lrpdDiff density s t p k < -2.1e-12)) ≤ countPairs (eosR rnd) S T P nk ∧
    countPairs (eosR rnd) S T P nk ≤ (List.range (nk - 1)).countP (fun k => decide (lrpdDiff density s t p k ≤ 2.1e-12)) := by
  obtain ⟨e, H⟩ := Jmd95.box R.toStdRound
  exact count_rounded R H D (by rw [ocean_bound]; norm_num)

/-- **C133.** With jmdfwg06: 6.5e-12 kg/m³. -/
theorem Jmdfwg06.count_unstable (R : BinRound rnd) {S T P : ℕ → Rfl rnd} {s t p : ℕ → ℝ} {nk : ℕ}
    (D : Bottles rnd (oceanBox (-2)) S T P s t p nk) :
    (List.range (nk - 1)).countP (fun k => decide (lrpdDiff density s t p k < -6.5e-12)) ≤ countPairs (eosR rnd) S T P nk ∧
    countPairs (eosR rnd) S T P nk ≤ (List.range (nk - 1)).countP (fun k => decide (lrpdDiff density s t p k ≤ 6.5e-12)) := by
  obtain ⟨e, H⟩ := Jmdfwg06.box R.toStdRound
  exact count_rounded R H D (by rw [ocean_bound]; norm_num)

/-- Three bottles, in round to nearest; the second pair is unstable in temperature and salinity. -/
example : Bottles Rounding53.rndNear (oceanBox (-2)) (fun i => Rfl.fin (35 - i)) (fun i => Rfl.fin (10 + i)) (fun i => Rfl.fin (100 * i))
    (fun i => 35 - i) (fun i => 10 + i) (fun i => 100 * i) 3 := by
  refine ⟨fun _ _ => rfl, fun _ _ => rfl, fun _ _ => rfl, fun i hi => ?_, Rounding53.rndNear_std.zero, Rounding53.rndNear_10000⟩
  have : (i : ℝ) ≤ 2 := by exact_mod_cast (by omega : i ≤ 2)
  have : (0 : ℝ) ≤ i := Nat.cast_nonneg i
  unfold oceanBox Box.In
  dsimp only
  refine ⟨?_, ?_, ?_, ?_, ?_, ?_⟩ <;> linarith
