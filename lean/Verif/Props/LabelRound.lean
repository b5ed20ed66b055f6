import Verif.Props.LabelOrder
import Verif.Props.SolveAccuracy

/-!
# The Veronis density in floating point (C173)
-/

set_option linter.unusedSectionVars false

/-- Rounded arithmetic: the ceiling of a floating-point number, `/repo/neutralocean/label.py` line 237, is exact. -/
noncomputable instance {rnd : ℝ → ℝ} : FloatCeil (Rfl rnd) where
  ceilInt x := (FloatCeil.ceilInt (F := Fl ℝ) x : Option ℤ)

namespace Label
open FloatLike Interp intervalIntegral MeasureTheory
variable {rnd : ℝ → ℝ}

/-- Rounding an approximation. -/
theorem rapp (R : StdRound rnd) {v w e W : ℝ} (h : |v - w| ≤ e) (hw : |w| ≤ W) : |rnd v - w| ≤ e + (W + e) / 2 ^ 53 := by
  have h1 := R.err v
  have h2 : |v| ≤ W + e := by
    have := abs_add_le w (v - w)
    rw [add_sub_cancel] at this
    linarith
  have h3 := abs_add_le (rnd v - v) (v - w)
  rw [sub_add_sub_cancel] at h3
  have h4 : |v| / 2 ^ 53 ≤ (W + e) / 2 ^ 53 := div_le_div_of_nonneg_right h2 (by positivity)
  linarith

/-- Product of approximations. -/
theorem mapp {x y x' y' ex ey X Y : ℝ} (hx : |x - x'| ≤ ex) (hy : |y - y'| ≤ ey) (hX : |x'| ≤ X) (hY : |y'| ≤ Y) :
    |x * y - x' * y'| ≤ ex * (Y + ey) + X * ey := by
  have h1 : |y| ≤ Y + ey := by
    have := abs_add_le y' (y - y')
    rw [add_sub_cancel] at this
    linarith
  have h2 : x * y - x' * y' = (x - x') * y + x' * (y - y') := by ring
  rw [h2]
  refine (abs_add_le _ _).trans ?_
  rw [abs_mul, abs_mul]
  exact add_le_add (mul_le_mul hx h1 (abs_nonneg _) ((abs_nonneg _).trans hx)) (mul_le_mul hX hy (abs_nonneg _) ((abs_nonneg _).trans hX))

/-- One interval of the trapezoidal rule in rounded arithmetic. -/
theorem term_err (R : BinRound rnd) {x x' y y' z z' g g' ξ ε F h : ℝ} (hx : |x - z| ≤ ξ) (hx' : |x' - z'| ≤ ξ) (hz : z' - z = h) (hh : 0 ≤ h)
    (hy : |y - g| ≤ ε) (hy' : |y' - g'| ≤ ε) (hg : |g| ≤ F) (hg' : |g'| ≤ F) (hε : 4 * ε ≤ F) :
    |rnd (rnd (rnd (x' - x) * rnd (y' + y)) / 2) - h * ((g + g') / 2)| ≤ 6 * (F * ξ) + 2 * (h * ε) + 5 * (h * F) / 2 ^ 53 := by
  have hξ : 0 ≤ ξ := (abs_nonneg _).trans hx
  have hε0 : 0 ≤ ε := (abs_nonneg _).trans hy
  have hF : 0 ≤ F := (abs_nonneg _).trans hg
  have a1 : |x' - x - h| ≤ 2 * ξ := by
    rw [← hz, show x' - x - (z' - z) = (x' - z') - (x - z) by ring]
    have := abs_sub (x' - z') (x - z)
    linarith
  have a2 := rapp R.toStdRound a1 (le_of_eq (abs_of_nonneg hh))
  have b1 : |y' + y - (g + g')| ≤ 2 * ε := by
    rw [show y' + y - (g + g') = (y' - g') + (y - g) by ring]
    have := abs_add_le (y' - g') (y - g)
    linarith
  have b0 : |g + g'| ≤ 2 * F := by
    have := abs_add_le g g'
    linarith
  have b2 := rapp R.toStdRound b1 b0
  have c1 := mapp a2 b2 (le_of_eq (abs_of_nonneg hh)) b0
  have c0 : |h * (g + g')| ≤ h * (2 * F) := by
    rw [abs_mul, abs_of_nonneg hh]
    exact mul_le_mul_of_nonneg_left b0 hh
  have c2 := rapp R.toStdRound c1 c0
  rw [R.half, R.idem, show h * ((g + g') / 2) = h * (g + g') / 2 by ring, ← sub_div, abs_div, abs_of_pos (two_pos (α := ℝ)), div_le_iff₀ two_pos]
  refine c2.trans ?_
  have p1 : 0 ≤ F * ξ := mul_nonneg hF hξ
  have p2 : 0 ≤ h * ε := mul_nonneg hh hε0
  have p3 : 0 ≤ h * F := mul_nonneg hh hF
  have p4 : ξ * ε ≤ ξ * F / 4 := by
    have := mul_le_mul_of_nonneg_left hε hξ
    linarith
  have p5 : 0 ≤ ξ * ε := mul_nonneg hξ hε0
  nlinarith [p1, p2, p3, p4, p5]

/-- Nodes of the trapezoidal rule. -/
theorem linspace_rnd (R : BinRound rnd) {p q M : ℝ} (hp : |p| ≤ M) (hq : |q| ≤ M) {N i : ℕ} (hN : 0 < N) (hi : i ≤ N) :
    ∃ x, linspace (Rfl.fin p : Rfl rnd) (Rfl.fin q) (N + 1) i = Rfl.fin x ∧ |x - (p + (q - p) * (i / N))| ≤ 40 * M / 2 ^ 53 := by
  have hM : 0 ≤ M := (abs_nonneg _).trans hp
  have hN' : (N : ℝ) ≠ 0 := by exact_mod_cast hN.ne'
  have hNp : (0 : ℝ) < N := by exact_mod_cast hN
  unfold linspace
  split_ifs with h1 h2
  · subst h1
    refine ⟨p, rfl, ?_⟩
    simp only [Nat.cast_zero, zero_div, mul_zero, add_zero, sub_self, abs_zero]
    positivity
  · obtain rfl : i = N := by omega
    refine ⟨q, rfl, ?_⟩
    rw [div_self hN', show q - (p + (q - p) * 1) = 0 by ring, abs_zero]
    positivity
  · simp only [Rfl.lit_eq, Rfl.fin_sub, Nat.add_sub_cancel]
    have hr : rnd (((N : ℕ) : ℚ) : ℝ) ≠ 0 := ((R.pos_iff).mpr (by push_cast; exact hNp)).ne'
    rw [Rfl.fin_div _ _ hr, Rfl.fin_mul, Rfl.fin_add]
    refine ⟨_, rfl, ?_⟩
    push_cast
    have e1 : RelErr 2 (i : ℝ) (rnd i) := (RelErr.refl _).round R.toStdRound (by norm_num)
    have e2 : RelErr 2 (N : ℝ) (rnd N) := (RelErr.refl _).round R.toStdRound (by norm_num)
    have e3 : RelErr 2 (q - p) (rnd (q - p)) := (RelErr.refl _).round R.toStdRound (by norm_num)
    have e4 := (e1.div e2 (by norm_num) (by norm_num) hN').round R.toStdRound (by norm_num)
    have e5 := (e3.mul e4 (by norm_num) (by norm_num)).round R.toStdRound (by norm_num)
    norm_num at e5
    unfold RelErr at e5
    have w0 : |q - p| ≤ 2 * M := by
      have := abs_sub q p
      linarith
    have f0 : (0 : ℝ) ≤ i / N := by positivity
    have f1 : (i : ℝ) / N ≤ 1 := by rw [div_le_one hNp]; exact_mod_cast hi
    have w1 : |(q - p) * (i / N)| ≤ 2 * M := by
      rw [abs_mul, abs_of_nonneg f0]
      nlinarith [abs_nonneg (q - p)]
    have w2 : |p + (q - p) * (i / N)| ≤ M := by
      rw [show p + (q - p) * ((i : ℝ) / N) = (1 - i / N) * p + i / N * q by ring]
      refine (abs_add_le _ _).trans ?_
      rw [abs_mul, abs_mul, abs_of_nonneg f0, abs_of_nonneg (by linarith : 0 ≤ 1 - (i : ℝ) / N)]
      nlinarith
    generalize rnd (rnd (q - p) * rnd (rnd (i : ℝ) / rnd N)) = D at *
    generalize (q - p) * ((i : ℝ) / N) = D' at *
    have h3 : |p + D - (p + D')| ≤ 28 * M / 2 ^ 53 := by
      rw [add_sub_add_left_eq_sub]
      refine e5.trans ?_
      norm_num at w1 ⊢
      linarith
    refine (rapp R.toStdRound h3 w2).trans ?_
    norm_num
    linarith

/-- The trapezoidal rule in rounded arithmetic. -/
theorem trapz_rnd (R : BinRound rnd) {y x : ℕ → Rfl rnd} {g z : ℕ → ℝ} {ξ ε F h : ℝ} {N : ℕ} (hh : 0 ≤ h) (hε : 4 * ε ≤ F)
    (hN : 2 * (N : ℝ) ≤ 2 ^ 53) (hx : ∀ i, i ≤ N → ∃ v, x i = Rfl.fin v ∧ |v - z i| ≤ ξ) (hz : ∀ i, i < N → z (i + 1) - z i = h)
    (hy : ∀ i, i ≤ N → ∃ v, y i = Rfl.fin v ∧ |v - g i| ≤ ε) (hg : ∀ i, i ≤ N → |g i| ≤ F) :
    ∃ v, trapz y x (N + 1) = Rfl.fin v ∧
      |v - ∑ i ∈ Finset.range N, h * ((g i + g (i + 1)) / 2)| ≤ 2 * N * (6 * (F * ξ) + 2 * (h * ε) + 5 * (h * F) / 2 ^ 53 + N * h * F / 2 ^ 53) := by
  have hξ : 0 ≤ ξ := by obtain ⟨v, _, h⟩ := hx 0 (Nat.zero_le _); exact (abs_nonneg _).trans h
  have hε0 : 0 ≤ ε := by obtain ⟨v, _, h⟩ := hy 0 (Nat.zero_le _); exact (abs_nonneg _).trans h
  have hF : 0 ≤ F := (abs_nonneg _).trans (hg 0 (Nat.zero_le _))
  set τ := 6 * (F * ξ) + 2 * (h * ε) + 5 * (h * F) / 2 ^ 53 with hτ
  have hτ0 : 0 ≤ τ := by positivity
  set A := τ + N * h * F / 2 ^ 53 with hA
  have hWF : 0 ≤ N * h * F := by positivity
  have two : rnd ((2 : ℚ) : ℝ) = 2 := by
    have := R.two 1
    rw [R.one, mul_one] at this
    push_cast
    exact this
  have key : ∀ n, n ≤ N → ∃ v, (List.range n).foldl (fun s i => s + (x (i + 1) - x i) * (y (i + 1) + y i) / lit 2) (lit 0 : Rfl rnd) = Rfl.fin v ∧
      |v - ∑ i ∈ Finset.range n, h * ((g i + g (i + 1)) / 2)| ≤ 2 * n * A := by
    intro n
    induction n with
    | zero => intro _; exact ⟨0, by simp [R.zero], by simp⟩
    | succ n ih =>
      intro hn
      obtain ⟨v, hv, hve⟩ := ih (by omega)
      obtain ⟨x0, hx0, ex0⟩ := hx n (by omega)
      obtain ⟨x1, hx1, ex1⟩ := hx (n + 1) hn
      obtain ⟨y0, hy0, ey0⟩ := hy n (by omega)
      obtain ⟨y1, hy1, ey1⟩ := hy (n + 1) hn
      have ht := term_err R ex0 ex1 (hz n (by omega)) hh ey0 ey1 (hg n (by omega)) (hg (n + 1) hn) hε
      rw [List.range_succ, List.foldl_append, hv]
      simp only [List.foldl_cons, List.foldl_nil]
      rw [hx0, hx1, hy0, hy1, Rfl.fin_sub, Rfl.fin_add, Rfl.fin_mul, Rfl.lit_eq, two, Rfl.fin_div _ _ (by norm_num), Rfl.fin_add]
      refine ⟨_, rfl, ?_⟩
      rw [Finset.sum_range_succ]
      set G := ∑ i ∈ Finset.range n, h * ((g i + g (i + 1)) / 2) with hG
      have hsum : |G + h * ((g n + g (n + 1)) / 2)| ≤ N * h * F := by
        rw [hG, ← Finset.sum_range_succ (fun i => h * ((g i + g (i + 1)) / 2))]
        refine (Finset.abs_sum_le_sum_abs _ _).trans ?_
        have : ∀ i ∈ Finset.range (n + 1), |h * ((g i + g (i + 1)) / 2)| ≤ h * F := by
          intro i hi
          rw [Finset.mem_range] at hi
          rw [abs_mul, abs_of_nonneg hh, abs_div, abs_of_pos (two_pos (α := ℝ))]
          refine mul_le_mul_of_nonneg_left ?_ hh
          have := abs_add_le (g i) (g (i + 1))
          have := hg i (by omega)
          have := hg (i + 1) (by omega)
          linarith
        refine (Finset.sum_le_sum this).trans ?_
        rw [Finset.sum_const, Finset.card_range, nsmul_eq_mul]
        have : ((n + 1 : ℕ) : ℝ) ≤ N := by exact_mod_cast hn
        rw [mul_assoc]
        exact mul_le_mul_of_nonneg_right this (by positivity)
      generalize rnd (rnd (rnd (x1 - x0) * rnd (y1 + y0)) / 2) = t at *
      generalize h * ((g n + g (n + 1)) / 2) = t' at *
      have h3 : |v + t - (G + t')| ≤ 2 * n * A + τ := by
        rw [show v + t - (G + t') = (v - G) + (t - t') by ring]
        have := abs_add_le (v - G) (t - t')
        linarith
      refine (rapp R.toStdRound h3 hsum).trans ?_
      have hn1 : ((n : ℝ) + 1) ≤ N := by exact_mod_cast hn
      have hA0 : 0 ≤ A := by positivity
      have hτA : τ ≤ A := by rw [hA]; linarith [div_nonneg hWF (by norm_num : (0 : ℝ) ≤ 2 ^ 53)]
      have h4 : (2 * n * A + τ) / 2 ^ 53 ≤ A := by
        rw [div_le_iff₀ (by positivity)]
        have : 2 * (n : ℝ) * A + τ ≤ (2 * n + 1) * A := by linarith
        refine this.trans ?_
        rw [mul_comm]
        refine mul_le_mul_of_nonneg_left ?_ hA0
        linarith
      rw [add_div]
      push_cast
      linarith
  obtain ⟨v, hv, he⟩ := key N le_rfl
  exact ⟨v, by unfold trapz; rw [Nat.add_sub_cancel]; exact hv, he⟩

theorem pval_slope_rnd (R : BinRound rnd) (u c b : ℝ) : pval (Rfl.fin u : Rfl rnd) [Rfl.fin c, Rfl.fin b] 1 = Rfl.fin (rnd c) := by
  simp [pval, multiplier, R.zero, R.one, R.idem]

/-- A line evaluated near a point `z` of its piece. -/
theorem line_near (R : BinRound rnd) {a0 a1 y0 y1 x z ξ μ H Y : ℝ} (h : a0 < a1) (hz : a0 ≤ z) (hz' : z ≤ a1) (hx : |x - z| ≤ ξ) (hH : a1 - a0 ≤ H)
    (hμ : |(y1 - y0) / (a1 - a0)| ≤ μ) (hY : |y0 + (y1 - y0) / (a1 - a0) * (z - a0)| ≤ Y) :
    |rnd (rnd (rnd (rnd (rnd (y1 - y0) / rnd (a1 - a0))) * rnd (x - a0)) + y0) - (y0 + (y1 - y0) / (a1 - a0) * (z - a0))|
      ≤ 5 * (μ * ξ) + 15 * (μ * H) / 2 ^ 53 + Y / 2 ^ 53 ∧
    |rnd (rnd (rnd (y1 - y0) / rnd (a1 - a0))) - (y1 - y0) / (a1 - a0)| ≤ 9 * μ / 2 ^ 53 := by
  have hd : 0 < a1 - a0 := sub_pos.mpr h
  have e1 : RelErr 2 (y1 - y0) (rnd (y1 - y0)) := (RelErr.refl _).round R.toStdRound (by norm_num)
  have e2 : RelErr 2 (a1 - a0) (rnd (a1 - a0)) := (RelErr.refl _).round R.toStdRound (by norm_num)
  have e4 := ((e1.div e2 (by norm_num) (by norm_num) hd.ne').round R.toStdRound (by norm_num)).round R.toStdRound (by norm_num)
  have hξ : 0 ≤ ξ := (abs_nonneg _).trans hx
  have hμ0 : 0 ≤ μ := (abs_nonneg _).trans hμ
  have hH0 : 0 ≤ H := by linarith
  have hY0 : 0 ≤ Y := (abs_nonneg _).trans hY
  norm_num at e4
  unfold RelErr at e4
  have s1 : |rnd (rnd (rnd (y1 - y0) / rnd (a1 - a0))) - (y1 - y0) / (a1 - a0)| ≤ 9 * μ / 2 ^ 53 := by
    refine e4.trans ?_
    push_cast
    norm_num at hμ ⊢
    linarith
  refine ⟨?_, s1⟩
  generalize rnd (rnd (rnd (y1 - y0) / rnd (a1 - a0))) = m at *
  generalize (y1 - y0) / (a1 - a0) = m' at *
  have d0 : |z - a0| ≤ H := by rw [abs_of_nonneg (by linarith)]; linarith
  have d1 : |x - a0 - (z - a0)| ≤ ξ := by rwa [sub_sub_sub_cancel_right]
  have d2 := rapp R.toStdRound d1 d0
  have q1 := mapp s1 d2 hμ d0
  have q0 : |m' * (z - a0)| ≤ μ * H := by
    rw [abs_mul]
    exact mul_le_mul hμ d0 (abs_nonneg _) hμ0
  have q2 := rapp R.toStdRound q1 q0
  have p1 : 0 ≤ μ * ξ := mul_nonneg hμ0 hξ
  have p2 : 0 ≤ μ * H := mul_nonneg hμ0 hH0
  have q3 : |rnd (m * rnd (x - a0)) - m' * (z - a0)| ≤ 4 * (μ * ξ) + 13 * (μ * H) / 2 ^ 53 := by
    refine q2.trans ?_
    ring_nf
    ring_nf at p1 p2
    norm_num
    linarith
  generalize rnd (m * rnd (x - a0)) = D at *
  generalize m' * (z - a0) = D' at *
  have q4 : |D + y0 - (y0 + D')| ≤ 4 * (μ * ξ) + 13 * (μ * H) / 2 ^ 53 := by
    rwa [show D + y0 - (y0 + D') = D - D' by ring]
  refine (rapp R.toStdRound q4 hY).trans ?_
  ring_nf
  ring_nf at p1 p2
  norm_num
  linarith

/-- The computed derivatives of the equation of state, on a box: numbers within `η` of the exact `rs`, `rt`, which are bounded by `Q` and
have Lipschitz constants `Ls`, `Lt`, `Lp`. -/
structure STBox (rnd : ℝ → ℝ) (b : Traj.Box) (eosST : Rfl rnd → Rfl rnd → Rfl rnd → Rfl rnd × Rfl rnd) (rs rt : ℝ → ℝ → ℝ → ℝ) (η Ls Lt Lp Q : ℝ) : Prop where
  val : ∀ s t p, b.In s t p → ∃ x y, eosST (Rfl.fin s) (Rfl.fin t) (Rfl.fin p) = (Rfl.fin x, Rfl.fin y) ∧ |x - rs s t p| ≤ η ∧ |y - rt s t p| ≤ η
  size : ∀ s t p, b.In s t p → |rs s t p| ≤ Q ∧ |rt s t p| ≤ Q
  lip : ∀ s t p s' t' p', b.In s t p → b.In s' t' p' →
    |rs s t p - rs s' t' p'| ≤ Ls * |s - s'| + Lt * |t - t'| + Lp * |p - p'| ∧ |rt s t p - rt s' t' p'| ≤ Ls * |s - s'| + Lt * |t - t'| + Lp * |p - p'|
  nonneg : 0 ≤ Ls ∧ 0 ≤ Lt ∧ 0 ≤ Lp ∧ 0 ≤ η ∧ 0 ≤ Q

/-- Combination of values and slopes. -/
theorem combine_err (R : BinRound rnd) {x y r r' m n m' n' η μ Q : ℝ} (hx : |x - r| ≤ η) (hy : |y - r'| ≤ η) (hr : |r| ≤ Q) (hr' : |r'| ≤ Q)
    (hm : |m' - m| ≤ 9 * μ / 2 ^ 53) (hn : |n' - n| ≤ 9 * μ / 2 ^ 53) (hmμ : |m| ≤ μ) (hnμ : |n| ≤ μ) :
    |rnd (rnd (x * m') + rnd (y * n')) - (r * m + r' * n)| ≤ 7 * (μ * η) + 25 * (Q * μ) / 2 ^ 53 := by
  have hη : 0 ≤ η := (abs_nonneg _).trans hx
  have hμ : 0 ≤ μ := (abs_nonneg _).trans hmμ
  have hQ : 0 ≤ Q := (abs_nonneg _).trans hr
  have p1 : 0 ≤ μ * η := mul_nonneg hμ hη
  have p2 : 0 ≤ Q * μ := mul_nonneg hQ hμ
  have one : ∀ {x r m' m : ℝ}, |x - r| ≤ η → |r| ≤ Q → |m' - m| ≤ 9 * μ / 2 ^ 53 → |m| ≤ μ →
      |rnd (x * m') - r * m| ≤ 3 * (μ * η) + 11 * (Q * μ) / 2 ^ 53 ∧ |r * m| ≤ Q * μ := by
    intro x r m' m h1 h2 h3 h4
    have q0 : |r * m| ≤ Q * μ := by
      rw [abs_mul]
      exact mul_le_mul h2 h4 (abs_nonneg _) hQ
    refine ⟨(rapp R.toStdRound (mapp h1 h3 h2 h4) q0).trans ?_, q0⟩
    ring_nf
    ring_nf at p1 p2
    norm_num
    linarith
  obtain ⟨a1, a2⟩ := one hx hr hm hmμ
  obtain ⟨b1, b2⟩ := one hy hr' hn hnμ
  have c1 : |rnd (x * m') + rnd (y * n') - (r * m + r' * n)| ≤ 6 * (μ * η) + 22 * (Q * μ) / 2 ^ 53 := by
    rw [show rnd (x * m') + rnd (y * n') - (r * m + r' * n) = (rnd (x * m') - r * m) + (rnd (y * n') - r' * n) by ring]
    have := abs_add_le (rnd (x * m') - r * m) (rnd (y * n') - r' * n)
    ring_nf at this a1 b1 ⊢
    linarith
  have c2 : |r * m + r' * n| ≤ 2 * (Q * μ) := by
    have := abs_add_le (r * m) (r' * n)
    linarith
  refine (rapp R.toStdRound c1 c2).trans ?_
  ring_nf
  ring_nf at p1 p2
  norm_num
  linarith

/-- Linear interpolation. -/
def linC {F : Type*} [FloatLike F] (X Y : Arr F) : Option (PPC F) := some (linearCoeffs1 X Y)

/-- Coefficients of the linear pieces. -/
noncomputable def linP (a y : ℕ → ℝ) (k : ℕ) : List ℝ := [chord a y k, y k]

theorem linP_eval (a y : ℕ → ℝ) (k : ℕ) (x : ℝ) : (polyOf (linP a y k)).eval x = y k + chord a y k * x := by
  rw [← horner_eval]
  simp only [linP, List.foldl]
  ring

theorem linP_deriv (a y : ℕ → ℝ) (k : ℕ) (x : ℝ) : (polyOf (linP a y k)).derivative.eval x = chord a y k := by
  have : polyOf (linP a y k) = Polynomial.C (chord a y k) * Polynomial.X + Polynomial.C (y k) := by
    simp [polyOf, linP, Finset.sum_range_succ]
  rw [this]
  simp

theorem gk_lin (rs rt : ℝ → ℝ → ℝ → ℝ) (a s t : ℕ → ℝ) (k : ℕ) (x : ℝ) : gk rs rt a (linP a s) (linP a t) k x =
    rs (s k + chord a s k * (x - a k)) (t k + chord a t k * (x - a k)) x * chord a s k +
    rt (s k + chord a s k * (x - a k)) (t k + chord a t k * (x - a k)) x * chord a t k := by
  unfold gk
  simp only [linP_eval, linP_deriv]

theorem Profile.linCast {P S T : Arr (Fl ℝ)} {K : ℕ} {a s t : ℕ → ℝ} (H : Profile P S T K a s t) :
    Cast P (linearCoeffs1 P S) (linearCoeffs1 P T) K a (linP a s) (linP a t) := by
  have htwo := H.BS.two
  refine ⟨by omega, H.BS.K_le, H.hP, H.inc, fun i hi => ?_, fun i hi => ?_⟩
  · show [(diffSame S).get i / (diffSame P).get i, S.get i] = _
    rw [H.BS.chordδ (Nat.zero_le _) hi, H.BS.hY i (Nat.zero_le _) (by omega)]
    rfl
  · show [(diffSame T).get i / (diffSame P).get i, T.get i] = _
    rw [H.BT.chordδ (Nat.zero_le _) hi, H.BT.hY i (Nat.zero_le _) (by omega)]
    rfl

/-- A cast and the sizes of its data: pressures up to `M`, bottles at most `H` apart, vertical gradients of salinity and temperature up to `μ`; the data is inside the
box by margins `eS`, `eT` that bound the rounding errors of the interpolation. -/
structure VerCast (b : Traj.Box) (P S T : Arr (Rfl rnd)) (K : ℕ) (a s t : ℕ → ℝ) (M H μ eS eT : ℝ) : Prop where
  prof : Profile (exactArr P) (exactArr S) (exactArr T) K a s t
  absP : ∀ i, i < K → |a i| ≤ M
  space : ∀ k, k + 1 < K → a (k + 1) - a k ≤ H
  slopeS : ∀ k, k + 1 < K → |s (k + 1) - s k| ≤ μ * (a (k + 1) - a k)
  slopeT : ∀ k, k + 1 < K → |t (k + 1) - t k| ≤ μ * (a (k + 1) - a k)
  inS : ∀ i, i < K → b.s0 + eS ≤ s i ∧ s i ≤ b.s1 - eS
  inT : ∀ i, i < K → b.t0 + eT ≤ t i ∧ t i ≤ b.t1 - eT
  inP : b.p0 + 40 * M / 2 ^ 53 ≤ a 0 ∧ a (K - 1) ≤ b.p1 - 40 * M / 2 ^ 53
  sizeS : ∃ Y, (∀ i, i < K → |s i| ≤ Y) ∧ (200 * (μ * M) + 15 * (μ * H) + Y) / 2 ^ 53 ≤ eS
  sizeT : ∃ Y, (∀ i, i < K → |t i| ≤ Y) ∧ (200 * (μ * M) + 15 * (μ * H) + Y) / 2 ^ 53 ≤ eT
  nonneg : 0 ≤ μ ∧ 0 ≤ eS ∧ 0 ≤ eT

variable {b : Traj.Box} {P S T : Arr (Rfl rnd)} {K : ℕ} {a s t : ℕ → ℝ} {M H μ eS eT : ℝ}
  {eosST : Rfl rnd → Rfl rnd → Rfl rnd → Rfl rnd × Rfl rnd} {rs rt : ℝ → ℝ → ℝ → ℝ} {η Ls Lt Lp Q δ : ℝ}

/-- A line stays between its ends. -/
theorem line_mem {a0 a1 y0 y1 z lo hi : ℝ} (h : a0 < a1) (hz : a0 ≤ z) (hz' : z ≤ a1) (l0 : lo ≤ y0) (l1 : lo ≤ y1) (u0 : y0 ≤ hi) (u1 : y1 ≤ hi) :
    lo ≤ y0 + (y1 - y0) / (a1 - a0) * (z - a0) ∧ y0 + (y1 - y0) / (a1 - a0) * (z - a0) ≤ hi := by
  have hd : 0 < a1 - a0 := sub_pos.mpr h
  have e : y0 + (y1 - y0) / (a1 - a0) * (z - a0) = (1 - (z - a0) / (a1 - a0)) * y0 + (z - a0) / (a1 - a0) * y1 := by ring
  rw [e]
  set w := (z - a0) / (a1 - a0)
  have t0 : 0 ≤ w := div_nonneg (by linarith) hd.le
  have t1 : w ≤ 1 := (div_le_one hd).mpr (by linarith)
  constructor <;> nlinarith

/-- One column near a point of a piece. -/
theorem col_near (R : BinRound rnd) {X Y : Arr (Rfl rnd)} {y : ℕ → ℝ} (B : BlockR X Y 0 K a y) {k : ℕ} (hk : k + 1 < K) {z x lo hi er : ℝ}
    (hz : a k ≤ z) (hz' : z ≤ a (k + 1)) (hx : |x - z| ≤ 40 * M / 2 ^ 53) (hH : a (k + 1) - a k ≤ H) (hs : |y (k + 1) - y k| ≤ μ * (a (k + 1) - a k))
    (hin : ∀ i, i < K → lo + er ≤ y i ∧ y i ≤ hi - er) (hsz : ∃ Y, (∀ i, i < K → |y i| ≤ Y) ∧ (200 * (μ * M) + 15 * (μ * H) + Y) / 2 ^ 53 ≤ er) :
    ∃ v m, pval (Rfl.fin x - X.get k) ((linearCoeffs1 X Y).row k) 0 = Rfl.fin v ∧ pval (Rfl.fin x - X.get k) ((linearCoeffs1 X Y).row k) 1 = Rfl.fin m ∧
      |v - (y k + chord a y k * (z - a k))| ≤ er ∧ |m - chord a y k| ≤ 9 * μ / 2 ^ 53 ∧ |chord a y k| ≤ μ ∧
      (lo ≤ v ∧ v ≤ hi) ∧ lo ≤ y k + chord a y k * (z - a k) ∧ y k + chord a y k * (z - a k) ≤ hi := by
  obtain ⟨Y', hY, her⟩ := hsz
  have hd := Block.hpos B (Nat.zero_le k) hk
  have hX0 : X.get k = Rfl.fin (a k) := Block.hX B k (Nat.zero_le _) (by omega)
  have hY0 : Y.get k = Rfl.fin (y k) := Block.hY B k (Nat.zero_le _) (by omega)
  obtain ⟨_, hc, _, _⟩ := chordR R.toStdRound B (Nat.zero_le k) hk
  have hrow : (linearCoeffs1 X Y).row k = [Rfl.fin (rnd (rnd (y (k + 1) - y k) / rnd (a (k + 1) - a k))), Rfl.fin (y k)] := by
    show [(diffSame Y).get k / (diffSame X).get k, Y.get k] = _
    rw [hc, hY0]
  have hμ : |(y (k + 1) - y k) / (a (k + 1) - a k)| ≤ μ := by
    rw [abs_div, abs_of_pos hd, div_le_iff₀ hd]
    exact hs
  have hm := line_mem (sub_pos.mp hd) hz hz' (hin k (by omega)).1 (hin (k + 1) hk).1 (hin k (by omega)).2 (hin (k + 1) hk).2
  have a1 := abs_le.mp (hY k (by omega))
  have a2 := abs_le.mp (hY (k + 1) hk)
  have hb := line_mem (sub_pos.mp hd) hz hz' a1.1 a2.1 a1.2 a2.2
  obtain ⟨e1, e2⟩ := line_near R (sub_pos.mp hd) hz hz' hx hH hμ (abs_le.mpr hb)
  have e3 := e1.trans (le_trans (le_of_eq (by ring)) her)
  have e4 := abs_le.mp e3
  have her0 := (abs_nonneg _).trans e3
  rw [hrow, hX0, Rfl.fin_sub, pval_lin_rnd R.toStdRound, pval_slope_rnd R]
  unfold chord
  exact ⟨_, _, rfl, rfl, e3, e2, hμ, ⟨by linarith, by linarith⟩, by linarith, by linarith⟩

/-- The computed integrand at a computed node. -/
theorem integrand_rnd (R : BinRound rnd) (C : VerCast b P S T K a s t M H μ eS eT) (E : STBox rnd b eosST rs rt η Ls Lt Lp Q)
    (hδ : η + Ls * eS + Lt * eT + Lp * (40 * M / 2 ^ 53) ≤ δ) {k : ℕ} (hk : k + 1 < K) {z x : ℝ} (hz : a k ≤ z) (hz' : z ≤ a (k + 1))
    (hx : |x - z| ≤ 40 * M / 2 ^ 53) :
    ∃ v, integrand eosST P (linearCoeffs1 P S) (linearCoeffs1 P T) k (Rfl.fin x) = Rfl.fin v ∧
      |v - gk rs rt a (linP a s) (linP a t) k z| ≤ 7 * (μ * δ) + 25 * (Q * μ) / 2 ^ 53 ∧ |gk rs rt a (linP a s) (linP a t) k z| ≤ 2 * (Q * μ) := by
  have hsz := C.prof.linCast.size
  have hcm := C.prof.linCast.mono
  obtain ⟨vs, ms, s1, s2, s3, s4, s5, ⟨s6, s6'⟩, s7, s8⟩ := col_near R (X := P) (Y := S) C.prof.BS hk hz hz' hx (C.space k hk) (C.slopeS k hk) C.inS C.sizeS
  obtain ⟨vt, mt, t1, t2, t3, t4, t5, ⟨t6, t6'⟩, t7, t8⟩ := col_near R (X := P) (Y := T) C.prof.BT hk hz hz' hx (C.space k hk) (C.slopeT k hk) C.inT C.sizeT
  have m0 := hcm 0 k (Nat.zero_le _) (by omega)
  have m1 := hcm (k + 1) (K - 1) (by omega) (by omega)
  have hM : 0 ≤ 40 * M / 2 ^ 53 := (abs_nonneg _).trans hx
  have hxx := abs_le.mp hx
  have i1 : b.In vs vt x := ⟨s6, s6', t6, t6', by linarith [C.inP.1], by linarith [C.inP.2]⟩
  have i2 : b.In (s k + chord a s k * (z - a k)) (t k + chord a t k * (z - a k)) z := ⟨s7, s8, t7, t8, by linarith [C.inP.1], by linarith [C.inP.2]⟩
  obtain ⟨r, r', hr, e1, e2⟩ := E.val _ _ _ i1
  obtain ⟨l1, l2⟩ := E.lip _ _ _ _ _ _ i1 i2
  obtain ⟨q1, q2⟩ := E.size _ _ _ i2
  obtain ⟨n1, n2, n3, _⟩ := E.nonneg
  have w := add_le_add (add_le_add (mul_le_mul_of_nonneg_left s3 n1) (mul_le_mul_of_nonneg_left t3 n2)) (mul_le_mul_of_nonneg_left hx n3)
  rw [gk_lin]
  unfold integrand
  simp only
  rw [s1, t1, s2, t2, hr, Rfl.fin_mul, Rfl.fin_mul, Rfl.fin_add]
  generalize s k + chord a s k * (z - a k) = sz at *
  generalize t k + chord a t k * (z - a k) = tz at *
  have f1 : |r - rs sz tz z| ≤ δ := by
    have := abs_add_le (r - rs vs vt x) (rs vs vt x - rs sz tz z)
    rw [sub_add_sub_cancel] at this
    linarith
  have f2 : |r' - rt sz tz z| ≤ δ := by
    have := abs_add_le (r' - rt vs vt x) (rt vs vt x - rt sz tz z)
    rw [sub_add_sub_cancel] at this
    linarith
  refine ⟨_, rfl, combine_err R f1 f2 q1 q2 s4 t4 s5 t5, ?_⟩
  have hQ := (abs_nonneg _).trans q1
  refine (abs_add_le _ _).trans ?_
  rw [abs_mul, abs_mul]
  have := mul_le_mul q1 s5 (abs_nonneg _) hQ
  have := mul_le_mul q2 t5 (abs_nonneg _) hQ
  linarith

/-- Rounding error of one integral between bottles, with up to `n` intervals. -/
noncomputable def pieceErr (M H μ Q δ n : ℝ) : ℝ := 28 * (H * (μ * δ)) + Q * μ * (960 * (n * M) + (120 + 4 * n) * H) / 2 ^ 53

/-- A bounded integrand gives a bounded sum. -/
theorem trap_abs {f : ℝ → ℝ} {p q F : ℝ} (h : ∀ x, p ≤ x → x ≤ q → |f x| ≤ F) (hpq : p ≤ q) {N : ℕ} (hN : 0 < N) : |trap f p q N| ≤ F * (q - p) := by
  have hNr : (0 : ℝ) < N := by exact_mod_cast hN
  unfold trap
  refine (Finset.abs_sum_le_sum_abs _ _).trans ?_
  have hm : ∀ j : ℕ, j ≤ N → p ≤ p + (q - p) * (j / N) ∧ p + (q - p) * (j / N) ≤ q := by
    intro j hj
    have h1 : (0 : ℝ) ≤ j / N := by positivity
    have h2 : (j : ℝ) / N ≤ 1 := by rw [div_le_one hNr]; exact_mod_cast hj
    constructor <;> nlinarith
  have : ∀ i ∈ Finset.range N, |(q - p) / N * ((f (p + (q - p) * (i / N)) + f (p + (q - p) * ((i + 1) / N))) / 2)| ≤ (q - p) / N * F := by
    intro i hi
    rw [Finset.mem_range] at hi
    have h0 : 0 ≤ (q - p) / N := div_nonneg (by linarith) hNr.le
    rw [abs_mul, abs_of_nonneg h0, abs_div, abs_of_pos (two_pos (α := ℝ))]
    refine mul_le_mul_of_nonneg_left ?_ h0
    have a1 := h _ (hm i hi.le).1 (hm i hi.le).2
    have a2 := h _ (hm (i + 1) hi).1 (hm (i + 1) hi).2
    push_cast at a2
    have := abs_add_le (f (p + (q - p) * (i / N))) (f (p + (q - p) * ((i + 1) / N)))
    linarith
  refine (Finset.sum_le_sum this).trans (le_of_eq ?_)
  rw [Finset.sum_const, Finset.card_range, nsmul_eq_mul]
  field_simp

/-- The number of intervals. -/
theorem count_rnd (R : BinRound rnd) {w dp n H : ℝ} (hw : 0 < w) (hdp : 0 < dp) (hH : w ≤ H) (hn : 2 * H / dp + 2 ≤ n) :
    ∃ N : ℕ, ⌈rnd (rnd w / dp)⌉ = (N : ℤ) ∧ 0 < N ∧ (N : ℝ) ≤ n ∧ w / N ≤ dp * (1 + 1 / 2 ^ 50) := by
  have e1 : RelErr 2 w (rnd w) := (RelErr.refl _).round R.toStdRound (by norm_num)
  have e2 := (e1.div (RelErr.refl dp) (by norm_num) (by norm_num) hdp.ne').round R.toStdRound (by norm_num)
  norm_num at e2
  unfold RelErr at e2
  have hq : 0 < w / dp := div_pos hw hdp
  rw [abs_of_pos hq] at e2
  have e3 := abs_le.mp e2
  have hHd : w / dp ≤ H / dp := div_le_div_of_nonneg_right hH hdp.le
  generalize rnd (rnd w / dp) = r at *
  have hr : 0 < r := by
    push_cast at e3
    norm_num at e3
    linarith
  have hc := Int.le_ceil r
  have hc1 := Int.ceil_lt_add_one r
  have hc0 : 0 < ⌈r⌉ := Int.ceil_pos.mpr hr
  obtain ⟨N, hN⟩ := Int.eq_ofNat_of_zero_le hc0.le
  rw [hN] at hc hc1 hc0
  have hN0 : 0 < N := by exact_mod_cast hc0
  have hNr : (0 : ℝ) < N := by exact_mod_cast hN0
  rw [mul_div_assoc] at hn
  push_cast at hc hc1 e3
  refine ⟨N, hN, hN0, ?_, ?_⟩
  · norm_num at e3
    linarith
  · rw [div_le_iff₀ hNr]
    have h1 : w / dp ≤ (1 + 1 / 2 ^ 50) * N := by
      norm_num at e3 ⊢
      linarith
    rw [div_le_iff₀ hdp] at h1
    linarith

/-- The integral over (the lower part of) one piece. -/
theorem intXK_rnd (R : BinRound rnd) (C : VerCast b P S T K a s t M H μ eS eT) (E : STBox rnd b eosST rs rt η Ls Lt Lp Q) (hc : ContEos rs rt)
    (hδ : η + Ls * eS + Lt * eT + Lp * (40 * M / 2 ^ 53) ≤ δ) (hδQ : 16 * δ ≤ Q) {ζ dp n : ℝ} (hζ : 0 ≤ ζ) (hdp : 0 < dp) (hn : 2 * H / dp + 2 ≤ n)
    (hn' : 2 * n ≤ 2 ^ 53) {k : ℕ} (hk : k + 1 < K) (hN : NearChords (gk rs rt a (linP a s) (linP a t) k) ζ (a k) (a (k + 1)))
    {p : ℝ} (hp : a k ≤ p) (hp' : p ≤ a (k + 1)) :
    ∃ v w, intXK eosST P (linearCoeffs1 P S) (linearCoeffs1 P T) (Rfl.fin dp) (Rfl.fin p) k = some (Rfl.fin v) ∧
      |v - w| ≤ pieceErr M H μ Q δ n ∧ |w| ≤ 2 * (Q * μ) * (a (k + 1) - p) ∧
      |w - ∫ x in p..a (k + 1), gk rs rt a (linP a s) (linP a t) k x| ≤ ζ / 11 * dp ^ 2 * (a (k + 1) - p) := by
  have hsz := C.prof.linCast.size
  have hP1 : P.get (k + 1) = Rfl.fin (a (k + 1)) := C.prof.hP (k + 1) (by show k + 1 < (exactArr P).size; omega)
  have hdk := C.prof.inc k (by show k + 1 < (exactArr P).size; omega)
  have hM0 : 0 ≤ M := (abs_nonneg _).trans (C.absP 0 (by omega))
  have hH := C.space k hk
  have hH0 : 0 ≤ H := by linarith
  obtain ⟨hμ0, heS, heT⟩ := C.nonneg
  obtain ⟨n1, n2, n3, hη, hQ0⟩ := E.nonneg
  have hδ0 : 0 ≤ δ := by
    have := mul_nonneg n1 heS
    have := mul_nonneg n2 heT
    have := mul_nonneg n3 (by positivity : 0 ≤ 40 * M / 2 ^ 53)
    linarith
  have hB : 0 ≤ pieceErr M H μ Q δ n := by
    have : 0 ≤ n := by
      have : 0 ≤ 2 * H / dp := by positivity
      linarith
    unfold pieceErr
    positivity
  unfold intXK
  rw [hP1, Rfl.fin_sub, sdiv_fin_rnd R.toStdRound hdp.ne']
  simp only
  have hceil : FloatCeil.ceilInt (Rfl.fin (rnd (rnd (a (k + 1) - p) / dp)) : Rfl rnd) = some ⌈rnd (rnd (a (k + 1) - p) / dp)⌉ := rfl
  rw [hceil]
  simp only
  rcases hp'.lt_or_eq with hlt | heq
  swap
  · subst heq
    rw [sub_self, R.zero, zero_div, R.zero, Int.ceil_zero, if_neg (by norm_num)]
    refine ⟨0, 0, ?_, by simpa using hB, by simp, by simp⟩
    simp [trapz, R.zero]
  obtain ⟨N, hNc, hN0, hNn, hstep⟩ := count_rnd R (sub_pos.mpr hlt) hdp (by linarith : a (k + 1) - p ≤ H) hn
  have hNr : (0 : ℝ) < N := by exact_mod_cast hN0
  have hw : 0 < a (k + 1) - p := sub_pos.mpr hlt
  rw [hNc, if_neg (by omega), show ((N : ℤ) + 1).toNat = N + 1 by omega]
  have habs : |p| ≤ M := by
    have a1 := abs_le.mp (C.absP k (by omega))
    have a2 := abs_le.mp (C.absP (k + 1) hk)
    exact abs_le.mpr ⟨by linarith, by linarith⟩
  set q := a (k + 1) with hq
  set g := gk rs rt a (linP a s) (linP a t) k with hg
  set z : ℕ → ℝ := fun i => p + (q - p) * (i / N) with hz
  have hzm : ∀ i, i ≤ N → a k ≤ z i ∧ z i ≤ q := by
    intro i hi
    have h1 : (0 : ℝ) ≤ i / N := by positivity
    have h2 : (i : ℝ) / N ≤ 1 := by rw [div_le_one hNr]; exact_mod_cast hi
    simp only [hz]
    constructor <;> nlinarith
  have hx : ∀ i, i ≤ N → ∃ v, linspace (Rfl.fin p : Rfl rnd) (Rfl.fin q) (N + 1) i = Rfl.fin v ∧ |v - z i| ≤ 40 * M / 2 ^ 53 :=
    fun i hi => linspace_rnd R habs (C.absP (k + 1) hk) hN0 hi
  have hstepz : ∀ i, i < N → z (i + 1) - z i = (q - p) / N := by
    intro i _; simp only [hz]; push_cast; field_simp; ring
  obtain ⟨v, hv, hve⟩ := trapz_rnd (F := 2 * (Q * μ)) (ε := 7 * (μ * δ) + 25 * (Q * μ) / 2 ^ 53) R (y := fun i => integrand eosST P (linearCoeffs1 P S) (linearCoeffs1 P T) k (linspace (Rfl.fin p) (Rfl.fin q) (N + 1) i))
    (x := linspace (Rfl.fin p) (Rfl.fin q) (N + 1)) (g := fun i => g (z i)) (z := z) (h := (q - p) / N) (N := N) (by positivity)
    (by
      have : 16 * (μ * δ) ≤ Q * μ := by nlinarith
      have : 0 ≤ Q * μ := by positivity
      norm_num
      linarith) (by linarith) hx hstepz
    (fun i hi => by
      obtain ⟨x, h1, h2⟩ := hx i hi
      obtain ⟨v, e1, e2, _⟩ := integrand_rnd R C E hδ hk (hzm i hi).1 (hzm i hi).2 h2
      exact ⟨v, by simp only [h1]; exact e1, e2⟩)
    (fun i hi => by
      obtain ⟨x, h1, h2⟩ := hx i hi
      obtain ⟨v, _, _, e3⟩ := integrand_rnd R C E hδ hk (hzm i hi).1 (hzm i hi).2 h2
      exact e3)
  have hsum : ∑ i ∈ Finset.range N, (q - p) / N * ((g (z i) + g (z (i + 1))) / 2) = trap g p q N := by
    unfold trap
    simp only [hz]
    push_cast
    rfl
  rw [hsum] at hve
  refine ⟨v, trap g p q N, by rw [hv], ?_, ?_, ?_⟩
  · refine hve.trans ?_
    have e1 : (N : ℝ) * ((q - p) / N) = q - p := by field_simp
    have hwH : q - p ≤ H := by linarith
    have p1 : 0 ≤ μ * δ := by positivity
    have p2 : 0 ≤ Q * μ := by positivity
    have q1 : N * M ≤ n * M := mul_le_mul_of_nonneg_right hNn hM0
    have q2 : (q - p) * (μ * δ) ≤ H * (μ * δ) := mul_le_mul_of_nonneg_right hwH p1
    have q3 : (Q * μ) * (N * M) ≤ (Q * μ) * (n * M) := mul_le_mul_of_nonneg_left q1 p2
    have q4 : (Q * μ) * (q - p) ≤ (Q * μ) * H := mul_le_mul_of_nonneg_left hwH p2
    have q5 : (Q * μ) * (N * (q - p)) ≤ (Q * μ) * (n * H) := mul_le_mul_of_nonneg_left (mul_le_mul hNn hwH hw.le (by linarith)) p2
    have e2 : 2 * (N : ℝ) * (6 * (2 * (Q * μ) * (40 * M / 2 ^ 53)) + 2 * ((q - p) / N * (7 * (μ * δ) + 25 * (Q * μ) / 2 ^ 53)) +
        5 * ((q - p) / N * (2 * (Q * μ))) / 2 ^ 53 + N * ((q - p) / N) * (2 * (Q * μ)) / 2 ^ 53)
        = 28 * ((q - p) * (μ * δ)) + 960 * ((Q * μ) * (N * M)) / 2 ^ 53 + 120 * ((Q * μ) * (q - p)) / 2 ^ 53 + 4 * ((Q * μ) * (N * (q - p))) / 2 ^ 53 := by
      rw [e1]
      generalize (q - p) / (N : ℝ) = h at *
      rw [← e1]
      ring
    rw [e2]
    unfold pieceErr
    have e3 : Q * μ * (960 * (n * M) + (120 + 4 * n) * H) / 2 ^ 53 = 960 * ((Q * μ) * (n * M)) / 2 ^ 53 + 120 * ((Q * μ) * H) / 2 ^ 53 + 4 * ((Q * μ) * (n * H)) / 2 ^ 53 := by ring
    rw [e3]
    linarith
  · refine trap_abs (fun x h1 h2 => ?_) hlt.le hN0
    obtain ⟨_, _, _, e3⟩ := integrand_rnd R C E hδ hk (hp.trans h1) h2 (x := x) (by rw [sub_self, abs_zero]; positivity)
    exact e3
  · have hsN : 0 < (q - p) / N := div_pos hw hNr
    have hnI : nInt ((q - p) / N) p q = N := by
      unfold nInt
      rw [div_div_cancel₀ hw.ne', Nat.ceil_natCast]
    have := trap_err (gk_continuous (a := a) hc (linP a s) (linP a t) k) hζ (fun u' x v a1 a2 a3 a4 => hN u' x v (hp.trans a1) a2 a3 a4 : NearChords g ζ p q) hlt.le hsN
    rw [hnI] at this
    refine this.trans ?_
    refine mul_le_mul_of_nonneg_right ?_ hw.le
    have h2 : ((q - p) / N) ^ 2 ≤ (dp * (1 + 1 / 2 ^ 50)) ^ 2 := pow_le_pow_left₀ hsN.le hstep 2
    have h3 : (dp * (1 + 1 / 2 ^ 50)) ^ 2 ≤ dp ^ 2 * (12 / 11) := by
      rw [mul_pow]
      refine mul_le_mul_of_nonneg_left (by norm_num) (by positivity)
    calc ζ / 12 * ((q - p) / N) ^ 2 ≤ ζ / 12 * (dp ^ 2 * (12 / 11)) := mul_le_mul_of_nonneg_left (h2.trans h3) (by positivity)
      _ = ζ / 11 * dp ^ 2 := by ring

/-- Finding the bottles is not affected by rounding. -/
theorem pieceEnd_rnd (P : Arr (Rfl rnd)) (p : ℝ) : pieceEnd P (Rfl.fin p) = pieceEnd (exactArr P) (Fl.fin p) := by
  unfold pieceEnd searchsorted
  congr 1
  exact bsearch_rnd _ _ _ _ _

/-- The integral between two positions, the first above the second. -/
theorem intUp_rnd (R : BinRound rnd) (C : VerCast b P S T K a s t M H μ eS eT) (E : STBox rnd b eosST rs rt η Ls Lt Lp Q) (hc : ContEos rs rt)
    (hδ : η + Ls * eS + Lt * eT + Lp * (40 * M / 2 ^ 53) ≤ δ) (hδQ : 16 * δ ≤ Q) {ζ dp n : ℝ} (hζ : 0 ≤ ζ) (hdp : 0 < dp) (hn : 2 * H / dp + 2 ≤ n)
    (hn' : 2 * n ≤ 2 ^ 53) (hK : 2 * (K : ℝ) ≤ 2 ^ 53)
    (hN : ∀ k, k + 1 < K → NearChords (gk rs rt a (linP a s) (linP a t) k) ζ (a k) (a (k + 1)))
    {p q : ℝ} (hp : a 0 ≤ p) (hpq : p ≤ q) (hq : q ≤ a (K - 1)) :
    ∃ v w u, v = rnd u ∧ intUp eosST P (linearCoeffs1 P S) (linearCoeffs1 P T) (Rfl.fin dp) (Rfl.fin p) (Rfl.fin q) = some (Rfl.fin v) ∧
      |v - w| ≤ 2 * K * (pieceErr M H μ Q δ n + 4 * (Q * μ) * (a (K - 1) - a 0) / 2 ^ 53) ∧ |w| ≤ 2 * (2 * (Q * μ) * (a (K - 1) - a 0)) ∧
      |w - (tailEx rs rt (exactArr P) K a (linP a s) (linP a t) p - tailEx rs rt (exactArr P) K a (linP a s) (linP a t) q)| ≤ ζ / 11 * dp ^ 2 * (q - p + 2 * H) := by
  have B := C.prof.linCast
  have hsz := B.size
  have htwo := B.two
  obtain ⟨p1, p2, p3, p4, p5⟩ := pieceEnd_spec B hp (hpq.trans hq)
  obtain ⟨q1, q2, q3, q4, q5⟩ := pieceEnd_spec B (hp.trans hpq) hq
  have hj := pieceEnd_mono B hp hpq hq
  unfold intUp tailEx
  simp only [pieceEnd_rnd]
  generalize pieceEnd (exactArr P) (Fl.fin p) = i at *
  generalize pieceEnd (exactArr P) (Fl.fin q) = j at *
  have hQ0 := E.nonneg.2.2.2.2
  have hμ0 := C.nonneg.1
  have p0 : 0 ≤ 2 * (Q * μ) := by positivity
  have hZ : 0 ≤ ζ / 11 * dp ^ 2 := by positivity
  obtain ⟨v0, w0, f1, f2, f3, f4⟩ := intXK_rnd R C E hc hδ hδQ hζ hdp hn hn' (k := i - 1) (by omega) (hN _ (by omega)) p4 (by rw [show i - 1 + 1 = i by omega]; exact p3)
  obtain ⟨v1, w1, l1, l2, l3, l4⟩ := intXK_rnd R C E hc hδ hδQ hζ hdp hn hn' (k := j - 1) (by omega) (hN _ (by omega)) q4 (by rw [show j - 1 + 1 = j by omega]; exact q3)
  rw [show i - 1 + 1 = i by omega] at f3 f4
  rw [show j - 1 + 1 = j by omega] at l3 l4
  have hEr : 0 ≤ pieceErr M H μ Q δ n := (abs_nonneg _).trans f2
  set Er := pieceErr M H μ Q δ n
  set F := 2 * (Q * μ)
  set Z := ζ / 11 * dp ^ 2
  set L := a (K - 1) - a 0 with hL
  have hL0 : 0 ≤ L := by linarith
  have hFL : 0 ≤ F * L := mul_nonneg p0 hL0
  have hAe : Er + 4 * (Q * μ) * L / 2 ^ 53 = Er + 2 * (F * L) / 2 ^ 53 := by ring
  rw [hAe]
  set A := Er + 2 * (F * L) / 2 ^ 53 with hA
  have hFLu : 0 ≤ F * L / 2 ^ 53 := by positivity
  have hA0 : 0 ≤ A := by linarith
  have key : ∀ m, i + m < K → ∃ v w, (List.range' i m).foldlM (fun (d : Rfl rnd) k =>
        (intXK eosST P (linearCoeffs1 P S) (linearCoeffs1 P T) (Rfl.fin dp) (P.get k) k).map (fun y => d + y)) (Rfl.fin v0) = some (Rfl.fin v) ∧
      |v - w| ≤ 2 * (m + 1) * A ∧ |w| ≤ F * (a (i + m) - p) ∧
      |w - ((∫ x in p..a i, gk rs rt a (linP a s) (linP a t) (i - 1) x) + ∑ k ∈ Finset.Ico i (i + m), ∫ x in a k..a (k + 1), gk rs rt a (linP a s) (linP a t) k x)|
        ≤ Z * (a (i + m) - p) := by
    intro m
    induction m with
    | zero =>
      intro _
      refine ⟨v0, w0, rfl, ?_, by simpa using f3, by simpa using f4⟩
      refine f2.trans ?_
      push_cast
      linarith
    | succ m ih =>
      intro hm
      obtain ⟨v, w, h1, h2, h3, h4⟩ := ih (by omega)
      have hinc := B.inc (i + m) (by omega)
      obtain ⟨v', w', g1, g2, g3, g4⟩ := intXK_rnd R C E hc hδ hδQ hζ hdp hn hn' (k := i + m) (by omega) (hN _ (by omega)) le_rfl hinc.le
      have hPg : P.get (i + m) = Rfl.fin (a (i + m)) := B.hP (i + m) (by omega)
      rw [List.range'_concat, List.foldlM_append, h1]
      simp only [one_mul, List.foldlM_cons, List.foldlM_nil, Option.bind_eq_bind, Option.bind_some, Option.pure_def]
      rw [hPg, g1]
      simp only [Option.map_some, Option.bind_some, Rfl.fin_add]
      refine ⟨_, w + w', rfl, ?_, ?_, ?_⟩
      · have e1 : |v + v' - (w + w')| ≤ 2 * (m + 1) * A + Er := by
          rw [show v + v' - (w + w') = (v - w) + (v' - w') by ring]
          have := abs_add_le (v - w) (v' - w')
          linarith
        have e0 : |w + w'| ≤ F * L := by
          have := abs_add_le w w'
          have hm1 := B.mono (i + m + 1) (K - 1) (by omega) (by omega)
          have : F * (a (i + m) - p) + F * (a (i + m + 1) - a (i + m)) ≤ F * L := by
            rw [← mul_add]
            exact mul_le_mul_of_nonneg_left (by linarith) p0
          linarith
        refine (rapp R.toStdRound e1 e0).trans ?_
        have hmK : ((m : ℝ) + 2) ≤ K := by exact_mod_cast (by omega : m + 2 ≤ K)
        have e3 : (2 * (m + 1) * A + Er) / 2 ^ 53 ≤ A := by
          rw [div_le_iff₀ (by positivity)]
          have : 2 * ((m : ℝ) + 1) * A + Er ≤ (2 * (m + 1) + 1) * A := by linarith
          refine this.trans ?_
          rw [mul_comm]
          exact mul_le_mul_of_nonneg_left (by linarith) hA0
        rw [add_div]
        push_cast
        linarith
      · refine (abs_add_le _ _).trans ?_
        rw [← add_assoc]
        linarith
      · rw [← add_assoc, Finset.sum_Ico_succ_top (by omega)]
        refine le_trans (le_of_eq ?_) ((abs_add_le _ _).trans (add_le_add h4 g4) |>.trans (le_of_eq ?_))
        · congr 1; ring
        · ring
  obtain ⟨v, w, h1, h2, h3, h4⟩ := key (j - i) (by omega)
  rw [show i + (j - i) = j by omega] at h3 h4
  have hcast : ((j - i : ℕ) : ℝ) + 2 ≤ K := by exact_mod_cast (by omega : j - i + 2 ≤ K)
  have hja := B.mono j (K - 1) (by omega) (by omega)
  have e1 : |v - v1 - (w - w1)| ≤ 2 * ((j - i : ℕ) + 1) * A + Er := by
    rw [show v - v1 - (w - w1) = (v - w) - (v1 - w1) by ring]
    have := abs_sub (v - w) (v1 - w1)
    linarith
  have b1 : F * (a j - p) ≤ F * L := mul_le_mul_of_nonneg_left (by linarith) p0
  have b2 : F * (a j - q) ≤ F * L := mul_le_mul_of_nonneg_left (by linarith) p0
  have hlast := C.space (j - 1) (by omega)
  rw [show j - 1 + 1 = j by omega] at hlast
  have e0 : |w - w1| ≤ 2 * (F * L) := by
    have := abs_sub w w1
    linarith
  have e0' : |w - w1| ≤ 2 * (F * L) := e0
  refine ⟨rnd (v - v1), w - w1, v - v1, rfl, ?_, ?_, e0, ?_⟩
  · rw [f1]
    simp only [Option.bind_eq_bind, Option.bind_some]
    rw [h1]
    simp only [Option.bind_some]
    rw [l1]
    simp
  · refine (rapp R.toStdRound e1 e0).trans ?_
    have e3 : (2 * ((j - i : ℕ) + 1) * A + Er) / 2 ^ 53 ≤ A := by
      rw [div_le_iff₀ (by positivity)]
      have : 2 * ((j - i : ℕ) + 1) * A + Er ≤ (2 * ((j - i : ℕ) + 1) + 1) * A := by linarith
      refine this.trans ?_
      rw [mul_comm]
      exact mul_le_mul_of_nonneg_left (by linarith) hA0
    rw [add_div]
    have : 2 * ((j - i : ℕ) + 1 : ℝ) * A + 2 * A ≤ 2 * K * A := by nlinarith
    linarith
  · rw [← Finset.sum_Ico_consecutive _ hj (show j ≤ K - 1 by omega)]
    have hfin : Z * (a j - p) + Z * (a j - q) ≤ Z * (q - p + 2 * H) := by
      rw [← mul_add]
      exact mul_le_mul_of_nonneg_left (by linarith) hZ
    rw [abs_le] at h4 l4 ⊢
    constructor <;> linarith [h4.1, h4.2, l4.1, l4.2]

/-- Interpolation at a position: the computed and the exact value. -/
theorem col_at (R : BinRound rnd) {X Y : Arr (Rfl rnd)} {y : ℕ → ℝ} (B : BlockR X Y 0 K a y) {p lo hi er : ℝ} (hp : a 0 ≤ p ∧ p ≤ a (K - 1)) (hM : 0 ≤ μ * M)
    (hμ : 0 ≤ μ) (hH : ∀ k, k + 1 < K → a (k + 1) - a k ≤ H) (hs : ∀ k, k + 1 < K → |y (k + 1) - y k| ≤ μ * (a (k + 1) - a k))
    (hin : ∀ i, i < K → lo + er ≤ y i ∧ y i ≤ hi - er) (hsz : ∃ Y, (∀ i, i < K → |y i| ≤ Y) ∧ (200 * (μ * M) + 15 * (μ * H) + Y) / 2 ^ 53 ≤ er) :
    ∃ v w, ppval1 (Rfl.fin p) X (linearCoeffs1 X Y) 0 = Rfl.fin v ∧ linearInterp1 (Fl.fin p) (exactArr X) (exactArr Y) 0 = some (Fl.fin w) ∧
      |v - w| ≤ er ∧ (lo ≤ v ∧ v ≤ hi) ∧ lo ≤ w ∧ w ≤ hi := by
  obtain ⟨i, v, h1, h2, h3, h4, h5, _, h6⟩ := (linear_rounded R.toStdRound B p).1 hp
  obtain ⟨Y', hY, her⟩ := hsz
  have hd := Block.hpos B h1 h2
  have e := (linear_chord (X := exactArr X) (Y := exactArr Y) B h1 h2 h3 h4).2.1
  have hm := line_mem (sub_pos.mp hd) h3 h4 (hin i (by omega)).1 (hin (i + 1) h2).1 (hin i (by omega)).2 (hin (i + 1) h2).2
  have hb : (15 * |y (i + 1) - y i| + max |y i| |y (i + 1)|) / 2 ^ 53 ≤ er := by
    refine le_trans (div_le_div_of_nonneg_right ?_ (by positivity)) her
    have := max_le (hY i (by omega)) (hY (i + 1) h2)
    have := mul_le_mul_of_nonneg_left (hH i h2) hμ
    have := hs i h2
    linarith
  have h7 := h6.trans hb
  have h8 : lineThrough a y i p = y i + (y (i + 1) - y i) / (a (i + 1) - a i) * (p - a i) := by unfold lineThrough; ring
  rw [h8] at h7
  have h9 := abs_le.mp h7
  have := (abs_nonneg _).trans h7
  refine ⟨v, _, h5, e, ?_, ⟨by linarith, by linarith⟩, ?_⟩
  · rw [show y i + (p - a i) * ((y (i + 1) - y i) / (a (i + 1) - a i)) = y i + (y (i + 1) - y i) / (a (i + 1) - a i) * (p - a i) by ring]
    exact h7
  · rw [show y i + (p - a i) * ((y (i + 1) - y i) / (a (i + 1) - a i)) = y i + (y (i + 1) - y i) / (a (i + 1) - a i) * (p - a i) by ring]
    exact ⟨by linarith, by linarith⟩

/-- The integral between two positions, in either order. -/
theorem intDlrpd_rnd (R : BinRound rnd) (C : VerCast b P S T K a s t M H μ eS eT) (E : STBox rnd b eosST rs rt η Ls Lt Lp Q) (hc : ContEos rs rt)
    (hδ : η + Ls * eS + Lt * eT + Lp * (40 * M / 2 ^ 53) ≤ δ) (hδQ : 16 * δ ≤ Q) {ζ dp n : ℝ} (hζ : 0 ≤ ζ) (hdp : 0 < dp) (hn : 2 * H / dp + 2 ≤ n)
    (hn' : 2 * n ≤ 2 ^ 53) (hK : 2 * (K : ℝ) ≤ 2 ^ 53)
    (hN : ∀ k, k + 1 < K → NearChords (gk rs rt a (linP a s) (linP a t) k) ζ (a k) (a (k + 1)))
    {p q : ℝ} (hp : a 0 ≤ p ∧ p ≤ a (K - 1)) (hq : a 0 ≤ q ∧ q ≤ a (K - 1)) :
    ∃ v w, intDlrpd eosST P (linearCoeffs1 P S) (linearCoeffs1 P T) (Rfl.fin dp) (Rfl.fin q) (Rfl.fin p) = some (Rfl.fin v) ∧
      |v - w| ≤ 2 * K * (pieceErr M H μ Q δ n + 4 * (Q * μ) * (a (K - 1) - a 0) / 2 ^ 53) ∧ |w| ≤ 2 * (2 * (Q * μ) * (a (K - 1) - a 0)) ∧
      |w - (tailEx rs rt (exactArr P) K a (linP a s) (linP a t) p - tailEx rs rt (exactArr P) K a (linP a s) (linP a t) q)| ≤ ζ / 11 * dp ^ 2 * (|q - p| + 2 * H) := by
  have B := C.prof.linCast
  have hs := B.size
  have h2 := B.two
  have hend := B.mono (K - 1) ((exactArr P).size - 1) (by omega) (by omega)
  have hP0 : P.get 0 = Rfl.fin (a 0) := B.hP 0 (by omega)
  have hP1 : P.get (P.size - 1) = Rfl.fin (a (P.size - 1)) := B.hP (P.size - 1) (by show P.size - 1 < P.size; have : K ≤ P.size := hs; omega)
  have hend' : a (K - 1) ≤ a (P.size - 1) := hend
  have one : rnd ((1 : ℚ) : ℝ) = 1 := by push_cast; exact R.one
  have mone : rnd (((-1 : ℚ)) : ℝ) = -1 := by push_cast; rw [R.neg, R.one]
  unfold intDlrpd
  rw [hP0, hP1]
  simp only [Rfl.fin_add, Rfl.isNaN_fin, Rfl.lt_fin, Rfl.le_fin]
  rw [if_neg]
  · split_ifs with h
    · simp only [decide_eq_true_eq] at h
      obtain ⟨v, w, u, e0, e1, e2, e3, e4⟩ := intUp_rnd R C E hc hδ hδQ hζ hdp hn hn' hK hN hp.1 h hq.2
      refine ⟨v, w, ?_, e2, e3, by rw [abs_of_nonneg (by linarith : 0 ≤ q - p)]; exact e4⟩
      rw [e1, Option.map_some, Rfl.lit_eq, one, Rfl.fin_mul, mul_one, e0, R.idem]
    · simp only [decide_eq_true_eq, not_le] at h
      obtain ⟨v, w, u, e0, e1, e2, e3, e4⟩ := intUp_rnd R C E hc hδ hδQ hζ hdp hn hn' hK hN hq.1 h.le hp.2
      refine ⟨-v, -w, ?_, ?_, by rwa [abs_neg], ?_⟩
      · rw [e1, Option.map_some, Rfl.lit_eq, mone, Rfl.fin_mul, mul_neg_one, R.neg, e0, R.idem]
      · rw [show -v - -w = -(v - w) by ring, abs_neg]; exact e2
      · rw [abs_sub_comm q p, abs_of_nonneg (by linarith : 0 ≤ p - q)]
        refine le_trans (le_of_eq ?_) e4
        rw [← abs_neg]
        congr 1
        ring
  · simp only [Bool.or_eq_true, decide_eq_true_eq, Bool.false_or]
    push Not
    exact ⟨⟨⟨hp.1, by linarith⟩, hq.1⟩, by linarith⟩

/-- **C173** The Veronis density with linear interpolation, in floating point.  `g` is the vertical gradient of locally referenced potential density of the exact
interpolants.  The computed label is a number; its distance to the definition (potential density at the base plus `β` times the integral of `g`) is at most that of the
trapezoidal rule, `|β| ζ dp² / 11` times the length of the integration and twice a bottle spacing, plus rounding errors: those of the potential density, and for
each piece those of the derivatives of the equation of state (`δ`) and of the arithmetic (multiples of `2^-53`). -/
theorem veronis_rounded (R : BinRound rnd) (C : VerCast b P S T K a s t M H μ eS eT) (E : STBox rnd b eosST rs rt η Ls Lt Lp Q) (hc : ContEos rs rt)
    {b' : Traj.Box} {eos : Rfl rnd → Rfl rnd → Rfl rnd → Rfl rnd} {ρ' ρ : ℝ → ℝ → ℝ → ℝ} {η' Ls' Lt' Lp' : ℝ} (D : Traj.EosBox rnd b' eos ρ' ρ η' Ls' Lt' Lp')
    {pref : ℝ} (hb : b'.s0 ≤ b.s0 ∧ b.s1 ≤ b'.s1 ∧ b'.t0 ≤ b.t0 ∧ b.t1 ≤ b'.t1 ∧ b'.p0 ≤ pref ∧ pref ≤ b'.p1)
    (hδ : η + Ls * eS + Lt * eT + Lp * (40 * M / 2 ^ 53) ≤ δ) (hδQ : 16 * δ ≤ Q)
    {g : ℝ → ℝ} (hg : VertGrad linC rs rt (exactArr P) (exactArr S) (exactArr T) (a 0) (a (K - 1)) g) {ζ dp n : ℝ} (hζ : 0 ≤ ζ) (hcurv : Curved g ζ K a)
    (hdp : 0 < dp) (hn : 2 * H / dp + 2 ≤ n) (hn' : 2 * n ≤ 2 ^ 53) (hK : 2 * (K : ℝ) ≤ 2 ^ 53)
    {β p0 p1 : ℝ} {base : Option (Rfl rnd)} (hbase : base = some (Rfl.fin p0) ∨ base = none ∧ p0 = a 0)
    (h0 : a 0 ≤ p0 ∧ p0 ≤ a (K - 1)) (h1 : a 0 ≤ p1 ∧ p1 ≤ a (K - 1)) :
    ∃ s0 t0 V : ℝ, linearInterp1 (Fl.fin p0) (exactArr P) (exactArr S) 0 = some (Fl.fin s0) ∧ linearInterp1 (Fl.fin p0) (exactArr P) (exactArr T) 0 = some (Fl.fin t0) ∧
      veronis linC eos eosST S T P (Rfl.fin p1) base (Rfl.fin pref) (Rfl.fin β) (Rfl.fin dp) = some (Rfl.fin V) ∧
      |V - (ρ s0 t0 pref + β * ∫ x in p0..p1, g x)| ≤ |β| * (ζ / 11 * dp ^ 2 * (|p1 - p0| + 2 * H)) +
        (2 * (η' + Ls' * eS + Lt' * eT) + |ρ s0 t0 pref| / 2 ^ 53 +
          |β| * (4 * K * (pieceErr M H μ Q δ n + 4 * (Q * μ) * (a (K - 1) - a 0) / 2 ^ 53) + 12 * (Q * μ) * (a (K - 1) - a 0) / 2 ^ 53)) := by
  have B := C.prof.linCast
  have hsz := B.size
  have htwo := B.two
  obtain ⟨hμ0, heS, heT⟩ := C.nonneg
  have hM0 : 0 ≤ M := (abs_nonneg _).trans (C.absP 0 (by omega))
  have hpc : ∀ k, k + 1 < K → ∀ x, a k < x → x ≤ a (k + 1) → g x = gk rs rt a (linP a s) (linP a t) k x := fun k hk x =>
    hg.piece B C.prof rfl rfl (by rw [linearCoeffs1_lastCol]) (by rw [linearCoeffs1_lastCol]) hk
  have hN : ∀ k, k + 1 < K → NearChords (gk rs rt a (linP a s) (linP a t) k) ζ (a k) (a (k + 1)) := fun k hk =>
    near_piece (gk_continuous hc _ _ k) (hpc k hk) (hcurv k hk)
  have hpe : ∀ x, a 0 < x → x ≤ a (K - 1) → g x = gk rs rt a (linP a s) (linP a t) (pieceEnd (exactArr P) (Fl.fin x) - 1) x := by
    intro x hx hx'
    obtain ⟨r1, r2, r3, r4, r5⟩ := pieceEnd_spec B hx.le hx'
    refine hpc _ (by omega) x ?_ (by rw [show pieceEnd (exactArr P) (Fl.fin x) - 1 + 1 = pieceEnd (exactArr P) (Fl.fin x) by omega]; exact r3)
    rcases r5 with h5 | h5
    · rw [h5]; exact hx
    · exact h5
  have i0 := tail_integral B hc hpe h0.1 h0.2
  have i1 := tail_integral B hc hpe h1.1 h1.2
  have hint : (∫ x in p0..a (K - 1), g x) - (∫ x in p1..a (K - 1), g x) = ∫ x in p0..p1, g x := by
    rw [← integral_add_adjacent_intervals i0.1 i1.1.symm, integral_symm p1 (a (K - 1)), sub_eq_add_neg]
  have hex : tailEx rs rt (exactArr P) K a (linP a s) (linP a t) p0 - tailEx rs rt (exactArr P) K a (linP a s) (linP a t) p1 = ∫ x in p0..p1, g x := by
    unfold tailEx
    rw [i0.2, i1.2, hint]
  obtain ⟨d, w, e1, e2, e3, e4⟩ := intDlrpd_rnd R C E hc hδ hδQ hζ hdp hn hn' hK hN h0 h1
  rw [hex] at e4
  have hμM := mul_nonneg hμ0 hM0
  obtain ⟨vs, s0, a1, a2, a3, a4, a5⟩ := col_at R (X := P) (Y := S) C.prof.BS h0 hμM hμ0 C.space C.slopeS C.inS C.sizeS
  obtain ⟨vt, t0, b1, b2, b3, b4, b5⟩ := col_at R (X := P) (Y := T) C.prof.BT h0 hμM hμ0 C.space C.slopeT C.inT C.sizeT
  obtain ⟨c1, c2, c3, c4, c5, c6⟩ := hb
  have in1 : b'.In vs vt pref := ⟨by linarith, by linarith, by linarith, by linarith, c5, c6⟩
  have in2 : b'.In s0 t0 pref := ⟨by linarith, by linarith, by linarith, by linarith, c5, c6⟩
  have hpd : potDens eos P (linearCoeffs1 P S) (linearCoeffs1 P T) (Rfl.fin pref) (Rfl.fin p0) = Rfl.fin (ρ' vs vt pref) := by
    have hvr : validRange2 (F := Rfl rnd) P (linearCoeffs1 P S).lastCol = validRange2 (F := Rfl rnd) P (linearCoeffs1 P T).lastCol := by
      have q1 : validRange2 (F := Rfl rnd) P S = (0, K) := C.prof.BS.vr
      have q2 : validRange2 (F := Rfl rnd) P T = (0, K) := C.prof.BT.vr
      refine Eq.trans ?_ ((q1.trans q2.symm).trans ?_)
      · exact validRange2_congr rfl (fun _ _ => rfl) (fun i _ => rfl)
      · exact validRange2_congr rfl (fun _ _ => rfl) (fun i _ => rfl)
    unfold potDens
    rw [ppval1Two_eq hvr, a1, b1]
    exact D.val _ _ _ in1
  have f1 : |ρ' vs vt pref - ρ s0 t0 pref| ≤ η' + Ls' * eS + Lt' * eT := by
    have q1 := D.close _ _ _ in1
    have q2 := D.lip _ _ _ _ _ _ in1 in2
    rw [sub_self, abs_zero, mul_zero, add_zero] at q2
    have q3 := mul_le_mul_of_nonneg_left a3 D.ls
    have q4 := mul_le_mul_of_nonneg_left b3 D.lt
    have := abs_add_le (ρ' vs vt pref - ρ vs vt pref) (ρ vs vt pref - ρ s0 t0 pref)
    rw [sub_add_sub_cancel] at this
    linarith
  have hval : veronis linC eos eosST S T P (Rfl.fin p1) base (Rfl.fin pref) (Rfl.fin β) (Rfl.fin dp) = some (Rfl.fin (rnd (ρ' vs vt pref + rnd (β * d)))) := by
    have hgd : base.getD (P.get 0) = Rfl.fin p0 := by
      rcases hbase with h | ⟨h, h'⟩
      · rw [h]; rfl
      · rw [h, h']; exact B.hP 0 (by omega)
    unfold veronis linC veronisPP
    simp only [Option.bind_eq_bind, Option.bind_some, hgd]
    rw [e1, hpd]
    simp
  refine ⟨s0, t0, _, a2, b2, hval, ?_⟩
  generalize ρ' vs vt pref = r' at *
  generalize ρ s0 t0 pref = r at *
  generalize hJ : (∫ x in p0..p1, g x) = J at *
  have hEr : 0 ≤ 2 * K * (pieceErr M H μ Q δ n + 4 * (Q * μ) * (a (K - 1) - a 0) / 2 ^ 53) := (abs_nonneg _).trans e2
  have e3' : |w| ≤ 4 * (Q * μ * (a (K - 1) - a 0)) := e3.trans (le_of_eq (by ring))
  have hA' : 4 * (K : ℝ) * (pieceErr M H μ Q δ n + 4 * (Q * μ) * (a (K - 1) - a 0) / 2 ^ 53) + 12 * (Q * μ) * (a (K - 1) - a 0) / 2 ^ 53
      = 2 * (2 * K * (pieceErr M H μ Q δ n + 4 * (Q * μ) * (a (K - 1) - a 0) / 2 ^ 53)) + 12 * (Q * μ * (a (K - 1) - a 0)) / 2 ^ 53 := by ring
  rw [hA']
  generalize 2 * (K : ℝ) * (pieceErr M H μ Q δ n + 4 * (Q * μ) * (a (K - 1) - a 0) / 2 ^ 53) = A at *
  generalize Q * μ * (a (K - 1) - a 0) = W at *
  generalize η' + Ls' * eS + Lt' * eT = e0 at *
  generalize ζ / 11 * dp ^ 2 * (|p1 - p0| + 2 * H) = Z at *
  have k1 : |β * d - β * w| ≤ |β| * A := by
    rw [← mul_sub, abs_mul]
    exact mul_le_mul_of_nonneg_left e2 (abs_nonneg _)
  have k0 : |β * w| ≤ |β| * (4 * W) := by
    rw [abs_mul]
    exact mul_le_mul_of_nonneg_left e3' (abs_nonneg _)
  have k2 := rapp R.toStdRound k1 k0
  have k3 : |r' + rnd (β * d) - (r + β * w)| ≤ e0 + (|β| * A + (|β| * (4 * W) + |β| * A) / 2 ^ 53) := by
    rw [show r' + rnd (β * d) - (r + β * w) = (r' - r) + (rnd (β * d) - β * w) by ring]
    exact (abs_add_le _ _).trans (add_le_add f1 k2)
  have k4 : |r + β * w| ≤ |r| + |β| * (4 * W) := (abs_add_le _ _).trans (add_le_add le_rfl k0)
  have k5 := rapp R.toStdRound k3 k4
  have k6 : |β * w - β * J| ≤ |β| * Z := by
    rw [← mul_sub, abs_mul]
    exact mul_le_mul_of_nonneg_left e4 (abs_nonneg _)
  have hf := abs_add_le (rnd (r' + rnd (β * d)) - (r + β * w)) (β * w - β * J)
  rw [show rnd (r' + rnd (β * d)) - (r + β * w) + (β * w - β * J) = rnd (r' + rnd (β * d)) - (r + β * J) by ring] at hf
  have z0 : 0 ≤ e0 := (abs_nonneg _).trans f1
  have z1 : 0 ≤ |β| * A := (abs_nonneg _).trans k1
  have z2 : 0 ≤ |β| * W := by linarith [(abs_nonneg _).trans k0]
  have hr0 := abs_nonneg r
  generalize |rnd (r' + rnd (β * d)) - (r + β * J)| = y1 at *
  generalize |rnd (r' + rnd (β * d)) - (r + β * w)| = y2 at *
  generalize |r| = r0 at *
  rw [show |β| * (4 * W) = 4 * (|β| * W) by ring] at k5
  rw [show |β| * (2 * A + 12 * W / 2 ^ 53) = 2 * (|β| * A) + 12 * (|β| * W) / 2 ^ 53 by ring]
  generalize |β| * A = βA at *
  generalize |β| * W = βW at *
  generalize |β| * Z = βZ at *
  norm_num at k5 ⊢
  linarith

/-- The gradient exists. -/
theorem exists_grad {P S T : Arr (Fl ℝ)} (H : Profile P S T K a s t) (rs rt : ℝ → ℝ → ℝ → ℝ) : ∃ g, VertGrad linC rs rt P S T (a 0) (a (K - 1)) g := by
  have B := H.linCast
  have g3 : (linearCoeffs1 P S).lastCol.get = S.get := by rw [linearCoeffs1_lastCol]
  have g4 : (linearCoeffs1 P T).lastCol.get = T.get := by rw [linearCoeffs1_lastCol]
  have hvr : validRange2 P (linearCoeffs1 P S).lastCol = validRange2 P (linearCoeffs1 P T).lastCol := by
    rw [H.BS.vr_table g3, H.BT.vr_table g4]
  refine ⟨fun x => gk rs rt a (linP a s) (linP a t) (pieceEnd P (Fl.fin x) - 1) x, linearCoeffs1 P S, linearCoeffs1 P T,
    fun x => (polyOf (linP a s (pieceEnd P (Fl.fin x) - 1))).eval (x - a (pieceEnd P (Fl.fin x) - 1)),
    fun x => (polyOf (linP a t (pieceEnd P (Fl.fin x) - 1))).eval (x - a (pieceEnd P (Fl.fin x) - 1)),
    fun x => (polyOf (linP a s (pieceEnd P (Fl.fin x) - 1))).derivative.eval (x - a (pieceEnd P (Fl.fin x) - 1)),
    fun x => (polyOf (linP a t (pieceEnd P (Fl.fin x) - 1))).derivative.eval (x - a (pieceEnd P (Fl.fin x) - 1)), rfl, rfl, fun x h1 h2 => ?_⟩
  have v0 := B.ppval H g3 h1.le h2 0
  have v1 := B.ppval H g3 h1.le h2 1
  rw [ppval1Two_eq hvr] at v0 v1
  simp only [Prod.mk.injEq, Function.iterate_zero, id, Function.iterate_one] at v0 v1
  exact ⟨v0.1, v0.2, v1.1, v1.2, rfl⟩

/-! The example: three bottles at 0, 10 and 30 dbar, one below the bottom; the derivative of density with salinity grows with pressure. -/

/-- pressures -/
noncomputable def xA (i : ℕ) : ℝ := if i = 0 then 0 else if i = 1 then 10 else if i = 2 then 30 else 60
/-- salinities -/
noncomputable def xSv (i : ℕ) : ℝ := if i = 0 then 34 else if i = 1 then 35 else 71 / 2
/-- temperatures -/
noncomputable def xTv (i : ℕ) : ℝ := if i = 0 then 12 else if i = 1 then 10 else 4
/-- data in rounded arithmetic, NaN below `K` -/
noncomputable def xArr (y : ℕ → ℝ) (K : ℕ) : Arr (Rfl (Rounding53.rndNear (α := ℝ))) := ⟨4, fun i => if i < K then Rfl.fin (y i) else Rfl.qnan⟩
/-- box -/
noncomputable def xBox : Traj.Box := ⟨30, 40, 0, 20, -1, 100⟩
/-- derivatives of the equation of state -/
def xST {F : Type*} [FloatLike F] (_ _ p : F) : F × F := (lit (4 / 5) + p * lit (1 / 1000), lit (-1 / 5))
/-- equation of state -/
def xEos {F : Type*} [FloatLike F] (s t p : F) : F := lit 1000 + s * (lit (4 / 5) + p * lit (1 / 1000)) - t * lit (1 / 5)

theorem xBlock (y : ℕ → ℝ) : Block (exactArr (xArr xA 4)) (exactArr (xArr y 3)) 0 3 xA y := by
  refine ⟨rfl, rfl, by norm_num, ?_, ?_, ?_⟩
  · intro i _ h; interval_cases i <;> rfl
  · intro i _ h; interval_cases i <;> rfl
  · intro i _ h
    obtain rfl | rfl : i = 0 ∨ i = 1 := by omega
    · norm_num [xA]
    · norm_num [xA]

theorem xProfile : Profile (exactArr (xArr xA 4)) (exactArr (xArr xSv 3)) (exactArr (xArr xTv 3)) 3 xA xSv xTv := by
  refine ⟨?_, ?_, xBlock _, xBlock _⟩
  · intro i h
    have : i < 4 := h
    interval_cases i <;> rfl
  · intro i h
    have : i + 1 < 4 := h
    obtain rfl | rfl | rfl : i = 0 ∨ i = 1 ∨ i = 2 := by omega
    all_goals norm_num [xA]

theorem xCast : VerCast xBox (xArr xA 4) (xArr xSv 3) (xArr xTv 3) 3 xA xSv xTv 30 20 1 (1 / 10 ^ 9) (1 / 10 ^ 9) := by
  refine ⟨xProfile, ?_, ?_, ?_, ?_, ?_, ?_, ?_, ⟨36, ?_, by norm_num⟩, ⟨12, ?_, by norm_num⟩, by norm_num⟩
  · intro i h; interval_cases i <;> norm_num [xA]
  · intro k h
    obtain rfl | rfl : k = 0 ∨ k = 1 := by omega
    all_goals norm_num [xA]
  · intro k h
    obtain rfl | rfl : k = 0 ∨ k = 1 := by omega
    all_goals norm_num [xA, xSv, abs_le]
  · intro k h
    obtain rfl | rfl : k = 0 ∨ k = 1 := by omega
    all_goals norm_num [xA, xTv, abs_le]
  · intro i h; interval_cases i <;> norm_num [xSv, xBox]
  · intro i h; interval_cases i <;> norm_num [xTv, xBox]
  · norm_num [xA, xBox]
  · intro i h; interval_cases i <;> norm_num [xSv, abs_le]
  · intro i h; interval_cases i <;> norm_num [xTv, abs_le]

theorem xSTBox : STBox Rounding53.rndNear xBox xST (fun _ _ p => 4 / 5 + p * (1 / 1000)) (fun _ _ _ => -1 / 5) (1 / 10 ^ 12) 0 0 (1 / 1000) 1 := by
  have R := (Rounding53.rndNear_bin (α := ℝ)).toStdRound
  refine ⟨?_, ?_, ?_, by norm_num⟩
  · rintro s t p ⟨_, _, _, _, h1, h2⟩
    have h1 : -1 ≤ p := h1
    have h2 : p ≤ 100 := h2
    have l1 : |Rounding53.rndNear (((4 / 5 : ℚ)) : ℝ) - 4 / 5| ≤ 1 / 10 ^ 15 := by
      have := R.err (((4 / 5 : ℚ)) : ℝ)
      push_cast at this ⊢
      refine this.trans ?_
      norm_num
    have l2 : |Rounding53.rndNear (((1 / 1000 : ℚ)) : ℝ) - 1 / 1000| ≤ 1 / 10 ^ 18 := by
      have := R.err (((1 / 1000 : ℚ)) : ℝ)
      push_cast at this ⊢
      refine this.trans ?_
      norm_num
    have l3 : |Rounding53.rndNear (((-1 / 5 : ℚ)) : ℝ) - (-1 / 5)| ≤ 1 / 10 ^ 15 := by
      have := R.err (((-1 / 5 : ℚ)) : ℝ)
      push_cast at this ⊢
      refine this.trans ?_
      norm_num
    have hp : |p| ≤ 100 := abs_le.mpr ⟨by linarith, h2⟩
    refine ⟨_, _, rfl, ?_, l3.trans (by norm_num)⟩
    have m1 := mapp (show |p - p| ≤ 0 by simp) l2 hp (show |(1 / 1000 : ℝ)| ≤ 1 / 1000 by norm_num)
    have m0 : |p * (1 / 1000)| ≤ 1 / 10 := by rw [abs_mul]; norm_num; linarith
    have m2 := rapp R m1 m0
    have m3 : |Rounding53.rndNear (((4 / 5 : ℚ)) : ℝ) + Rounding53.rndNear (p * Rounding53.rndNear (((1 / 1000 : ℚ)) : ℝ)) - (4 / 5 + p * (1 / 1000))| ≤ 1 / 10 ^ 13 := by
      rw [add_sub_add_comm]
      refine (abs_add_le _ _).trans ((add_le_add l1 m2).trans ?_)
      norm_num
    have m4 : |4 / 5 + p * (1 / 1000)| ≤ 1 := by
      have := abs_le.mp m0
      exact abs_le.mpr ⟨by linarith, by linarith⟩
    exact (rapp R m3 m4).trans (by norm_num)
  · rintro s t p ⟨_, _, _, _, h1, h2⟩
    have h1 : -1 ≤ p := h1
    have h2 : p ≤ 100 := h2
    exact ⟨abs_le.mpr ⟨by linarith, by linarith⟩, by norm_num [abs_le]⟩
  · intro s t p s' t' p' _ _
    refine ⟨?_, by simp⟩
    rw [show 4 / 5 + p * (1 / 1000) - (4 / 5 + p' * (1 / 1000)) = 1 / 1000 * (p - p') by ring, abs_mul, abs_of_pos (by norm_num : (0 : ℝ) < 1 / 1000)]
    linarith

/-- the computed density -/
noncomputable def xRho' (s t p : ℝ) : ℝ :=
  let r := Rounding53.rndNear (α := ℝ)
  r (r (r ((1000 : ℚ) : ℝ) + r (s * r (r ((4 / 5 : ℚ) : ℝ) + r (p * r ((1 / 1000 : ℚ) : ℝ))))) - r (t * r ((1 / 5 : ℚ) : ℝ)))

theorem xEosBox : Traj.EosBox Rounding53.rndNear xBox xEos xRho' (fun s t p => 1000 + s * (4 / 5 + p * (1 / 1000)) - t * (1 / 5)) (1 / 10 ^ 9) 1 1 1 := by
  have R := (Rounding53.rndNear_bin (α := ℝ)).toStdRound
  refine ⟨fun s t p _ => ?_, ?_, ?_, by norm_num, by norm_num, by norm_num⟩
  · unfold xEos xRho'
    simp only [Rfl.lit_eq, Rfl.fin_add, Rfl.fin_mul, Rfl.fin_sub]
  · rintro s t p h
    obtain ⟨x, y, he, hx, _⟩ := xSTBox.val s t p h
    obtain ⟨h1, h2, h3, h4, h5, h6⟩ := h
    simp only [xBox] at h1 h2 h3 h4 h5 h6
    have hx' : x = Rounding53.rndNear (Rounding53.rndNear (((4 / 5 : ℚ)) : ℝ) + Rounding53.rndNear (p * Rounding53.rndNear (((1 / 1000 : ℚ)) : ℝ))) := by
      have := (Prod.mk.inj he).1
      simp only [Rfl.lit_eq, Rfl.fin_add, Rfl.fin_mul] at this
      exact (Rfl.fin_inj.mp this).symm
    unfold xRho'
    simp only
    rw [← hx']
    have l0 : |Rounding53.rndNear (((1000 : ℚ)) : ℝ) - 1000| ≤ 1 / 10 ^ 12 := by
      have := R.err (((1000 : ℚ)) : ℝ)
      push_cast at this ⊢
      refine this.trans ?_
      norm_num
    have l2 : |Rounding53.rndNear (((1 / 5 : ℚ)) : ℝ) - 1 / 5| ≤ 1 / 10 ^ 15 := by
      have := R.err (((1 / 5 : ℚ)) : ℝ)
      push_cast at this ⊢
      refine this.trans ?_
      norm_num
    have hp : |4 / 5 + p * (1 / 1000)| ≤ 1 := abs_le.mpr ⟨by linarith, by linarith⟩
    have hs : |s| ≤ 40 := abs_le.mpr ⟨by linarith, h2⟩
    have ht : |t| ≤ 20 := abs_le.mpr ⟨by linarith, h4⟩
    have m1 := mapp (show |s - s| ≤ 0 by simp) hx hs hp
    have m0 : |s * (4 / 5 + p * (1 / 1000))| ≤ 40 := by rw [abs_mul]; nlinarith [abs_nonneg s]
    have m2 := rapp R m1 m0
    have m3 : |Rounding53.rndNear (((1000 : ℚ)) : ℝ) + Rounding53.rndNear (s * x) - (1000 + s * (4 / 5 + p * (1 / 1000)))| ≤ 1 / 10 ^ 10 := by
      rw [add_sub_add_comm]
      refine (abs_add_le _ _).trans ((add_le_add l0 m2).trans ?_)
      norm_num
    have m4 : |1000 + s * (4 / 5 + p * (1 / 1000))| ≤ 1040 := by
      have := abs_le.mp m0
      exact abs_le.mpr ⟨by linarith, by linarith⟩
    have m5 := rapp R m3 m4
    have n1 := mapp (show |t - t| ≤ 0 by simp) l2 ht (show |(1 / 5 : ℝ)| ≤ 1 / 5 by norm_num)
    have n0 : |t * (1 / 5)| ≤ 4 := by rw [abs_mul]; norm_num; linarith
    have n2 := rapp R n1 n0
    have o1 : |Rounding53.rndNear (Rounding53.rndNear (((1000 : ℚ)) : ℝ) + Rounding53.rndNear (s * x)) - Rounding53.rndNear (t * Rounding53.rndNear (((1 / 5 : ℚ)) : ℝ))
        - (1000 + s * (4 / 5 + p * (1 / 1000)) - t * (1 / 5))| ≤ 1 / 10 ^ 9 / 2 := by
      rw [sub_sub_sub_comm]
      refine (abs_sub _ _).trans ((add_le_add m5 n2).trans ?_)
      norm_num
    have o0 : |1000 + s * (4 / 5 + p * (1 / 1000)) - t * (1 / 5)| ≤ 1044 := by
      have := abs_le.mp m4
      have := abs_le.mp n0
      exact abs_le.mpr ⟨by linarith, by linarith⟩
    exact (rapp R o1 o0).trans (by norm_num)
  · rintro s t p s' t' p' ⟨h1, h2, h3, h4, h5, h6⟩ ⟨g1, g2, g3, g4, g5, g6⟩
    simp only [xBox] at h1 h2 h3 h4 h5 h6 g1 g2 g3 g4 g5 g6
    have e : 1000 + s * (4 / 5 + p * (1 / 1000)) - t * (1 / 5) - (1000 + s' * (4 / 5 + p' * (1 / 1000)) - t' * (1 / 5))
        = (4 / 5 + p * (1 / 1000)) * (s - s') + s' / 1000 * (p - p') + (-1 / 5) * (t - t') := by ring
    rw [e]
    refine (abs_add_three _ _ _).trans ?_
    rw [abs_mul, abs_mul, abs_mul]
    have q1 : |4 / 5 + p * (1 / 1000)| ≤ 1 := abs_le.mpr ⟨by linarith, by linarith⟩
    have q2 : |s' / 1000| ≤ 1 := abs_le.mpr ⟨by linarith, by linarith⟩
    have q3 : |(-1 / 5 : ℝ)| ≤ 1 := by norm_num [abs_le]
    have := mul_le_mul_of_nonneg_right q1 (abs_nonneg (s - s'))
    have := mul_le_mul_of_nonneg_right q2 (abs_nonneg (p - p'))
    have := mul_le_mul_of_nonneg_right q3 (abs_nonneg (t - t'))
    linarith

/-- The example meets all hypotheses, and the bound is small: with steps of 1 dbar, the label of the water at 25 dbar is computed within `10^-5` of
potential density at the top plus the integral. -/
example : ∃ (g : ℝ → ℝ) (s0 t0 V : ℝ), VertGrad linC (fun _ _ p => 4 / 5 + p * (1 / 1000)) (fun _ _ _ => -1 / 5) (exactArr (xArr xA 4)) (exactArr (xArr xSv 3))
      (exactArr (xArr xTv 3)) 0 30 g ∧
    veronis linC xEos xST (xArr xSv 3) (xArr xTv 3) (xArr xA 4) (Rfl.fin 25) none (Rfl.fin 0) (Rfl.fin 1) (Rfl.fin 1) = some (Rfl.fin V) ∧
    |V - (1000 + s0 * (4 / 5 + 0 * (1 / 1000)) - t0 * (1 / 5) + 1 * ∫ x in (0 : ℝ)..25, g x)| ≤ 1 / 10 ^ 5 := by
  obtain ⟨g, hg⟩ := exists_grad xProfile (fun _ _ p => 4 / 5 + p * (1 / 1000)) (fun _ _ _ => -1 / 5)
  have hcurv : Curved g 0 3 xA := by
    intro k hk p hp u x v h1 h2 h3 h4
    have hpc : ∀ x, xA k < x → x ≤ xA (k + 1) → g x = gk (fun _ _ p => 4 / 5 + p * (1 / 1000)) (fun _ _ _ => -1 / 5) xA (linP xA xSv) (linP xA xTv) k x := fun x =>
      hg.piece xProfile.linCast xProfile rfl rfl (by rw [linearCoeffs1_lastCol]) (by rw [linearCoeffs1_lastCol]) hk
    rw [hpc x (by linarith) (by linarith), hpc u (by linarith) (by linarith), hpc v (by linarith) (by linarith), gk_lin, gk_lin, gk_lin]
    rw [show ∀ A B : ℝ, (v - u) * ((4 / 5 + x * (1 / 1000)) * A + -1 / 5 * B) - ((v - x) * ((4 / 5 + u * (1 / 1000)) * A + -1 / 5 * B)
      + (x - u) * ((4 / 5 + v * (1 / 1000)) * A + -1 / 5 * B)) = 0 from fun A B => by ring]
    simp
  obtain ⟨s0, t0, V, e1, e2, e3, e4⟩ := veronis_rounded (rnd := Rounding53.rndNear) (δ := 1 / 10 ^ 10) (n := 42) (ζ := 0) (dp := 1) (β := 1) (p0 := 0) (p1 := 25) (pref := 0)
    (base := none) Rounding53.rndNear_bin xCast xSTBox ⟨by fun_prop, by fun_prop⟩ xEosBox (by norm_num [xBox]) (by norm_num) (by norm_num) hg le_rfl hcurv
    (by norm_num) (by norm_num) (by norm_num) (by norm_num) (Or.inr ⟨rfl, by norm_num [xA]⟩) (by norm_num [xA]) (by norm_num [xA])
  have hs0 : s0 = 34 := by
    have := (linear_chord (xBlock xSv) (i := 0) (x := 0) (by norm_num) (by norm_num) (by norm_num [xA]) (by norm_num [xA])).2.1
    rw [e1] at this
    have := Fl.fin.inj (Option.some.inj this)
    rw [this]
    norm_num [xA, xSv]
  have ht0 : t0 = 12 := by
    have := (linear_chord (xBlock xTv) (i := 0) (x := 0) (by norm_num) (by norm_num) (by norm_num [xA]) (by norm_num [xA])).2.1
    rw [e2] at this
    have := Fl.fin.inj (Option.some.inj this)
    rw [this]
    norm_num [xA, xTv]
  have hg' : VertGrad linC (fun _ _ p => 4 / 5 + p * (1 / 1000)) (fun _ _ _ => -1 / 5) (exactArr (xArr xA 4)) (exactArr (xArr xSv 3))
      (exactArr (xArr xTv 3)) 0 30 g := by
    have h0 : xA 0 = 0 := by norm_num [xA]
    have h1 : xA (3 - 1) = 30 := by norm_num [xA]
    rw [h0, h1] at hg
    exact hg
  refine ⟨g, s0, t0, V, hg', e3, e4.trans ?_⟩
  subst hs0 ht0
  norm_num [xA, pieceErr]

end Label
