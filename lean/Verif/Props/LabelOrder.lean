import Verif.Props.Label
import Verif.Lemmas.Column

/-!
# Veronis density as a label: accuracy and order (C152)

Deeper water of a stably stratified cast should get a larger label.  The integral to a position between two bottles is found as the integral to the bottle below,
minus the integral from the position to this bottle, each with its own steps; where the number of steps changes the result jumps, by the errors of the
trapezoidal rule.
-/

set_option linter.unusedSectionVars false

namespace Label
open FloatLike Interp MeasureTheory intervalIntegral Filter Topology
open Fl hiding nan

variable {P S T : Arr (Fl ℝ)} {K : ℕ} {a s t : ℕ → ℝ}
  {eos : Fl ℝ → Fl ℝ → Fl ℝ → Fl ℝ} {ρ : ℝ → ℝ → ℝ → ℝ}
  {eosST : Fl ℝ → Fl ℝ → Fl ℝ → Fl ℝ × Fl ℝ} {rs rt : ℝ → ℝ → ℝ → ℝ}
  {ppc : Arr (Fl ℝ) → Arr (Fl ℝ) → Option (PPC (Fl ℝ))}

/-! ## The trapezoidal rule -/

/-- `f` differs from its chords as a function with `|f''| ≤ ζ` does. -/
def NearChords (f : ℝ → ℝ) (ζ p q : ℝ) : Prop :=
  ∀ u x v, p ≤ u → u ≤ x → x ≤ v → v ≤ q → |(v - u) * f x - ((v - x) * f u + (x - u) * f v)| ≤ ζ / 2 * ((x - u) * (v - x) * (v - u))

/-- One step of the trapezoidal rule. -/
theorem trap_step {f : ℝ → ℝ} (hf : Continuous f) {ζ p q : ℝ} (hn : NearChords f ζ p q) {u v : ℝ} (hu : p ≤ u) (huv : u < v) (hv : v ≤ q) :
    |(v - u) * ((f u + f v) / 2) - ∫ x in u..v, f x| ≤ ζ / 12 * (v - u) ^ 3 := by
  have h0 : 0 < v - u := by linarith
  have e1 : ∫ x in u..v, (f u + (x - u) * ((f v - f u) / (v - u))) = (v - u) * ((f u + f v) / 2) := by
    rw [integral_eq_sub_of_hasDerivAt (f := fun x => f u * x + (x - u) ^ 2 / 2 * ((f v - f u) / (v - u)))]
    · field_simp; ring
    · intro x _
      have h1 : HasDerivAt (fun x : ℝ => f u * x) (f u * 1) x := (hasDerivAt_id' x).const_mul _
      have h2 : HasDerivAt (fun x : ℝ => (x - u) ^ 2) (2 * (x - u)) x := by
        refine (((hasDerivAt_id' x).sub_const u).fun_pow 2).congr_deriv ?_
        norm_num
      refine (h1.fun_add ((h2.div_const 2).mul_const ((f v - f u) / (v - u)))).congr_deriv ?_
      ring
    · exact (by fun_prop : Continuous fun x => f u + (x - u) * ((f v - f u) / (v - u))).intervalIntegrable _ _
  have e2 : ∫ x in u..v, ζ / 2 * ((x - u) * (v - x)) = ζ / 12 * (v - u) ^ 3 := by
    rw [integral_eq_sub_of_hasDerivAt (f := fun x => ζ / 2 * ((x - u) ^ 2 / 2 * (v - u) - (x - u) ^ 3 / 3))]
    · ring
    · intro x _
      have h2 : HasDerivAt (fun x : ℝ => (x - u) ^ 2) (2 * (x - u)) x := by
        refine (((hasDerivAt_id' x).sub_const u).fun_pow 2).congr_deriv ?_
        norm_num
      have h3 : HasDerivAt (fun x : ℝ => (x - u) ^ 3) (3 * (x - u) ^ 2) x := by
        refine (((hasDerivAt_id' x).sub_const u).fun_pow 3).congr_deriv ?_
        norm_num
      refine ((((h2.div_const 2).mul_const (v - u)).fun_sub (h3.div_const 3)).const_mul (ζ / 2)).congr_deriv ?_
      ring
    · exact (by fun_prop : Continuous fun x => ζ / 2 * ((x - u) * (v - x))).intervalIntegrable _ _
  rw [← e1, ← e2, ← intervalIntegral.integral_sub ((by fun_prop : Continuous fun x => f u + (x - u) * ((f v - f u) / (v - u))).intervalIntegrable _ _)
    (hf.intervalIntegrable _ _), ← Real.norm_eq_abs]
  refine norm_integral_le_of_norm_le huv.le (ae_of_all _ fun x hx => ?_)
    ((by fun_prop : Continuous fun x => ζ / 2 * ((x - u) * (v - x))).intervalIntegrable _ _)
  have := hn u x v hu hx.1.le hx.2 hv
  rw [Real.norm_eq_abs, abs_sub_comm]
  have e3 : f x - (f u + (x - u) * ((f v - f u) / (v - u))) = ((v - u) * f x - ((v - x) * f u + (x - u) * f v)) / (v - u) := by
    field_simp; ring
  rw [e3, abs_div, abs_of_pos h0, div_le_iff₀ h0]
  linarith

/-- The composite rule with steps of at most `dp`. -/
theorem trap_err {f : ℝ → ℝ} (hf : Continuous f) {ζ p q dp : ℝ} (hζ : 0 ≤ ζ) (hn : NearChords f ζ p q) (hpq : p ≤ q) (hdp : 0 < dp) :
    |trap f p q (nInt dp p q) - ∫ x in p..q, f x| ≤ ζ / 12 * dp ^ 2 * (q - p) := by
  rcases hpq.lt_or_eq with hlt | heq
  swap
  · subst heq
    rw [integral_same]
    simp [trap]
  set N := nInt dp p q with hN
  have hN0 : 0 < N := nInt_pos hdp hlt
  have hNr : (0 : ℝ) < N := by exact_mod_cast hN0
  have hh : (q - p) / N ≤ dp := by
    rw [div_le_iff₀ hNr]
    have : (q - p) / dp ≤ N := Nat.le_ceil _
    rw [div_le_iff₀ hdp] at this
    linarith
  have hh0 : 0 < (q - p) / N := div_pos (by linarith) hNr
  let x : ℕ → ℝ := fun i => p + (q - p) * (i / N)
  have hx0 : x 0 = p := by simp [x]
  have hxN : x N = q := by
    simp only [x]; rw [div_self hNr.ne']; ring
  have hstep : ∀ i, x (i + 1) - x i = (q - p) / N := by
    intro i; simp only [x]; push_cast; field_simp; ring
  have hmem : ∀ i, i ≤ N → x i ∈ Set.Icc p q := by
    intro i hi
    have h1 : (0 : ℝ) ≤ i / N := by positivity
    have h2 : (i : ℝ) / N ≤ 1 := by rw [div_le_one hNr]; exact_mod_cast hi
    constructor
    · simp only [x]; nlinarith
    · simp only [x]; nlinarith
  have hsum : ∑ i ∈ Finset.range N, ∫ y in x i..x (i + 1), f y = ∫ y in p..q, f y := by
    rw [sum_integral_adjacent_intervals (fun k _ => hf.intervalIntegrable _ _), hx0, hxN]
  have hdiff : trap f p q N - ∫ y in p..q, f y
      = ∑ i ∈ Finset.range N, ((x (i + 1) - x i) * ((f (x i) + f (x (i + 1))) / 2) - ∫ y in x i..x (i + 1), f y) := by
    rw [Finset.sum_sub_distrib, hsum]
    simp only [hstep]
    unfold trap
    simp only [x]
    push_cast
    rfl
  rw [hdiff]
  have hterm : ∀ i ∈ Finset.range N,
      |(x (i + 1) - x i) * ((f (x i) + f (x (i + 1))) / 2) - ∫ y in x i..x (i + 1), f y| ≤ ζ / 12 * dp ^ 2 * ((q - p) / N) := by
    intro i hi
    rw [Finset.mem_range] at hi
    refine (trap_step hf hn (hmem i hi.le).1 (by linarith [hstep i]) (hmem (i + 1) hi).2).trans ?_
    rw [hstep]
    have : ((q - p) / N) ^ 2 ≤ dp ^ 2 := pow_le_pow_left₀ hh0.le hh 2
    have : ζ / 12 * ((q - p) / N) ^ 2 ≤ ζ / 12 * dp ^ 2 := mul_le_mul_of_nonneg_left this (by positivity)
    calc ζ / 12 * ((q - p) / N) ^ 3 = ζ / 12 * ((q - p) / N) ^ 2 * ((q - p) / N) := by ring
      _ ≤ _ := mul_le_mul_of_nonneg_right this hh0.le
  refine (Finset.abs_sum_le_sum_abs _ _).trans ((Finset.sum_le_sum hterm).trans (le_of_eq ?_))
  rw [Finset.sum_const, Finset.card_range, nsmul_eq_mul]
  field_simp

/-- A nonnegative integrand gives a nonnegative sum. -/
theorem trap_nonneg {f : ℝ → ℝ} {p q : ℝ} (h : ∀ x, p ≤ x → x ≤ q → 0 ≤ f x) (hpq : p ≤ q) (N : ℕ) : 0 ≤ trap f p q N := by
  unfold trap
  refine Finset.sum_nonneg fun i hi => ?_
  rw [Finset.mem_range] at hi
  have hNr : (0 : ℝ) < N := by exact_mod_cast (by omega : 0 < N)
  have hmem : ∀ j : ℝ, 0 ≤ j → j ≤ N → 0 ≤ f (p + (q - p) * (j / N)) := by
    intro j hj hj'
    have h1 : (0 : ℝ) ≤ j / N := by positivity
    have h2 : j / N ≤ 1 := by rw [div_le_one hNr]; exact hj'
    refine h _ ?_ ?_ <;> nlinarith
  have h1 := hmem i (by positivity) (by exact_mod_cast hi.le)
  have h2 := hmem (i + 1) (by positivity) (by exact_mod_cast hi)
  have : 0 ≤ q - p := by linarith
  positivity

/-- Of a positive integrand: the sum is at least the length times a lower bound. -/
theorem trap_ge {f : ℝ → ℝ} {p q m : ℝ} (h : ∀ x, p ≤ x → x ≤ q → m ≤ f x) (hpq : p ≤ q) {N : ℕ} (hN : p = q ∨ 0 < N) : m * (q - p) ≤ trap f p q N := by
  have h1 := trap_nonneg (f := fun x => f x - m) (p := p) (q := q) (fun x h1 h2 => sub_nonneg.2 (h x h1 h2)) hpq N
  have h2 : trap (fun x => f x - m) p q N = trap f p q N - trap (fun _ => m) p q N := by
    unfold trap
    rw [← Finset.sum_sub_distrib]
    refine Finset.sum_congr rfl fun i _ => ?_
    ring
  rw [h2, trap_const m p q hN] at h1
  linarith

/-! ## The gradient of locally referenced potential density along a cast -/

/-- `g` is the integrand of the Veronis density along the interpolated cast: `rho_S dS/dp + rho_T dT/dp`. -/
def VertGrad (ppc : Arr (Fl ℝ) → Arr (Fl ℝ) → Option (PPC (Fl ℝ))) (rs rt : ℝ → ℝ → ℝ → ℝ) (P S T : Arr (Fl ℝ)) (l u : ℝ) (g : ℝ → ℝ) : Prop :=
  ∃ (Sc Tc : PPC (Fl ℝ)) (sf tf sf' tf' : ℝ → ℝ), ppc P S = some Sc ∧ ppc P T = some Tc ∧ ∀ x, l < x → x ≤ u →
    ppval1 (Fl.fin x) P Sc 0 = Fl.fin (sf x) ∧ ppval1 (Fl.fin x) P Tc 0 = Fl.fin (tf x) ∧
    ppval1 (Fl.fin x) P Sc 1 = Fl.fin (sf' x) ∧ ppval1 (Fl.fin x) P Tc 1 = Fl.fin (tf' x) ∧
    g x = rs (sf x) (tf x) x * sf' x + rt (sf x) (tf x) x * tf' x

/-- On the pieces between bottles `g` is the integrand of the model. -/
theorem VertGrad.piece {g : ℝ → ℝ} {Sc Tc : PPC (Fl ℝ)} {c e : ℕ → List ℝ} (B : Cast P Sc Tc K a c e) (H : Profile P S T K a s t) (g1 : ppc P S = some Sc)
    (g2 : ppc P T = some Tc) (g3 : Sc.lastCol.get = S.get) (g4 : Tc.lastCol.get = T.get) (hg : VertGrad ppc rs rt P S T (a 0) (a (K - 1)) g)
    {k : ℕ} (hk : k + 1 < K) {x : ℝ} (h1 : a k < x) (h2 : x ≤ a (k + 1)) : g x = gk rs rt a c e k x := by
  have hvr : validRange2 P Sc.lastCol = validRange2 P Tc.lastCol := by
    rw [H.BS.vr_table g3, H.BT.vr_table g4]
  have hsz := B.size
  have hx0 : a 0 < x := lt_of_le_of_lt (B.mono 0 k (Nat.zero_le _) (by omega)) h1
  have hx1 : x ≤ a (K - 1) := le_trans h2 (B.mono (k + 1) (K - 1) (by omega) (by omega))
  obtain ⟨Sc', Tc', sf, tf, sf', tf', f1, f2, f3⟩ := hg
  obtain rfl : Sc = Sc' := Option.some.inj (g1.symm.trans f1)
  obtain rfl : Tc = Tc' := Option.some.inj (g2.symm.trans f2)
  obtain ⟨w1, w2, w3, w4, w5⟩ := f3 x hx0 hx1
  have v0 := B.ppval H g3 hx0.le hx1 0
  have v1 := B.ppval H g3 hx0.le hx1 1
  rw [ppval1Two_eq hvr] at v0 v1
  simp only [Prod.mk.injEq] at v0 v1
  obtain ⟨r1, r2, r3, r4, r5⟩ := pieceEnd_spec B hx0.le hx1
  have hl : pieceEnd P (Fl.fin x) = k + 1 := by
    generalize pieceEnd P (Fl.fin x) = l at *
    rcases lt_trichotomy l (k + 1) with h | h | h
    · have := B.mono l k (by omega) (by omega)
      linarith
    · exact h
    · rcases r5 with h5 | h5
      · omega
      · have := B.mono (k + 1) (l - 1) (by omega) (by omega)
        linarith
  rw [hl, Nat.add_sub_cancel, w1, w2] at v0
  rw [hl, Nat.add_sub_cancel, w3, w4] at v1
  rw [w5, Fl.fin.inj v0.1, Fl.fin.inj v0.2, Fl.fin.inj v1.1, Fl.fin.inj v1.2]
  rfl

/-- The bound on the curvature extends to the closed piece. -/
theorem near_piece {g f : ℝ → ℝ} (hf : Continuous f) {l u ζ : ℝ} (he : ∀ x, l < x → x ≤ u → g x = f x)
    (hn : ∀ p, l < p → NearChords g ζ p u) : NearChords f ζ l u := by
  have h1 : ∀ p, l < p → NearChords f ζ p u := by
    intro p hp u' x v a1 a2 a3 a4
    have := hn p hp u' x v a1 a2 a3 a4
    rwa [he x (by linarith) (by linarith), he u' (by linarith) (by linarith), he v (by linarith) a4] at this
  intro u' x v a1 a2 a3 a4
  rcases a1.lt_or_eq with a1 | rfl
  · exact h1 u' a1 u' x v le_rfl a2 a3 a4
  rcases a2.lt_or_eq with a2 | rfl
  swap
  · simp
  -- let the left end go to `l`
  have lim : Tendsto (fun w => |(v - w) * f x - ((v - x) * f w + (x - w) * f v)|) (𝓝[>] l) (𝓝 |(v - l) * f x - ((v - x) * f l + (x - l) * f v)|) :=
    ((by fun_prop : Continuous fun w => |(v - w) * f x - ((v - x) * f w + (x - w) * f v)|).tendsto l).mono_left nhdsWithin_le_nhds
  have lim' : Tendsto (fun w => ζ / 2 * ((x - w) * (v - x) * (v - w))) (𝓝[>] l) (𝓝 (ζ / 2 * ((x - l) * (v - x) * (v - l)))) :=
    ((by fun_prop : Continuous fun w => ζ / 2 * ((x - w) * (v - x) * (v - w))).tendsto l).mono_left nhdsWithin_le_nhds
  refine le_of_tendsto_of_tendsto lim lim' ?_
  filter_upwards [Ioo_mem_nhdsGT a2] with w hw
  exact h1 w hw.1 w x v le_rfl hw.2.le a3 a4

theorem lower_piece {g f : ℝ → ℝ} (hf : Continuous f) {l u m : ℝ} (hlu : l < u) (he : ∀ x, l < x → x ≤ u → g x = f x)
    (hm : ∀ x, l < x → x ≤ u → m ≤ g x) : ∀ x, l ≤ x → x ≤ u → m ≤ f x := by
  intro x h1 h2
  rcases h1.lt_or_eq with h1 | rfl
  · rw [← he x h1 h2]; exact hm x h1 h2
  have lim : Tendsto f (𝓝[>] l) (𝓝 (f l)) := (hf.tendsto l).mono_left nhdsWithin_le_nhds
  refine ge_of_tendsto lim ?_
  filter_upwards [Ioo_mem_nhdsGT hlu] with w hw
  rw [← he w hw.1 hw.2.le]
  exact hm w hw.1 hw.2.le

/-! ## Accuracy and order -/

/-- The exact integral from `p` to bottle `K - 1`. -/
noncomputable def tailEx (rs rt : ℝ → ℝ → ℝ → ℝ) (P : Arr (Fl ℝ)) (K : ℕ) (a : ℕ → ℝ) (c e : ℕ → List ℝ) (p : ℝ) : ℝ :=
  (∫ x in p..a (pieceEnd P (Fl.fin p)), gk rs rt a c e (pieceEnd P (Fl.fin p) - 1) x) +
    ∑ k ∈ Finset.Ico (pieceEnd P (Fl.fin p)) (K - 1), ∫ x in a k..a (k + 1), gk rs rt a c e k x

theorem tail_err {Sc Tc : PPC (Fl ℝ)} {c e : ℕ → List ℝ} (B : Cast P Sc Tc K a c e) (hc : ContEos rs rt) {ζ dp h : ℝ} (hζ : 0 ≤ ζ) (hdp : 0 < dp)
    (hn : ∀ k, k + 1 < K → NearChords (gk rs rt a c e k) ζ (a k) (a (k + 1))) (hh : ∀ k, k + 1 < K → a (k + 1) - a k ≤ h)
    {p q : ℝ} (h0 : a 0 ≤ p) (hpq : p ≤ q) (h1 : q ≤ a (K - 1)) :
    |(tailInt rs rt P K a c e dp p - tailInt rs rt P K a c e dp q) - (tailEx rs rt P K a c e p - tailEx rs rt P K a c e q)|
      ≤ ζ / 12 * dp ^ 2 * ((q - p) + 2 * h) := by
  obtain ⟨p1, p2, p3, p4, p5⟩ := pieceEnd_spec B h0 (hpq.trans h1)
  obtain ⟨q1, q2, q3, q4, q5⟩ := pieceEnd_spec B (h0.trans hpq) h1
  have hj := pieceEnd_mono B h0 hpq h1
  have hsz := B.size
  unfold tailInt tailEx part full
  simp only
  generalize pieceEnd P (Fl.fin p) = i at *
  generalize pieceEnd P (Fl.fin q) = j at *
  have hC : 0 ≤ ζ / 12 * dp ^ 2 := by positivity
  have sub : ∀ {k u}, k + 1 < K → a k ≤ u → NearChords (gk rs rt a c e k) ζ u (a (k + 1)) := fun {k u} hk hu w x v a1 a2 a3 a4 =>
    hn k hk w x v (hu.trans a1) a2 a3 a4
  have E1 := trap_err (gk_continuous (a := a) hc c e (i - 1)) hζ (sub (k := i - 1) (by omega) p4) (by rw [show i - 1 + 1 = i by omega]; exact p3) hdp
  have E2 := trap_err (gk_continuous (a := a) hc c e (j - 1)) hζ (sub (k := j - 1) (by omega) q4) (by rw [show j - 1 + 1 = j by omega]; exact q3) hdp
  rw [show i - 1 + 1 = i by omega] at E1
  rw [show j - 1 + 1 = j by omega] at E2
  have E3 : |∑ k ∈ Finset.Ico i j, (trap (gk rs rt a c e k) (a k) (a (k + 1)) (nInt dp (a k) (a (k + 1))) - ∫ x in a k..a (k + 1), gk rs rt a c e k x)|
      ≤ ζ / 12 * dp ^ 2 * (a j - a i) := by
    refine (Finset.abs_sum_le_sum_abs _ _).trans ?_
    have : ∀ k ∈ Finset.Ico i j, |trap (gk rs rt a c e k) (a k) (a (k + 1)) (nInt dp (a k) (a (k + 1))) - ∫ x in a k..a (k + 1), gk rs rt a c e k x|
        ≤ ζ / 12 * dp ^ 2 * a (k + 1) - ζ / 12 * dp ^ 2 * a k := by
      intro k hk
      rw [Finset.mem_Ico] at hk
      have := trap_err (gk_continuous (a := a) hc c e k) hζ (hn k (by omega)) (B.inc k (by omega)).le hdp
      linarith
    refine (Finset.sum_le_sum this).trans (le_of_eq ?_)
    rw [sum_telescope (fun k => ζ / 12 * dp ^ 2 * a k) hj]
    ring
  have hlast := hh (j - 1) (by omega)
  rw [show j - 1 + 1 = j by omega] at hlast ⊢
  rw [show i - 1 + 1 = i by omega, ← Finset.sum_Ico_consecutive _ hj (show j ≤ K - 1 by omega), ← Finset.sum_Ico_consecutive _ hj (show j ≤ K - 1 by omega)]
  rw [Finset.sum_sub_distrib] at E3
  have hfin : ζ / 12 * dp ^ 2 * (a i - p) + ζ / 12 * dp ^ 2 * (a j - a i) + ζ / 12 * dp ^ 2 * (a j - q) ≤ ζ / 12 * dp ^ 2 * ((q - p) + 2 * h) := by
    rw [← mul_add, ← mul_add]
    refine mul_le_mul_of_nonneg_left ?_ hC
    linarith
  rw [abs_le] at E1 E2 E3 ⊢
  constructor <;> linarith [E1.1, E1.2, E2.1, E2.2, E3.1, E3.2]

/-- Below a bottle: the sums are at least those of the lower bound. -/
theorem tail_ge {Sc Tc : PPC (Fl ℝ)} {c e : ℕ → List ℝ} (B : Cast P Sc Tc K a c e) {m dp : ℝ} (hdp : 0 < dp)
    (hm : ∀ k, k + 1 < K → ∀ x, a k ≤ x → x ≤ a (k + 1) → m ≤ gk rs rt a c e k x) {p : ℝ} (h0 : a 0 ≤ p) {j : ℕ} (hjK : j < K) (hj0 : p < a j) :
    m * (a j - p) ≤ tailInt rs rt P K a c e dp p - tailInt rs rt P K a c e dp (a j) := by
  have hsz := B.size
  have hjl := B.mono j (K - 1) (by omega) (by omega)
  obtain ⟨p1, p2, p3, p4, p5⟩ := pieceEnd_spec B h0 (hj0.le.trans hjl)
  have h0j : a 0 < a j := h0.trans_lt hj0
  obtain ⟨q1, q2, q3, q4, q5⟩ := pieceEnd_spec B h0j.le hjl
  have hle := pieceEnd_mono B h0 hj0.le hjl
  have hj : pieceEnd P (Fl.fin (a j)) = j := by
    generalize pieceEnd P (Fl.fin (a j)) = l at *
    have a1 : j ≤ l := by
      by_contra hcon
      have := B.smono l j (by omega) (by omega)
      linarith
    by_contra hcon
    have := B.mono j (l - 1) (by omega) (by omega)
    rcases q5 with h | h
    · have : j = 0 := by omega
      subst this
      exact lt_irrefl _ h0j
    · linarith
  rw [hj] at hle q1
  unfold tailInt part full
  simp only
  rw [hj]
  generalize pieceEnd P (Fl.fin p) = i at *
  have pos : ∀ {u v : ℝ}, u ≤ v → u = v ∨ 0 < nInt dp u v := fun {u v} h => h.eq_or_lt.imp id fun h => nInt_pos hdp h
  have E1 := trap_ge (f := gk rs rt a c e (i - 1)) (m := m) (fun x a1 a2 => hm (i - 1) (by omega) x (p4.trans a1) (by rw [show i - 1 + 1 = i by omega]; exact a2))
    p3 (pos p3)
  have E2 : trap (gk rs rt a c e (j - 1)) (a j) (a j) (nInt dp (a j) (a j)) = 0 := by simp [trap]
  have E3 : m * (a j - a i) ≤ ∑ k ∈ Finset.Ico i j, trap (gk rs rt a c e k) (a k) (a (k + 1)) (nInt dp (a k) (a (k + 1))) := by
    have : ∀ k ∈ Finset.Ico i j, m * a (k + 1) - m * a k ≤ trap (gk rs rt a c e k) (a k) (a (k + 1)) (nInt dp (a k) (a (k + 1))) := by
      intro k hk
      rw [Finset.mem_Ico] at hk
      have hinc := (B.inc k (by omega)).le
      have := trap_ge (hm k (by omega)) hinc (pos hinc)
      linarith
    refine le_trans (le_of_eq ?_) (Finset.sum_le_sum this)
    rw [sum_telescope (fun k => m * a k) hle]
    ring
  rw [show i - 1 + 1 = i by omega, show j - 1 + 1 = j by omega, ← Finset.sum_Ico_consecutive _ hle (show j ≤ K - 1 by omega), E2]
  linarith

/-- Curvature of the integrand between bottles: at most `ζ`. -/
def Curved (g : ℝ → ℝ) (ζ : ℝ) (K : ℕ) (a : ℕ → ℝ) : Prop := ∀ k, k + 1 < K → ∀ p, a k < p → NearChords g ζ p (a (k + 1))

/-- **C152** The Veronis density is accurate to second order in the step size: its difference to the definition (potential density at the base plus `b` times
the integral of the gradient of locally referenced potential density) is at most `|b| ζ dp² / 12` times the length of the integration and twice a bottle spacing, where
`ζ` bounds the second derivative of the gradient between bottles.  The base and the position are anywhere within the data. -/
theorem veronis_accuracy (H : Profile P S T K a s t) (G : Good ppc) (hR : FinRho eos ρ) (hE : FinEos eosST rs rt) (hc : ContEos rs rt) {g : ℝ → ℝ}
    (hg : VertGrad ppc rs rt P S T (a 0) (a (K - 1)) g) {ζ dp h : ℝ} (hζ : 0 ≤ ζ) (hdp : 0 < dp) (hn : Curved g ζ K a) (hh : ∀ k, k + 1 < K → a (k + 1) - a k ≤ h)
    {b pref p0 p1 : ℝ} (h0 : a 0 ≤ p0 ∧ p0 ≤ a (K - 1)) (h1 : a 0 ≤ p1 ∧ p1 ≤ a (K - 1)) :
    ∃ (Sc Tc : PPC (Fl ℝ)) (s0 t0 V : ℝ), ppc P S = some Sc ∧ ppc P T = some Tc ∧
      ppval1 (Fl.fin p0) P Sc 0 = Fl.fin s0 ∧ ppval1 (Fl.fin p0) P Tc 0 = Fl.fin t0 ∧
      veronis ppc eos eosST S T P (Fl.fin p1) (some (Fl.fin p0)) (Fl.fin pref) (Fl.fin b) (Fl.fin dp) = some (Fl.fin V) ∧
      |V - (ρ s0 t0 pref + b * ∫ x in p0..p1, g x)| ≤ |b| * (ζ / 12 * dp ^ 2 * (|p1 - p0| + 2 * h)) := by
  obtain ⟨Sc, Tc, c, e, g1, g2, g3, g4, B, hj⟩ := H.cast G
  have hvr : validRange2 P Sc.lastCol = validRange2 P Tc.lastCol := by
    rw [H.BS.vr_table g3, H.BT.vr_table g4]
  have hsz := B.size
  have hpc : ∀ k, k + 1 < K → ∀ x, a k < x → x ≤ a (k + 1) → g x = gk rs rt a c e k x := fun k hk x => hg.piece B H g1 g2 g3 g4 hk
  have hn' : ∀ k, k + 1 < K → NearChords (gk rs rt a c e k) ζ (a k) (a (k + 1)) := fun k hk =>
    near_piece (gk_continuous hc c e k) (hpc k hk) (hn k hk)
  have hpe : ∀ x, a 0 < x → x ≤ a (K - 1) → g x = gk rs rt a c e (pieceEnd P (Fl.fin x) - 1) x := by
    intro x hx hx'
    obtain ⟨r1, r2, r3, r4, r5⟩ := pieceEnd_spec B hx.le hx'
    refine hpc _ (by omega) x ?_ (by rw [show pieceEnd P (Fl.fin x) - 1 + 1 = pieceEnd P (Fl.fin x) by omega]; exact r3)
    rcases r5 with h5 | h5
    · rw [h5]; exact hx
    · exact h5
  have i0 := tail_integral B hc hpe h0.1 h0.2
  have i1 := tail_integral B hc hpe h1.1 h1.2
  have hint : (∫ x in p0..a (K - 1), g x) - (∫ x in p1..a (K - 1), g x) = ∫ x in p0..p1, g x := by
    rw [← integral_add_adjacent_intervals i0.1 i1.1.symm, integral_symm p1 (a (K - 1)), sub_eq_add_neg]
  have hex : tailEx rs rt P K a c e p0 - tailEx rs rt P K a c e p1 = ∫ x in p0..p1, g x := by
    unfold tailEx
    rw [i0.2, i1.2, hint]
  have v0 := B.ppval H g3 h0.1 h0.2 0
  rw [ppval1Two_eq hvr] at v0
  simp only [Prod.mk.injEq] at v0
  refine ⟨Sc, Tc, _, _, _, g1, g2, v0.1, v0.2, veronis_val B H g1 g2 g3 hR hE b pref hdp h0 h1, ?_⟩
  rw [← hex, Function.iterate_zero, id, id, add_sub_add_left_eq_sub, ← mul_sub, abs_mul]
  refine mul_le_mul_of_nonneg_left ?_ (abs_nonneg b)
  rcases le_total p0 p1 with hle | hle
  · rw [abs_of_nonneg (by linarith : 0 ≤ p1 - p0)]
    exact tail_err B hc hζ hdp hn' hh h0.1 hle h1.2
  · rw [abs_sub_comm p1, abs_of_nonneg (by linarith : 0 ≤ p0 - p1)]
    have := tail_err B hc hζ hdp hn' hh h1.1 hle h0.2
    rw [abs_sub_comm] at this
    refine le_trans (le_of_eq ?_) this
    congr 1
    ring

/-- **C152** (violated, see `veronis_order_false`) Where the gradient of locally referenced potential density is at least `m`, labels with a common base (and `b > 0`)
are in the order of pressure: (1) for any step size, if the deeper position is a bottle; (2) between any two positions, if they are
so far apart that the errors of the trapezoidal rule are less than the increase of density. -/
theorem veronis_order_partial (H : Profile P S T K a s t) (G : Good ppc) (hR : FinRho eos ρ) (hE : FinEos eosST rs rt) (hc : ContEos rs rt) {g : ℝ → ℝ}
    (hg : VertGrad ppc rs rt P S T (a 0) (a (K - 1)) g) {m dp b pref p0 p1 p2 : ℝ} (hm : ∀ x, a 0 < x → x ≤ a (K - 1) → m ≤ g x) (hdp : 0 < dp) (hb : 0 < b)
    (h0 : a 0 ≤ p0 ∧ p0 ≤ a (K - 1)) (h1 : a 0 ≤ p1) (h12 : p1 < p2) (h2 : p2 ≤ a (K - 1)) :
    ∃ V1 V2 : ℝ, veronis ppc eos eosST S T P (Fl.fin p1) (some (Fl.fin p0)) (Fl.fin pref) (Fl.fin b) (Fl.fin dp) = some (Fl.fin V1) ∧
      veronis ppc eos eosST S T P (Fl.fin p2) (some (Fl.fin p0)) (Fl.fin pref) (Fl.fin b) (Fl.fin dp) = some (Fl.fin V2) ∧
      ((∃ j < K, p2 = a j) → b * (m * (p2 - p1)) ≤ V2 - V1) ∧
      ∀ {ζ h : ℝ}, 0 ≤ ζ → Curved g ζ K a → (∀ k, k + 1 < K → a (k + 1) - a k ≤ h) →
        b * (m * (p2 - p1) - ζ / 12 * dp ^ 2 * ((p2 - p1) + 2 * h)) ≤ V2 - V1 := by
  obtain ⟨Sc, Tc, c, e, g1, g2, g3, g4, B, hj⟩ := H.cast G
  have hsz := B.size
  have hpc : ∀ k, k + 1 < K → ∀ x, a k < x → x ≤ a (k + 1) → g x = gk rs rt a c e k x := fun k hk x => hg.piece B H g1 g2 g3 g4 hk
  have hm' : ∀ k, k + 1 < K → ∀ x, a k ≤ x → x ≤ a (k + 1) → m ≤ gk rs rt a c e k x := fun k hk =>
    lower_piece (gk_continuous hc c e k) (B.inc k (by omega)) (hpc k hk) fun x a1 a2 =>
      hm x (lt_of_le_of_lt (B.mono 0 k (Nat.zero_le _) (by omega)) a1) (a2.trans (B.mono (k + 1) (K - 1) (by omega) (by omega)))
  have hpe : ∀ x, a 0 < x → x ≤ a (K - 1) → g x = gk rs rt a c e (pieceEnd P (Fl.fin x) - 1) x := by
    intro x hx hx'
    obtain ⟨r1, r2, r3, r4, r5⟩ := pieceEnd_spec B hx.le hx'
    refine hpc _ (by omega) x ?_ (by rw [show pieceEnd P (Fl.fin x) - 1 + 1 = pieceEnd P (Fl.fin x) by omega]; exact r3)
    rcases r5 with h5 | h5
    · rw [h5]; exact hx
    · exact h5
  have h1' : a 0 ≤ p1 ∧ p1 ≤ a (K - 1) := ⟨h1, h12.le.trans h2⟩
  have h2' : a 0 ≤ p2 ∧ p2 ≤ a (K - 1) := ⟨h1.trans h12.le, h2⟩
  refine ⟨_, _, veronis_val B H g1 g2 g3 hR hE b pref hdp h0 h1', veronis_val B H g1 g2 g3 hR hE b pref hdp h0 h2', ?_, ?_⟩
  · rintro ⟨j, hj, rfl⟩
    have := tail_ge B hdp hm' h1 hj h12
    rw [add_sub_add_left_eq_sub, ← mul_sub]
    refine mul_le_mul_of_nonneg_left ?_ hb.le
    linarith
  · intro ζ h hζ hn hh
    have hn' : ∀ k, k + 1 < K → NearChords (gk rs rt a c e k) ζ (a k) (a (k + 1)) := fun k hk =>
      near_piece (gk_continuous hc c e k) (hpc k hk) (hn k hk)
    have i1 := tail_integral B hc hpe h1'.1 h1'.2
    have i2 := tail_integral B hc hpe h2'.1 h2'.2
    have hint : (∫ x in p1..a (K - 1), g x) - (∫ x in p2..a (K - 1), g x) = ∫ x in p1..p2, g x := by
      rw [← integral_add_adjacent_intervals i1.1 i2.1.symm, integral_symm p2 (a (K - 1)), sub_eq_add_neg]
    have hex : tailEx rs rt P K a c e p1 - tailEx rs rt P K a c e p2 = ∫ x in p1..p2, g x := by
      unfold tailEx
      rw [i1.2, i2.2, hint]
    have hge : m * (p2 - p1) ≤ ∫ x in p1..p2, g x := by
      have hI : IntervalIntegrable g volume p1 p2 := i1.1.trans i2.1.symm
      have := integral_mono_on_of_le_Ioo h12.le (intervalIntegrable_const (c := m)) hI fun x hx => hm x (h1.trans_lt hx.1) (hx.2.le.trans h2)
      rw [intervalIntegral.integral_const, smul_eq_mul] at this
      linarith
    have he := tail_err B hc hζ hdp hn' hh h1 h12.le h2
    rw [hex, abs_le] at he
    rw [add_sub_add_left_eq_sub, ← mul_sub]
    refine mul_le_mul_of_nonneg_left ?_ hb.le
    linarith [he.1]

/-! ## The jumps -/

section jumps
variable (d : ℝ)

/-- Bottles at pressures 0 and `2 d`, -/
def jP : Arr (Fl ℝ) := ⟨2, fun i => fin (2 * d * i)⟩
/-- with salinities 34 and 36, -/
def jS : Arr (Fl ℝ) := ⟨2, fun i => fin (34 + 2 * i)⟩
/-- and temperature 0. -/
def jT : Arr (Fl ℝ) := ⟨2, fun _ => fin 0⟩
/-- A density with a haline contraction that increases with pressure. -/
noncomputable def jEos (s _t p : Fl ℝ) : Fl ℝ := s * (fin 1 + p * p * fin (1 / d ^ 2))
/-- Its derivatives. -/
noncomputable def jST (_s _t p : Fl ℝ) : Fl ℝ × Fl ℝ := (fin 1 + p * p * fin (1 / d ^ 2), fin 0)

/-- Linear interpolation. -/
noncomputable abbrev lin : Arr (Fl ℝ) → Arr (Fl ℝ) → Option (PPC (Fl ℝ)) := fun X Y => some (linearCoeffs1 X Y)

variable {d}

theorem jCol (hd : 0 < d) {Y : Arr (Fl ℝ)} {y : ℕ → ℝ} (h2 : Y.size = 2) (hy : ∀ i, i < 2 → Y.get i = fin (y i)) :
    Block (jP d) Y 0 2 (fun i => 2 * d * i) y := by
  have C : Traj.Col (jP d) Y 0 2 (fun i => 2 * d * i) y := ⟨h2, le_refl _, le_refl _, fun i hi => absurd hi (by omega),
    fun h => absurd h (lt_irrefl 2), fun _ _ _ => rfl, fun i _ hi => hy i hi, fun i _ _ => by push_cast; linarith⟩
  exact ⟨C.size.symm, C.vr.1, C.two, C.hX, C.hY, C.inc⟩

theorem jProfile (hd : 0 < d) : Profile (jP d) jS jT 2 (fun i => 2 * d * i) (fun i => 34 + 2 * i) (fun _ => 0) :=
  ⟨fun _ _ => rfl, fun i _ => by push_cast; linarith, jCol hd rfl fun _ _ => rfl, jCol hd rfl fun _ _ => rfl⟩

theorem jRho : FinRho (jEos d) (fun s _ p => s * (1 + p * p * (1 / d ^ 2))) := fun s t p => by simp [jEos]

theorem jFin : FinEos (jST d) (fun _ _ p => 1 + p * p * (1 / d ^ 2)) (fun _ _ _ => 0) := fun s t p => by simp [jST]

theorem jCont : ContEos (fun _ _ p => 1 + p * p * (1 / d ^ 2)) (fun _ _ _ => 0) := ⟨by fun_prop, by fun_prop⟩

/-- The gradient along the cast. -/
theorem jGrad (hd : 0 < d) : VertGrad lin (fun _ _ p => 1 + p * p * (1 / d ^ 2)) (fun _ _ _ => 0) (jP d) jS jT ((fun i : ℕ => 2 * d * i) 0)
    ((fun i : ℕ => 2 * d * i) (2 - 1)) (fun x => (1 + x * x * (1 / d ^ 2)) * (1 / d)) := by
  refine ⟨_, _, fun x => 34 + x * (1 / d), fun _ => 0, fun _ => 1 / d, fun _ => 0, rfl, rfl, fun x h1 h2 => ?_⟩
  have BS := (jProfile hd).BS
  have BT := (jProfile hd).BT
  have e1 := linear_chord BS (i := 0) (x := x) le_rfl (by norm_num) h1.le h2
  have e2 := linear_chord BT (i := 0) (x := x) le_rfl (by norm_num) h1.le h2
  refine ⟨e1.1.trans ?_, e2.1.trans ?_, (e1.2.2 (.inr rfl)).1.trans ?_, (e2.2.2 (.inr rfl)).1.trans ?_, ?_⟩
  · congr 1; push_cast; field_simp; ring
  · congr 1; simp
  · congr 1; push_cast; field_simp; ring
  · congr 1; simp
  · ring

/-- **C152 is violated**, whatever the step size: on this stably stratified cast (the gradient is at least `1 / dp`) the label of the position `19/20 dp` is larger than that
of the deeper position `dp`. -/
theorem veronis_order_false {dp : ℝ} (hdp : 0 < dp) (pref p0 : ℝ) (h0 : 0 ≤ p0 ∧ p0 ≤ 2 * dp) :
    (∃ g, VertGrad lin (fun _ _ p => 1 + p * p * (1 / dp ^ 2)) (fun _ _ _ => 0) (jP dp) jS jT 0 (2 * dp) g ∧ ∀ x, 0 < x → x ≤ 2 * dp → 1 / dp ≤ g x) ∧
    ∃ V1 V2 : ℝ, V2 < V1 ∧
      veronis lin (jEos dp) (jST dp) jS jT (jP dp) (fin (19 / 20 * dp)) (some (fin p0)) (fin pref) (fin 1) (fin dp) = some (fin V1) ∧
      veronis lin (jEos dp) (jST dp) jS jT (jP dp) (fin dp) (some (fin p0)) (fin pref) (fin 1) (fin dp) = some (fin V2) := by
  have hg := jGrad hdp
  refine ⟨⟨fun x => (1 + x * x * (1 / dp ^ 2)) * (1 / dp), ?_, fun x _ _ => ?_⟩, ?_⟩
  · convert hg using 1 <;> simp
  · have : 0 ≤ x * x * (1 / dp ^ 2) := mul_nonneg (mul_self_nonneg x) (by positivity)
    have h1 : 0 < 1 / dp := by positivity
    exact le_mul_of_one_le_left h1.le (by linarith)
  have H := jProfile hdp
  obtain ⟨Sc, Tc, c, e, g1, g2, g3, g4, B, hj⟩ := H.cast good_linear
  have hpe : ∀ x, 0 ≤ x → x ≤ 2 * dp → pieceEnd (jP dp) (fin x) = 1 := by
    intro x hx hx'
    have := pieceEnd_spec B (p := x) (by simpa using hx) (by simpa using hx')
    omega
  have hgk : ∀ x, 0 < x → x ≤ 2 * dp → gk (fun _ _ p => 1 + p * p * (1 / dp ^ 2)) (fun _ _ _ => 0) (fun i : ℕ => 2 * dp * i) c e 0 x = (1 + x * x * (1 / dp ^ 2)) * (1 / dp) := by
    intro x hx hx'
    exact (hg.piece B H g1 g2 g3 g4 (k := 0) (by norm_num) (by simpa using hx) (by simpa using hx')).symm
  refine ⟨_, _, ?_, veronis_val B H g1 g2 g3 jRho jFin 1 pref hdp (by simpa using h0) (p1 := 19 / 20 * dp) ?_,
    veronis_val B H g1 g2 g3 jRho jFin 1 pref hdp (by simpa using h0) (p1 := dp) ?_⟩
  · have t : ∀ x, 0 ≤ x → x ≤ 2 * dp → tailInt (fun _ _ p => 1 + p * p * (1 / dp ^ 2)) (fun _ _ _ => 0) (jP dp) 2 (fun i : ℕ => 2 * dp * i) c e dp x
        = trap (gk (fun _ _ p => 1 + p * p * (1 / dp ^ 2)) (fun _ _ _ => 0) (fun i : ℕ => 2 * dp * i) c e 0) x (2 * dp) (nInt dp x (2 * dp)) := by
      intro x h1 h2
      unfold tailInt part
      simp only [hpe x h1 h2]
      simp
    have n1 : nInt dp dp (2 * dp) = 1 := by
      unfold nInt
      rw [show (2 * dp - dp) / dp = 1 by field_simp; ring]
      exact Nat.ceil_one
    have n2 : nInt dp (19 / 20 * dp) (2 * dp) = 2 := by
      unfold nInt
      rw [show (2 * dp - 19 / 20 * dp) / dp = 21 / 20 by field_simp; ring, Nat.ceil_eq_iff (by norm_num)]
      norm_num
    rw [t (19 / 20 * dp) (by linarith) (by linarith), t dp (by linarith) (by linarith), n1, n2]
    have T1 : trap (gk (fun _ _ p => 1 + p * p * (1 / dp ^ 2)) (fun _ _ _ => 0) (fun i : ℕ => 2 * dp * i) c e 0) dp (2 * dp) 1 = 7 / 2 := by
      unfold trap
      rw [Finset.sum_range_one]
      norm_num only [Nat.cast_zero, Nat.cast_one]
      rw [hgk _ (by linarith) (by linarith), hgk _ (by linarith) (by linarith)]
      field_simp
      ring
    have T2 : trap (gk (fun _ _ p => 1 + p * p * (1 / dp ^ 2)) (fun _ _ _ => 0) (fun i : ℕ => 2 * dp * i) c e 0) (19 / 20 * dp) (2 * dp) 2 = 3479109375 / 1000000000 := by
      unfold trap
      rw [Finset.sum_range_succ, Finset.sum_range_one]
      norm_num only [Nat.cast_zero, Nat.cast_one, Nat.cast_ofNat]
      rw [hgk _ (by linarith) (by linarith), hgk _ (by linarith) (by linarith), hgk _ (by linarith) (by linarith)]
      field_simp
      ring
    rw [T1, T2]
    linarith
  · constructor <;> simp <;> linarith
  · constructor <;> simp <;> linarith

/-- The gradient of this cast has the second derivative `2 / d³`. -/
theorem jCurved (hd : 0 < d) : Curved (fun x => (1 + x * x * (1 / d ^ 2)) * (1 / d)) (2 * (1 / d ^ 2 * (1 / d))) 2 (fun i => 2 * d * i) := by
  intro k _ p _ u x v _ h2 h3 _
  have : (v - u) * ((1 + x * x * (1 / d ^ 2)) * (1 / d)) - ((v - x) * ((1 + u * u * (1 / d ^ 2)) * (1 / d)) + (x - u) * ((1 + v * v * (1 / d ^ 2)) * (1 / d)))
      = -(1 / d ^ 2 * (1 / d) * ((x - u) * (v - x) * (v - u))) := by ring
  rw [this, abs_neg, abs_of_nonneg]
  · linarith
  · have a1 : 0 ≤ x - u := by linarith
    have a2 : 0 ≤ v - x := by linarith
    have a3 : 0 ≤ v - u := by linarith
    positivity

/-- The same cast with `d = 1` and a step of 1/10: labels are in order from 0.2 dbar apart. -/
example {p1 p2 : ℝ} (h1 : 0 ≤ p1) (h12 : p1 + 1 / 5 ≤ p2) (h2 : p2 ≤ 2) : ∃ V1 V2 : ℝ, V1 < V2 ∧
    veronis lin (jEos 1) (jST 1) jS jT (jP 1) (fin p1) (some (fin 0)) (fin 0) (fin 1) (fin (1 / 10)) = some (fin V1) ∧
    veronis lin (jEos 1) (jST 1) jS jT (jP 1) (fin p2) (some (fin 0)) (fin 0) (fin 1) (fin (1 / 10)) = some (fin V2) := by
  obtain ⟨V1, V2, e1, e2, -, h⟩ := veronis_order_partial (jProfile one_pos) good_linear jRho jFin jCont (jGrad one_pos) (m := 1) (dp := 1 / 10) (b := 1) (pref := 0) (p0 := 0)
    (p1 := p1) (p2 := p2) (fun x _ _ => by nlinarith [mul_self_nonneg x]) (by norm_num) one_pos (by norm_num) (by simpa using h1) (by linarith) (by norm_num; exact h2)
  have := h (by norm_num) (jCurved one_pos) (h := 2) (fun k hk => by push_cast; linarith)
  refine ⟨V1, V2, ?_, e1, e2⟩
  norm_num at this
  linarith

end jumps

end Label
