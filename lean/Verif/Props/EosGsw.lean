import Verif.Lemmas.EosGsw
import Mathlib.Tactic.IntervalCases

/-!
# Properties of the gsw equation of state (C52, C53, C92)
-/

namespace Gsw
open FloatLike Interp Eos
open Fl hiding nan

/-! ### What a table of partial derivatives is -/

/-- `g` is the partial derivative of `f` in salinity, for every `SA ≥ 0` (from the right at `SA = 0`). -/
def IsPartialS (f g : ℝ → ℝ → ℝ → ℝ) : Prop :=
  ∀ SA, 0 ≤ SA → ∀ CT p, HasDerivWithinAt (fun s => f s CT p) (g SA CT p) (Set.Ici 0) SA

/-- `g` is the partial derivative of `f` in temperature, wherever `SA ≥ 0`. -/
def IsPartialT (f g : ℝ → ℝ → ℝ → ℝ) : Prop := ∀ SA, 0 ≤ SA → ∀ CT p, HasDerivAt (fun t => f SA t p) (g SA CT p) CT

/-- `g` is the partial derivative of `f` in pressure, wherever `SA ≥ 0`. -/
def IsPartialP (f g : ℝ → ℝ → ℝ → ℝ) : Prop := ∀ SA, 0 ≤ SA → ∀ CT p, HasDerivAt (fun q => f SA CT q) (g SA CT p) p

/-- `d i j k` is the derivative of `d 0 0 0` of order `i` in salinity, `j` in temperature and `k` in pressure,
for total order at most `n`. -/
def Table (n : ℕ) (d : ℕ → ℕ → ℕ → ℝ → ℝ → ℝ → ℝ) : Prop :=
  ∀ i j k, i + j + k < n → IsPartialS (d i j k) (d (i + 1) j k) ∧ IsPartialT (d i j k) (d i (j + 1) k) ∧
    IsPartialP (d i j k) (d i j (k + 1))

/-! ### The table computed by the code -/

/-- The coefficients as real numbers. -/
def vR (i j k : ℕ) : ℝ := vtab i j k

/-- `x` as a function of salinity. -/
noncomputable def X (SA : ℝ) : ℝ := Real.sqrt (sf * SA + (offset : ℚ))

/-- The functions in the code by order of differentiation. -/
noncomputable def rt : ℕ → ℕ → ℕ → ℝ → ℝ → ℝ → ℝ
  | 0, 0, 0 => pSpecvol vR
  | 1, 0, 0 => r_s vR | 0, 1, 0 => r_t vR | 0, 0, 1 => r_p vR
  | 2, 0, 0 => r_ss vR | 1, 1, 0 => r_st vR | 0, 2, 0 => r_tt vR | 1, 0, 1 => r_sp vR | 0, 1, 1 => r_tp vR | 0, 0, 2 => r_pp vR
  | 3, 0, 0 => r_sss vR | 2, 1, 0 => r_sst vR | 1, 2, 0 => r_stt vR | 0, 3, 0 => r_ttt vR | 2, 0, 1 => r_ssp vR
  | 1, 1, 1 => r_stp vR | 0, 2, 1 => r_ttp vR | 1, 0, 2 => r_spp vR | 0, 1, 2 => r_tpp vR | 0, 0, 3 => r_ppp vR
  | _, _, _ => fun _ _ _ => 0

/-- The same as functions of salinity, temperature and pressure. -/
noncomputable def tab (i j k : ℕ) (SA CT p : ℝ) : ℝ := rt i j k (X SA) (CT * tf) (p * pf)

theorem sf_pos : 0 < sf := by norm_num [sf, sfac]

theorem x2_pos {SA : ℝ} (h : 0 ≤ SA) : 0 < sf * SA + (offset : ℚ) := by
  have := mul_nonneg sf_pos.le h
  have : (0 : ℝ) < (offset : ℚ) := by norm_num [offset]
  linarith

theorem X_pos {SA : ℝ} (h : 0 ≤ SA) : 0 < X SA := Real.sqrt_pos.mpr (x2_pos h)

theorem X_sq {SA : ℝ} (h : 0 ≤ SA) : X SA * X SA = sf * SA + (offset : ℚ) := Real.mul_self_sqrt (x2_pos h).le

theorem X_deriv {SA : ℝ} (h : 0 ≤ SA) : HasDerivAt X (sf / (2 * X SA)) SA := by
  have h1 : HasDerivAt (fun SA => sf * SA + (offset : ℚ)) (sf * 1 + 0) SA :=
    ((hasDerivAt_id' SA).const_mul sf).fun_add (hasDerivAt_const _ _)
  have := h1.sqrt (x2_pos h).ne'
  rwa [mul_one, add_zero] at this

theorem partialS_of {f g : ℝ → ℝ → ℝ → ℝ}
    (h : ∀ x y z, x ≠ 0 → ∃ d, HasDerivAt (fun x => f x y z) d x ∧ d * (sf / (2 * x)) = g x y z) :
    IsPartialS (fun SA CT p => f (X SA) (CT * tf) (p * pf)) (fun SA CT p => g (X SA) (CT * tf) (p * pf)) := by
  intro SA hSA CT p
  obtain ⟨d, hd, he⟩ := h (X SA) (CT * tf) (p * pf) (X_pos hSA).ne'
  have := HasDerivAt.comp SA hd (X_deriv hSA)
  dsimp only
  rw [← he]
  exact this.hasDerivWithinAt

theorem partialT_of {f g : ℝ → ℝ → ℝ → ℝ} (h : ∀ x y z, ∃ d, HasDerivAt (fun y => f x y z) d y ∧ d * tf = g x y z) :
    IsPartialT (fun SA CT p => f (X SA) (CT * tf) (p * pf)) (fun SA CT p => g (X SA) (CT * tf) (p * pf)) := by
  intro SA hSA CT p
  obtain ⟨d, hd, he⟩ := h (X SA) (CT * tf) (p * pf)
  have h1 : HasDerivAt (fun t => t * tf) tf CT := by simpa using (hasDerivAt_id' CT).mul_const tf
  have := HasDerivAt.comp CT hd h1
  dsimp only
  rw [← he]
  exact this

theorem partialP_of {f g : ℝ → ℝ → ℝ → ℝ} (h : ∀ x y z, ∃ d, HasDerivAt (fun z => f x y z) d z ∧ d * pf = g x y z) :
    IsPartialP (fun SA CT p => f (X SA) (CT * tf) (p * pf)) (fun SA CT p => g (X SA) (CT * tf) (p * pf)) := by
  intro SA hSA CT p
  obtain ⟨d, hd, he⟩ := h (X SA) (CT * tf) (p * pf)
  have h1 : HasDerivAt (fun t => t * pf) pf p := by simpa using (hasDerivAt_id' p).mul_const pf
  have := HasDerivAt.comp p hd h1
  dsimp only
  rw [← he]
  exact this

theorem tab_table : Table 3 tab := by
  intro i j k h
  have hi : i < 3 := by omega
  have hj : j < 3 := by omega
  have hk : k < 3 := by omega
  interval_cases i <;> interval_cases j <;> interval_cases k <;> first
    | omega
    | exact ⟨partialS_of fun x y z hx => deriv_v_s vR x y z hx, partialT_of fun x y z => deriv_v_t vR x y z, partialP_of fun x y z => deriv_v_p vR x y z⟩
    | exact ⟨partialS_of fun x y z hx => deriv_s_s vR x y z hx, partialT_of fun x y z => deriv_s_t vR x y z, partialP_of fun x y z => deriv_s_p vR x y z⟩
    | exact ⟨partialS_of fun x y z hx => deriv_t_s vR x y z hx, partialT_of fun x y z => deriv_t_t vR x y z, partialP_of fun x y z => deriv_t_p vR x y z⟩
    | exact ⟨partialS_of fun x y z hx => deriv_p_s vR x y z hx, partialT_of fun x y z => deriv_p_t vR x y z, partialP_of fun x y z => deriv_p_p vR x y z⟩
    | exact ⟨partialS_of fun x y z hx => deriv_ss_s vR x y z hx, partialT_of fun x y z => deriv_ss_t vR x y z, partialP_of fun x y z => deriv_ss_p vR x y z⟩
    | exact ⟨partialS_of fun x y z hx => deriv_st_s vR x y z hx, partialT_of fun x y z => deriv_st_t vR x y z, partialP_of fun x y z => deriv_st_p vR x y z⟩
    | exact ⟨partialS_of fun x y z hx => deriv_tt_s vR x y z hx, partialT_of fun x y z => deriv_tt_t vR x y z, partialP_of fun x y z => deriv_tt_p vR x y z⟩
    | exact ⟨partialS_of fun x y z hx => deriv_sp_s vR x y z hx, partialT_of fun x y z => deriv_sp_t vR x y z, partialP_of fun x y z => deriv_sp_p vR x y z⟩
    | exact ⟨partialS_of fun x y z hx => deriv_tp_s vR x y z hx, partialT_of fun x y z => deriv_tp_t vR x y z, partialP_of fun x y z => deriv_tp_p vR x y z⟩
    | exact ⟨partialS_of fun x y z hx => deriv_pp_s vR x y z hx, partialT_of fun x y z => deriv_pp_t vR x y z, partialP_of fun x y z => deriv_pp_p vR x y z⟩

theorem process_fin {SA : ℝ} (h : 0 ≤ SA) (CT p : ℝ) : process (Fl.fin SA) (.fin CT) (.fin p)
    = (.fin (X SA), .fin (CT * tf), .fin (p * pf), .fin (X SA * X SA)) := by
  have hm : max0 (Fl.fin SA) = .fin SA := by
    unfold max0
    rw [isNaN_fin, lit_eq, Rat.cast_zero, lt_fin]
    simp [not_lt.mpr h]
  have e : lit sfac * max0 (Fl.fin SA) + lit offset = Fl.fin (sf * SA + (offset : ℚ)) := by
    rw [hm, lit_eq, lit_eq, fin_mul, fin_add]; rfl
  unfold process
  simp only [e, sqrt_fin (x2_pos h).le, X_sq h]
  simp only [lit_eq, fin_mul]
  rfl

theorem vf_eq : (vf : ℕ → ℕ → ℕ → Fl ℝ) = fun i j k => .fin (vR i j k) := rfl

theorem pSpecvol_fin (x y z : ℝ) : pSpecvol (fun i j k => Fl.fin (vR i j k)) (.fin x) (.fin y) (.fin z) = .fin (pSpecvol vR x y z) := by
  simp only [pSpecvol, fin_add, fin_mul]

/-- **C52, C53** There is a table of functions of salinity, temperature and pressure whose entries are exact partial
derivatives of each other up to total order three (mixed derivatives in any order of differentiation), whose entry of
order zero is the specific volume, and whose entries are what every public function of the module returns — for every
nonnegative salinity and any temperature and pressure, without any division by zero. -/
theorem gsw_derivatives : ∃ d : ℕ → ℕ → ℕ → ℝ → ℝ → ℝ → ℝ, Table 3 d ∧ ∀ SA, 0 ≤ SA → ∀ CT p,
    let f := fun i j k => (Fl.fin (d i j k SA CT p) : Fl ℝ)
    specvol (Fl.fin SA) (.fin CT) (.fin p) = f 0 0 0 ∧
    specvolFirst (Fl.fin SA) (.fin CT) (.fin p) = some [f 1 0 0, f 0 1 0, f 0 0 1] ∧
    specvolSecond (Fl.fin SA) (.fin CT) (.fin p) = some [f 2 0 0, f 1 1 0, f 0 2 0, f 1 0 1, f 0 1 1, f 0 0 2] ∧
    specvolThird (Fl.fin SA) (.fin CT) (.fin p) = some [f 3 0 0, f 2 1 0, f 1 2 0, f 0 3 0, f 2 0 1, f 1 1 1, f 0 2 1, f 1 0 2,
      f 0 1 2, f 0 0 3] ∧
    specvolST (Fl.fin SA) (.fin CT) (.fin p) = some (f 1 0 0, f 0 1 0) ∧
    specvolP (Fl.fin SA) (.fin CT) (.fin p) = some (f 0 0 1) ∧
    specvolSel2 (Fl.fin SA) (.fin CT) (.fin p) = some [f 1 0 0, f 0 1 0, f 2 0 0, f 1 1 0, f 0 2 0, f 1 0 1, f 0 1 1] ∧
    specvolSel3 (Fl.fin SA) (.fin CT) (.fin p) = some [f 1 0 0, f 0 1 0, f 2 0 0, f 1 1 0, f 0 2 0, f 1 0 1, f 0 1 1,
      f 3 0 0, f 2 1 0, f 1 2 0, f 0 3 0, f 2 0 1, f 1 1 1, f 0 2 1, f 1 0 2, f 0 1 2] := by
  refine ⟨tab, tab_table, fun SA h CT p => ?_⟩
  have hx := (X_pos h).ne'
  simp only [specvol, specvolFirst, specvolSecond, specvolThird, specvolST, specvolP, specvolSel2, specvolSel3, process_fin h,
    vf_eq, pSpecvol_fin, d_s_fin vR _ _ hx, d_t_fin, d_p_fin, d_ss_fin vR _ _ hx, d_st_fin vR _ _ hx, d_tt_fin, d_sp_fin vR _ _ hx,
    d_tp_fin, d_pp_fin, d_sss_fin vR _ _ hx, d_sst_fin vR _ _ hx, d_stt_fin vR _ _ hx, d_ttt_fin, d_ssp_fin vR _ _ hx, d_stp_fin vR _ _ hx,
    d_ttp_fin, d_spp_fin vR _ _ hx, d_tpp_fin, d_ppp_fin, Option.bind_eq_bind, Option.bind_some, Option.pure_def]
  exact ⟨rfl, rfl, rfl, rfl, rfl, rfl, rfl, rfl⟩

/-! ### Salinities below zero -/

theorem max0_neg {SA : ℝ} (h : SA ≤ 0) : max0 (Fl.fin SA) = Fl.fin 0 := by
  unfold max0
  rw [isNaN_fin, lit_eq, Rat.cast_zero, lt_fin]
  rcases h.eq_or_lt with h | h <;> simp [h]

theorem process_neg {SA : ℝ} (h : SA ≤ 0) (CT p : Fl ℝ) : process (Fl.fin SA) CT p = process (Fl.fin 0) CT p := by
  unfold process
  rw [max0_neg h, max0_neg le_rfl]

/-- **C92** Negative salinities are treated as zero by every function of the module. -/
theorem gsw_negative {SA : ℝ} (h : SA ≤ 0) (CT p : Fl ℝ) :
    specvol (Fl.fin SA) CT p = specvol (Fl.fin 0) CT p ∧ specvolFirst (Fl.fin SA) CT p = specvolFirst (Fl.fin 0) CT p ∧
    specvolSecond (Fl.fin SA) CT p = specvolSecond (Fl.fin 0) CT p ∧ specvolThird (Fl.fin SA) CT p = specvolThird (Fl.fin 0) CT p ∧
    specvolST (Fl.fin SA) CT p = specvolST (Fl.fin 0) CT p ∧ specvolP (Fl.fin SA) CT p = specvolP (Fl.fin 0) CT p ∧
    specvolSel2 (Fl.fin SA) CT p = specvolSel2 (Fl.fin 0) CT p ∧ specvolSel3 (Fl.fin SA) CT p = specvolSel3 (Fl.fin 0) CT p := by
  simp only [specvol, specvolFirst, specvolSecond, specvolThird, specvolST, specvolP, specvolSel2, specvolSel3, process_neg h,
    and_self]

theorem X0_bounds : (0.7727 : ℝ) < X 0 ∧ X 0 < 0.7728 := by
  have e : X 0 = Real.sqrt (offset : ℚ) := by rw [X, mul_zero, zero_add]
  rw [e]
  constructor
  · apply Real.lt_sqrt_of_sq_lt
    norm_num [offset]
  · rw [Real.sqrt_lt' (by norm_num)]
    norm_num [offset]

/-- The salinity derivative of specific volume of fresh water at the surface is strictly negative. -/
theorem fresh_haline : r_s vR (X 0) (0 * tf) (0 * pf) < 0 := by
  have hx := X_pos le_rfl
  have hq := X_sq le_rfl
  obtain ⟨hl, hu⟩ := X0_bounds
  set x := X 0
  rw [mul_zero, zero_add] at hq
  have hn : n_s cR vR x 0 0 < 0 := by
    have e : n_s cR vR x 0 0 = (vR 1 0 0 + (x * x) * (3 * vR 3 0 0 + (x * x) * (5 * vR 5 0 0)))
        + x * (2 * vR 2 0 0 + (x * x) * (4 * vR 4 0 0 + (x * x) * (6 * vR 6 0 0))) := by
      simp only [n_s, c_2, c_3, c_4, c_5, c_6]; ring
    rw [e, hq]
    norm_num [vR, vtab, offset]
    norm_num at hu
    nlinarith
  rw [zero_mul, zero_mul]
  unfold r_s
  have h1 := div_neg_of_neg_of_pos hn hx
  have h2 := sf_pos
  nlinarith

/-- **C92** Where the salinity is negative the reported salinity derivative is not the derivative of the reported
specific volume: that derivative is zero, but `specvol_s_t` returns a strictly negative number at zero temperature and
pressure. -/
theorem gsw_negative_derivative_false {SA : ℝ} (h : SA < 0) : ∃ V : ℝ → ℝ, ∃ a b : ℝ,
    (∀ s, specvol (Fl.fin s) (.fin 0) (.fin (0 : ℝ)) = .fin (V s)) ∧ HasDerivAt V 0 SA ∧
    specvolST (Fl.fin SA) (.fin 0) (.fin (0 : ℝ)) = some (.fin a, .fin b) ∧ a < 0 := by
  have hx := (X_pos le_rfl).ne'
  refine ⟨fun s => pSpecvol vR (X (max s 0)) (0 * tf) (0 * pf), r_s vR (X 0) (0 * tf) (0 * pf), r_t vR (X 0) (0 * tf) (0 * pf), ?_, ?_, ?_, fresh_haline⟩
  · intro s
    rcases le_total 0 s with hs | hs
    · simp only [specvol, process_fin hs, vf_eq, pSpecvol_fin, max_eq_left hs]
    · rw [(gsw_negative hs _ _).1]
      simp only [specvol, process_fin le_rfl, vf_eq, pSpecvol_fin, max_eq_right hs]
  · have : (fun s => pSpecvol vR (X (max s 0)) (0 * tf) (0 * pf)) =ᶠ[nhds SA] fun _ => pSpecvol vR (X 0) (0 * tf) (0 * pf) := by
      filter_upwards [gt_mem_nhds h] with s hs
      rw [max_eq_right hs.le]
    exact (hasDerivAt_const SA _).congr_of_eventuallyEq this
  · rw [(gsw_negative h.le _ _).2.2.2.2.1]
    simp only [specvolST, process_fin le_rfl, vf_eq, d_s_fin vR _ _ hx, d_t_fin, Option.bind_eq_bind, Option.bind_some,
      Option.pure_def]

/-! ### NaN and finiteness -/

/-- **C93** NaN in any argument gives NaN specific volume. -/
theorem gsw_nan (SA CT p : Fl ℝ) (h : isNaN SA = true ∨ isNaN CT = true ∨ isNaN p = true) :
    specvol SA CT p = Fl.nan := by
  simp only [isNaN_iff] at h
  have hs : FloatSqrt.sqrt (Fl.nan : Fl ℝ) = Fl.nan := rfl
  rcases h with rfl | rfl | rfl
  · have hm : max0 (Fl.nan : Fl ℝ) = Fl.nan := rfl
    simp only [specvol, process, hm, hs, pSpecvol, nan_add, add_nan, nan_mul, mul_nan]
  · simp only [specvol, process, pSpecvol, nan_add, add_nan, nan_mul, mul_nan]
  · simp only [specvol, process, pSpecvol, nan_add, add_nan, nan_mul, mul_nan]

/-- **C93** Finite arguments, negative salinity included, give a finite specific volume. -/
theorem gsw_finite : ∃ V : ℝ → ℝ → ℝ → ℝ, ∀ SA CT p, specvol (Fl.fin SA) (.fin CT) (.fin p) = .fin (V SA CT p) := by
  refine ⟨fun s CT p => pSpecvol vR (X (max s 0)) (CT * tf) (p * pf), fun s CT p => ?_⟩
  rcases le_total 0 s with hs | hs
  · simp only [specvol, process_fin hs, vf_eq, pSpecvol_fin, max_eq_left hs]
  · rw [(gsw_negative hs _ _).1]
    simp only [specvol, process_fin le_rfl, vf_eq, pSpecvol_fin, max_eq_right hs]

end Gsw
