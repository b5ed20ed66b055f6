import Verif.Model.EosGsw
import Verif.Lemmas.Eos
import Verif.Props.Interp

/-!
# Derivatives of the polynomials in `gsw.py`

Written by `/verif/tools/mkgswprops.py`.
-/

namespace Gsw
open FloatLike Interp Eos
open Fl hiding nan

/-- A literal as a real number. -/
def cR (q : ℚ) : ℝ := q

/-- The scale factors as real numbers. -/
def sf : ℝ := (sfac : ℚ)
/-- The scale factors as real numbers. -/
def tf : ℝ := (tfac : ℚ)
/-- The scale factors as real numbers. -/
def pf : ℝ := (pfac : ℚ)

theorem c_2 : cR 2 = 2 := by norm_num [cR]
theorem c_3 : cR 3 = 3 := by norm_num [cR]
theorem c_4 : cR 4 = 4 := by norm_num [cR]
theorem c_5 : cR 5 = 5 := by norm_num [cR]
theorem c_6 : cR 6 = 6 := by norm_num [cR]
theorem c_8 : cR 8 = 8 := by norm_num [cR]
theorem c_9 : cR 9 = 9 := by norm_num [cR]
theorem c_12 : cR 12 = 12 := by norm_num [cR]
theorem c_18 : cR 18 = 18 := by norm_num [cR]
theorem c_20 : cR 20 = 20 := by norm_num [cR]
theorem c_24 : cR 24 = 24 := by norm_num [cR]
theorem c_30 : cR 30 = 30 := by norm_num [cR]
theorem c_60 : cR 60 = 60 := by norm_num [cR]
theorem c_120 : cR 120 = 120 := by norm_num [cR]
theorem cd_0 : cR 0.5 = 1/2 := by norm_num [cR]
theorem cd_1 : cR 0.75 = 3/4 := by norm_num [cR]
theorem cd_2 : cR 2.0 = 2 := by norm_num [cR]
theorem cd_3 : cR 3.75 = 15/4 := by norm_num [cR]
theorem cd_4 : cR 0.375 = 3/8 := by norm_num [cR]
theorem cd_5 : cR 1.875 = 15/8 := by norm_num [cR]
theorem cd_6 : cR 6.0 = 6 := by norm_num [cR]
theorem cd_7 : cR 1.50 = 3/2 := by norm_num [cR]
theorem cd_8 : cR 4.0 = 4 := by norm_num [cR]
theorem cd_9 : cR 2.25 = 9/4 := by norm_num [cR]
theorem cd_10 : cR (-0.25) = -1/4 := by norm_num [cR]
theorem cd_11 : cR (-0.375) = -3/8 := by norm_num [cR]
theorem cd_12 : cR (-0.50) = -1/2 := by norm_num [cR]
theorem cd_13 : cR (-0.75) = -3/4 := by norm_num [cR]
theorem cd_14 : cR (-1.00) = -1 := by norm_num [cR]
theorem cd_15 : cR (-1.25) = -5/4 := by norm_num [cR]

/-- The value of `_s` as a real function of `x`, `y`, `z`. -/
noncomputable def r_s (v : ℕ → ℕ → ℕ → ℝ) (x y z : ℝ) : ℝ := n_s cR v x y z / x * (1 / 2 * sf)

/-- The value of `_t` as a real function of `x`, `y`, `z`. -/
noncomputable def r_t (v : ℕ → ℕ → ℕ → ℝ) (x y z : ℝ) : ℝ := n_t cR v x y z * tf

/-- The value of `_p` as a real function of `x`, `y`, `z`. -/
noncomputable def r_p (v : ℕ → ℕ → ℕ → ℝ) (x y z : ℝ) : ℝ := n_p cR v x y z * pf

/-- The value of `_ss` as a real function of `x`, `y`, `z`. -/
noncomputable def r_ss (v : ℕ → ℕ → ℕ → ℝ) (x y z : ℝ) : ℝ := n_ss cR v x y z (x * x) / (x * (x * x)) * (sf * sf)

/-- The value of `_st` as a real function of `x`, `y`, `z`. -/
noncomputable def r_st (v : ℕ → ℕ → ℕ → ℝ) (x y z : ℝ) : ℝ := n_st cR v x y z / x * (1 / 2 * tf * sf)

/-- The value of `_tt` as a real function of `x`, `y`, `z`. -/
noncomputable def r_tt (v : ℕ → ℕ → ℕ → ℝ) (x y z : ℝ) : ℝ := n_tt cR v x y z * (tf * tf)

/-- The value of `_sp` as a real function of `x`, `y`, `z`. -/
noncomputable def r_sp (v : ℕ → ℕ → ℕ → ℝ) (x y z : ℝ) : ℝ := n_sp cR v x y z / x * (1 / 2 * pf * sf)

/-- The value of `_tp` as a real function of `x`, `y`, `z`. -/
noncomputable def r_tp (v : ℕ → ℕ → ℕ → ℝ) (x y z : ℝ) : ℝ := n_tp cR v x y z * (tf * pf)

/-- The value of `_pp` as a real function of `x`, `y`, `z`. -/
noncomputable def r_pp (v : ℕ → ℕ → ℕ → ℝ) (x y z : ℝ) : ℝ := n_pp cR v x y z * (pf * pf)

/-- The value of `_sss` as a real function of `x`, `y`, `z`. -/
noncomputable def r_sss (v : ℕ → ℕ → ℕ → ℝ) (x y z : ℝ) : ℝ := n_sss cR v x y z (x * x) / (x * (x * x) * (x * x)) * (sf * sf * sf)

/-- The value of `_sst` as a real function of `x`, `y`, `z`. -/
noncomputable def r_sst (v : ℕ → ℕ → ℕ → ℝ) (x y z : ℝ) : ℝ := n_sst cR v x y z (x * x) / (x * (x * x)) * (sf * sf * tf)

/-- The value of `_stt` as a real function of `x`, `y`, `z`. -/
noncomputable def r_stt (v : ℕ → ℕ → ℕ → ℝ) (x y z : ℝ) : ℝ := n_stt cR v x y z / x * (tf * tf * sf / 2)

/-- The value of `_ttt` as a real function of `x`, `y`, `z`. -/
noncomputable def r_ttt (v : ℕ → ℕ → ℕ → ℝ) (x y z : ℝ) : ℝ := n_ttt cR v x y z * (tf * tf * tf)

/-- The value of `_ssp` as a real function of `x`, `y`, `z`. -/
noncomputable def r_ssp (v : ℕ → ℕ → ℕ → ℝ) (x y z : ℝ) : ℝ := n_ssp cR v x y z (x * x) / (x * (x * x)) * (sf * sf * pf)

/-- The value of `_stp` as a real function of `x`, `y`, `z`. -/
noncomputable def r_stp (v : ℕ → ℕ → ℕ → ℝ) (x y z : ℝ) : ℝ := n_stp cR v x y z / x * (1 / 2 * sf * tf * pf)

/-- The value of `_ttp` as a real function of `x`, `y`, `z`. -/
noncomputable def r_ttp (v : ℕ → ℕ → ℕ → ℝ) (x y z : ℝ) : ℝ := n_ttp cR v x y z * (tf * tf * pf)

/-- The value of `_spp` as a real function of `x`, `y`, `z`. -/
noncomputable def r_spp (v : ℕ → ℕ → ℕ → ℝ) (x y z : ℝ) : ℝ := n_spp cR v x y z / x * (pf * pf * sf / 2)

/-- The value of `_tpp` as a real function of `x`, `y`, `z`. -/
noncomputable def r_tpp (v : ℕ → ℕ → ℕ → ℝ) (x y z : ℝ) : ℝ := n_tpp cR v x y z * (tf * pf * pf)

/-- The value of `_ppp` as a real function of `x`, `y`, `z`. -/
noncomputable def r_ppp (v : ℕ → ℕ → ℕ → ℝ) (x y z : ℝ) : ℝ := n_ppp cR v x y z * (pf * pf * pf)


/-! ### The model over `Fl ℝ` computes these -/

theorem half_eq : ((0.5 : ℚ) : ℝ) = 1 / 2 := by norm_num

theorem fin_div_two (a : ℝ) : (Fl.fin a : Fl ℝ) / .fin ((2 : ℚ) : ℝ) = .fin (a / 2) := by
  rw [Rat.cast_ofNat, fin_div _ _ (by norm_num)]

theorem d_s_fin (v : ℕ → ℕ → ℕ → ℝ) {x : ℝ} (y z : ℝ) (hx : x ≠ 0) :
    d_s (fun i j k => Fl.fin (v i j k)) (.fin x) (.fin y) (.fin z) = some (.fin (r_s v x y z)) := by
  simp only [d_s, r_s, n_s, lit_eq, fin_add, fin_mul, fin_sub, cR, sf, tf, pf, half_eq, sdiv_fin hx, Option.bind_eq_bind,
    Option.bind_some, Option.pure_def]

theorem d_t_fin (v : ℕ → ℕ → ℕ → ℝ) {x : ℝ} (y z : ℝ) :
    d_t (fun i j k => Fl.fin (v i j k)) (.fin x) (.fin y) (.fin z) = some (.fin (r_t v x y z)) := by
  simp only [d_t, r_t, n_t, lit_eq, fin_add, fin_mul, fin_sub, cR, sf, tf, pf, half_eq, Option.bind_eq_bind,
    Option.bind_some, Option.pure_def]

theorem d_p_fin (v : ℕ → ℕ → ℕ → ℝ) {x : ℝ} (y z : ℝ) :
    d_p (fun i j k => Fl.fin (v i j k)) (.fin x) (.fin y) (.fin z) = some (.fin (r_p v x y z)) := by
  simp only [d_p, r_p, n_p, lit_eq, fin_add, fin_mul, fin_sub, cR, sf, tf, pf, half_eq, Option.bind_eq_bind,
    Option.bind_some, Option.pure_def]

theorem d_ss_fin (v : ℕ → ℕ → ℕ → ℝ) {x : ℝ} (y z : ℝ) (hx : x ≠ 0) :
    d_ss (fun i j k => Fl.fin (v i j k)) (.fin x) (.fin y) (.fin z) (.fin (x * x)) = some (.fin (r_ss v x y z)) := by
  have hd : (x * (x * x)) ≠ 0 := by positivity
  simp only [d_ss, r_ss, n_ss, lit_eq, fin_add, fin_mul, fin_sub, cR, sf, tf, pf, half_eq, sdiv_fin hd, Option.bind_eq_bind,
    Option.bind_some, Option.pure_def]

theorem d_st_fin (v : ℕ → ℕ → ℕ → ℝ) {x : ℝ} (y z : ℝ) (hx : x ≠ 0) :
    d_st (fun i j k => Fl.fin (v i j k)) (.fin x) (.fin y) (.fin z) = some (.fin (r_st v x y z)) := by
  simp only [d_st, r_st, n_st, lit_eq, fin_add, fin_mul, fin_sub, cR, sf, tf, pf, half_eq, sdiv_fin hx, Option.bind_eq_bind,
    Option.bind_some, Option.pure_def]

theorem d_tt_fin (v : ℕ → ℕ → ℕ → ℝ) {x : ℝ} (y z : ℝ) :
    d_tt (fun i j k => Fl.fin (v i j k)) (.fin x) (.fin y) (.fin z) = some (.fin (r_tt v x y z)) := by
  simp only [d_tt, r_tt, n_tt, lit_eq, fin_add, fin_mul, fin_sub, cR, sf, tf, pf, half_eq, Option.bind_eq_bind,
    Option.bind_some, Option.pure_def]

theorem d_sp_fin (v : ℕ → ℕ → ℕ → ℝ) {x : ℝ} (y z : ℝ) (hx : x ≠ 0) :
    d_sp (fun i j k => Fl.fin (v i j k)) (.fin x) (.fin y) (.fin z) = some (.fin (r_sp v x y z)) := by
  simp only [d_sp, r_sp, n_sp, lit_eq, fin_add, fin_mul, fin_sub, cR, sf, tf, pf, half_eq, sdiv_fin hx, Option.bind_eq_bind,
    Option.bind_some, Option.pure_def]

theorem d_tp_fin (v : ℕ → ℕ → ℕ → ℝ) {x : ℝ} (y z : ℝ) :
    d_tp (fun i j k => Fl.fin (v i j k)) (.fin x) (.fin y) (.fin z) = some (.fin (r_tp v x y z)) := by
  simp only [d_tp, r_tp, n_tp, lit_eq, fin_add, fin_mul, fin_sub, cR, sf, tf, pf, half_eq, Option.bind_eq_bind,
    Option.bind_some, Option.pure_def]

theorem d_pp_fin (v : ℕ → ℕ → ℕ → ℝ) {x : ℝ} (y z : ℝ) :
    d_pp (fun i j k => Fl.fin (v i j k)) (.fin x) (.fin y) (.fin z) = some (.fin (r_pp v x y z)) := by
  simp only [d_pp, r_pp, n_pp, lit_eq, fin_add, fin_mul, fin_sub, cR, sf, tf, pf, half_eq, Option.bind_eq_bind,
    Option.bind_some, Option.pure_def]

theorem d_sss_fin (v : ℕ → ℕ → ℕ → ℝ) {x : ℝ} (y z : ℝ) (hx : x ≠ 0) :
    d_sss (fun i j k => Fl.fin (v i j k)) (.fin x) (.fin y) (.fin z) (.fin (x * x)) = some (.fin (r_sss v x y z)) := by
  have hd : (x * (x * x) * (x * x)) ≠ 0 := by positivity
  simp only [d_sss, r_sss, n_sss, lit_eq, fin_add, fin_mul, fin_sub, cR, sf, tf, pf, half_eq, sdiv_fin hd, Option.bind_eq_bind,
    Option.bind_some, Option.pure_def]

theorem d_sst_fin (v : ℕ → ℕ → ℕ → ℝ) {x : ℝ} (y z : ℝ) (hx : x ≠ 0) :
    d_sst (fun i j k => Fl.fin (v i j k)) (.fin x) (.fin y) (.fin z) (.fin (x * x)) = some (.fin (r_sst v x y z)) := by
  have hd : (x * (x * x)) ≠ 0 := by positivity
  simp only [d_sst, r_sst, n_sst, lit_eq, fin_add, fin_mul, fin_sub, cR, sf, tf, pf, half_eq, sdiv_fin hd, Option.bind_eq_bind,
    Option.bind_some, Option.pure_def]

theorem d_stt_fin (v : ℕ → ℕ → ℕ → ℝ) {x : ℝ} (y z : ℝ) (hx : x ≠ 0) :
    d_stt (fun i j k => Fl.fin (v i j k)) (.fin x) (.fin y) (.fin z) = some (.fin (r_stt v x y z)) := by
  simp only [d_stt, r_stt, n_stt, lit_eq, fin_add, fin_mul, fin_sub, cR, sf, tf, pf, half_eq, sdiv_fin hx, fin_div_two, Option.bind_eq_bind,
    Option.bind_some, Option.pure_def]

theorem d_ttt_fin (v : ℕ → ℕ → ℕ → ℝ) {x : ℝ} (y z : ℝ) :
    d_ttt (fun i j k => Fl.fin (v i j k)) (.fin x) (.fin y) (.fin z) = some (.fin (r_ttt v x y z)) := by
  simp only [d_ttt, r_ttt, n_ttt, lit_eq, fin_add, fin_mul, fin_sub, cR, sf, tf, pf, half_eq, Option.bind_eq_bind,
    Option.bind_some, Option.pure_def]

theorem d_ssp_fin (v : ℕ → ℕ → ℕ → ℝ) {x : ℝ} (y z : ℝ) (hx : x ≠ 0) :
    d_ssp (fun i j k => Fl.fin (v i j k)) (.fin x) (.fin y) (.fin z) (.fin (x * x)) = some (.fin (r_ssp v x y z)) := by
  have hd : (x * (x * x)) ≠ 0 := by positivity
  simp only [d_ssp, r_ssp, n_ssp, lit_eq, fin_add, fin_mul, fin_sub, cR, sf, tf, pf, half_eq, sdiv_fin hd, Option.bind_eq_bind,
    Option.bind_some, Option.pure_def]

theorem d_stp_fin (v : ℕ → ℕ → ℕ → ℝ) {x : ℝ} (y z : ℝ) (hx : x ≠ 0) :
    d_stp (fun i j k => Fl.fin (v i j k)) (.fin x) (.fin y) (.fin z) = some (.fin (r_stp v x y z)) := by
  simp only [d_stp, r_stp, n_stp, lit_eq, fin_add, fin_mul, fin_sub, cR, sf, tf, pf, half_eq, sdiv_fin hx, Option.bind_eq_bind,
    Option.bind_some, Option.pure_def]

theorem d_ttp_fin (v : ℕ → ℕ → ℕ → ℝ) {x : ℝ} (y z : ℝ) :
    d_ttp (fun i j k => Fl.fin (v i j k)) (.fin x) (.fin y) (.fin z) = some (.fin (r_ttp v x y z)) := by
  simp only [d_ttp, r_ttp, n_ttp, lit_eq, fin_add, fin_mul, fin_sub, cR, sf, tf, pf, half_eq, Option.bind_eq_bind,
    Option.bind_some, Option.pure_def]

theorem d_spp_fin (v : ℕ → ℕ → ℕ → ℝ) {x : ℝ} (y z : ℝ) (hx : x ≠ 0) :
    d_spp (fun i j k => Fl.fin (v i j k)) (.fin x) (.fin y) (.fin z) = some (.fin (r_spp v x y z)) := by
  simp only [d_spp, r_spp, n_spp, lit_eq, fin_add, fin_mul, fin_sub, cR, sf, tf, pf, half_eq, sdiv_fin hx, fin_div_two, Option.bind_eq_bind,
    Option.bind_some, Option.pure_def]

theorem d_tpp_fin (v : ℕ → ℕ → ℕ → ℝ) {x : ℝ} (y z : ℝ) :
    d_tpp (fun i j k => Fl.fin (v i j k)) (.fin x) (.fin y) (.fin z) = some (.fin (r_tpp v x y z)) := by
  simp only [d_tpp, r_tpp, n_tpp, lit_eq, fin_add, fin_mul, fin_sub, cR, sf, tf, pf, half_eq, Option.bind_eq_bind,
    Option.bind_some, Option.pure_def]

theorem d_ppp_fin (v : ℕ → ℕ → ℕ → ℝ) {x : ℝ} (y z : ℝ) :
    d_ppp (fun i j k => Fl.fin (v i j k)) (.fin x) (.fin y) (.fin z) = some (.fin (r_ppp v x y z)) := by
  simp only [d_ppp, r_ppp, n_ppp, lit_eq, fin_add, fin_mul, fin_sub, cR, sf, tf, pf, half_eq, Option.bind_eq_bind,
    Option.bind_some, Option.pure_def]


/-! ### Derivatives in `y` and `z` -/

theorem deriv_v_t (v : ℕ → ℕ → ℕ → ℝ) (x y z : ℝ) :
    ∃ g, HasDerivAt (fun y => pSpecvol v x y z) g y ∧ g * tf = r_t v x y z := by
  simp only [pSpecvol, r_t, n_t, c_2, c_3, c_4, c_5, c_6, c_8, c_9, c_12, c_18, c_20, c_24, c_30, c_60, c_120, cd_0, cd_1, cd_2, cd_3, cd_4, cd_5, cd_6, cd_7, cd_8, cd_9, cd_10, cd_11, cd_12, cd_13, cd_14, cd_15, div_eq_mul_inv]
  refine ⟨_, by hderiv, ?_⟩
  ring

theorem deriv_v_p (v : ℕ → ℕ → ℕ → ℝ) (x y z : ℝ) :
    ∃ g, HasDerivAt (fun z => pSpecvol v x y z) g z ∧ g * pf = r_p v x y z := by
  simp only [pSpecvol, r_p, n_p, c_2, c_3, c_4, c_5, c_6, c_8, c_9, c_12, c_18, c_20, c_24, c_30, c_60, c_120, cd_0, cd_1, cd_2, cd_3, cd_4, cd_5, cd_6, cd_7, cd_8, cd_9, cd_10, cd_11, cd_12, cd_13, cd_14, cd_15, div_eq_mul_inv]
  refine ⟨_, by hderiv, ?_⟩
  ring

theorem deriv_s_t (v : ℕ → ℕ → ℕ → ℝ) (x y z : ℝ) :
    ∃ g, HasDerivAt (fun y => r_s v x y z) g y ∧ g * tf = r_st v x y z := by
  simp only [r_s, n_s, r_st, n_st, c_2, c_3, c_4, c_5, c_6, c_8, c_9, c_12, c_18, c_20, c_24, c_30, c_60, c_120, cd_0, cd_1, cd_2, cd_3, cd_4, cd_5, cd_6, cd_7, cd_8, cd_9, cd_10, cd_11, cd_12, cd_13, cd_14, cd_15, div_eq_mul_inv]
  refine ⟨_, by hderiv, ?_⟩
  ring

theorem deriv_s_p (v : ℕ → ℕ → ℕ → ℝ) (x y z : ℝ) :
    ∃ g, HasDerivAt (fun z => r_s v x y z) g z ∧ g * pf = r_sp v x y z := by
  simp only [r_s, n_s, r_sp, n_sp, c_2, c_3, c_4, c_5, c_6, c_8, c_9, c_12, c_18, c_20, c_24, c_30, c_60, c_120, cd_0, cd_1, cd_2, cd_3, cd_4, cd_5, cd_6, cd_7, cd_8, cd_9, cd_10, cd_11, cd_12, cd_13, cd_14, cd_15, div_eq_mul_inv]
  refine ⟨_, by hderiv, ?_⟩
  ring

theorem deriv_t_t (v : ℕ → ℕ → ℕ → ℝ) (x y z : ℝ) :
    ∃ g, HasDerivAt (fun y => r_t v x y z) g y ∧ g * tf = r_tt v x y z := by
  simp only [r_t, n_t, r_tt, n_tt, c_2, c_3, c_4, c_5, c_6, c_8, c_9, c_12, c_18, c_20, c_24, c_30, c_60, c_120, cd_0, cd_1, cd_2, cd_3, cd_4, cd_5, cd_6, cd_7, cd_8, cd_9, cd_10, cd_11, cd_12, cd_13, cd_14, cd_15, div_eq_mul_inv]
  refine ⟨_, by hderiv, ?_⟩
  ring

theorem deriv_t_p (v : ℕ → ℕ → ℕ → ℝ) (x y z : ℝ) :
    ∃ g, HasDerivAt (fun z => r_t v x y z) g z ∧ g * pf = r_tp v x y z := by
  simp only [r_t, n_t, r_tp, n_tp, c_2, c_3, c_4, c_5, c_6, c_8, c_9, c_12, c_18, c_20, c_24, c_30, c_60, c_120, cd_0, cd_1, cd_2, cd_3, cd_4, cd_5, cd_6, cd_7, cd_8, cd_9, cd_10, cd_11, cd_12, cd_13, cd_14, cd_15, div_eq_mul_inv]
  refine ⟨_, by hderiv, ?_⟩
  ring

theorem deriv_p_t (v : ℕ → ℕ → ℕ → ℝ) (x y z : ℝ) :
    ∃ g, HasDerivAt (fun y => r_p v x y z) g y ∧ g * tf = r_tp v x y z := by
  simp only [r_p, n_p, r_tp, n_tp, c_2, c_3, c_4, c_5, c_6, c_8, c_9, c_12, c_18, c_20, c_24, c_30, c_60, c_120, cd_0, cd_1, cd_2, cd_3, cd_4, cd_5, cd_6, cd_7, cd_8, cd_9, cd_10, cd_11, cd_12, cd_13, cd_14, cd_15, div_eq_mul_inv]
  refine ⟨_, by hderiv, ?_⟩
  ring

theorem deriv_p_p (v : ℕ → ℕ → ℕ → ℝ) (x y z : ℝ) :
    ∃ g, HasDerivAt (fun z => r_p v x y z) g z ∧ g * pf = r_pp v x y z := by
  simp only [r_p, n_p, r_pp, n_pp, c_2, c_3, c_4, c_5, c_6, c_8, c_9, c_12, c_18, c_20, c_24, c_30, c_60, c_120, cd_0, cd_1, cd_2, cd_3, cd_4, cd_5, cd_6, cd_7, cd_8, cd_9, cd_10, cd_11, cd_12, cd_13, cd_14, cd_15, div_eq_mul_inv]
  refine ⟨_, by hderiv, ?_⟩
  ring

theorem deriv_ss_t (v : ℕ → ℕ → ℕ → ℝ) (x y z : ℝ) :
    ∃ g, HasDerivAt (fun y => r_ss v x y z) g y ∧ g * tf = r_sst v x y z := by
  simp only [r_ss, n_ss, r_sst, n_sst, c_2, c_3, c_4, c_5, c_6, c_8, c_9, c_12, c_18, c_20, c_24, c_30, c_60, c_120, cd_0, cd_1, cd_2, cd_3, cd_4, cd_5, cd_6, cd_7, cd_8, cd_9, cd_10, cd_11, cd_12, cd_13, cd_14, cd_15, div_eq_mul_inv]
  refine ⟨_, by hderiv, ?_⟩
  ring

theorem deriv_ss_p (v : ℕ → ℕ → ℕ → ℝ) (x y z : ℝ) :
    ∃ g, HasDerivAt (fun z => r_ss v x y z) g z ∧ g * pf = r_ssp v x y z := by
  simp only [r_ss, n_ss, r_ssp, n_ssp, c_2, c_3, c_4, c_5, c_6, c_8, c_9, c_12, c_18, c_20, c_24, c_30, c_60, c_120, cd_0, cd_1, cd_2, cd_3, cd_4, cd_5, cd_6, cd_7, cd_8, cd_9, cd_10, cd_11, cd_12, cd_13, cd_14, cd_15, div_eq_mul_inv]
  refine ⟨_, by hderiv, ?_⟩
  ring

theorem deriv_st_t (v : ℕ → ℕ → ℕ → ℝ) (x y z : ℝ) :
    ∃ g, HasDerivAt (fun y => r_st v x y z) g y ∧ g * tf = r_stt v x y z := by
  simp only [r_st, n_st, r_stt, n_stt, c_2, c_3, c_4, c_5, c_6, c_8, c_9, c_12, c_18, c_20, c_24, c_30, c_60, c_120, cd_0, cd_1, cd_2, cd_3, cd_4, cd_5, cd_6, cd_7, cd_8, cd_9, cd_10, cd_11, cd_12, cd_13, cd_14, cd_15, div_eq_mul_inv]
  refine ⟨_, by hderiv, ?_⟩
  ring

theorem deriv_st_p (v : ℕ → ℕ → ℕ → ℝ) (x y z : ℝ) :
    ∃ g, HasDerivAt (fun z => r_st v x y z) g z ∧ g * pf = r_stp v x y z := by
  simp only [r_st, n_st, r_stp, n_stp, c_2, c_3, c_4, c_5, c_6, c_8, c_9, c_12, c_18, c_20, c_24, c_30, c_60, c_120, cd_0, cd_1, cd_2, cd_3, cd_4, cd_5, cd_6, cd_7, cd_8, cd_9, cd_10, cd_11, cd_12, cd_13, cd_14, cd_15, div_eq_mul_inv]
  refine ⟨_, by hderiv, ?_⟩
  ring

theorem deriv_tt_t (v : ℕ → ℕ → ℕ → ℝ) (x y z : ℝ) :
    ∃ g, HasDerivAt (fun y => r_tt v x y z) g y ∧ g * tf = r_ttt v x y z := by
  simp only [r_tt, n_tt, r_ttt, n_ttt, c_2, c_3, c_4, c_5, c_6, c_8, c_9, c_12, c_18, c_20, c_24, c_30, c_60, c_120, cd_0, cd_1, cd_2, cd_3, cd_4, cd_5, cd_6, cd_7, cd_8, cd_9, cd_10, cd_11, cd_12, cd_13, cd_14, cd_15, div_eq_mul_inv]
  refine ⟨_, by hderiv, ?_⟩
  ring

theorem deriv_tt_p (v : ℕ → ℕ → ℕ → ℝ) (x y z : ℝ) :
    ∃ g, HasDerivAt (fun z => r_tt v x y z) g z ∧ g * pf = r_ttp v x y z := by
  simp only [r_tt, n_tt, r_ttp, n_ttp, c_2, c_3, c_4, c_5, c_6, c_8, c_9, c_12, c_18, c_20, c_24, c_30, c_60, c_120, cd_0, cd_1, cd_2, cd_3, cd_4, cd_5, cd_6, cd_7, cd_8, cd_9, cd_10, cd_11, cd_12, cd_13, cd_14, cd_15, div_eq_mul_inv]
  refine ⟨_, by hderiv, ?_⟩
  ring

theorem deriv_sp_t (v : ℕ → ℕ → ℕ → ℝ) (x y z : ℝ) :
    ∃ g, HasDerivAt (fun y => r_sp v x y z) g y ∧ g * tf = r_stp v x y z := by
  simp only [r_sp, n_sp, r_stp, n_stp, c_2, c_3, c_4, c_5, c_6, c_8, c_9, c_12, c_18, c_20, c_24, c_30, c_60, c_120, cd_0, cd_1, cd_2, cd_3, cd_4, cd_5, cd_6, cd_7, cd_8, cd_9, cd_10, cd_11, cd_12, cd_13, cd_14, cd_15, div_eq_mul_inv]
  refine ⟨_, by hderiv, ?_⟩
  ring

theorem deriv_sp_p (v : ℕ → ℕ → ℕ → ℝ) (x y z : ℝ) :
    ∃ g, HasDerivAt (fun z => r_sp v x y z) g z ∧ g * pf = r_spp v x y z := by
  simp only [r_sp, n_sp, r_spp, n_spp, c_2, c_3, c_4, c_5, c_6, c_8, c_9, c_12, c_18, c_20, c_24, c_30, c_60, c_120, cd_0, cd_1, cd_2, cd_3, cd_4, cd_5, cd_6, cd_7, cd_8, cd_9, cd_10, cd_11, cd_12, cd_13, cd_14, cd_15, div_eq_mul_inv]
  refine ⟨_, by hderiv, ?_⟩
  ring

theorem deriv_tp_t (v : ℕ → ℕ → ℕ → ℝ) (x y z : ℝ) :
    ∃ g, HasDerivAt (fun y => r_tp v x y z) g y ∧ g * tf = r_ttp v x y z := by
  simp only [r_tp, n_tp, r_ttp, n_ttp, c_2, c_3, c_4, c_5, c_6, c_8, c_9, c_12, c_18, c_20, c_24, c_30, c_60, c_120, cd_0, cd_1, cd_2, cd_3, cd_4, cd_5, cd_6, cd_7, cd_8, cd_9, cd_10, cd_11, cd_12, cd_13, cd_14, cd_15, div_eq_mul_inv]
  refine ⟨_, by hderiv, ?_⟩
  ring

theorem deriv_tp_p (v : ℕ → ℕ → ℕ → ℝ) (x y z : ℝ) :
    ∃ g, HasDerivAt (fun z => r_tp v x y z) g z ∧ g * pf = r_tpp v x y z := by
  simp only [r_tp, n_tp, r_tpp, n_tpp, c_2, c_3, c_4, c_5, c_6, c_8, c_9, c_12, c_18, c_20, c_24, c_30, c_60, c_120, cd_0, cd_1, cd_2, cd_3, cd_4, cd_5, cd_6, cd_7, cd_8, cd_9, cd_10, cd_11, cd_12, cd_13, cd_14, cd_15, div_eq_mul_inv]
  refine ⟨_, by hderiv, ?_⟩
  ring

theorem deriv_pp_t (v : ℕ → ℕ → ℕ → ℝ) (x y z : ℝ) :
    ∃ g, HasDerivAt (fun y => r_pp v x y z) g y ∧ g * tf = r_tpp v x y z := by
  simp only [r_pp, n_pp, r_tpp, n_tpp, c_2, c_3, c_4, c_5, c_6, c_8, c_9, c_12, c_18, c_20, c_24, c_30, c_60, c_120, cd_0, cd_1, cd_2, cd_3, cd_4, cd_5, cd_6, cd_7, cd_8, cd_9, cd_10, cd_11, cd_12, cd_13, cd_14, cd_15, div_eq_mul_inv]
  refine ⟨_, by hderiv, ?_⟩
  ring

theorem deriv_pp_p (v : ℕ → ℕ → ℕ → ℝ) (x y z : ℝ) :
    ∃ g, HasDerivAt (fun z => r_pp v x y z) g z ∧ g * pf = r_ppp v x y z := by
  simp only [r_pp, n_pp, r_ppp, n_ppp, c_2, c_3, c_4, c_5, c_6, c_8, c_9, c_12, c_18, c_20, c_24, c_30, c_60, c_120, cd_0, cd_1, cd_2, cd_3, cd_4, cd_5, cd_6, cd_7, cd_8, cd_9, cd_10, cd_11, cd_12, cd_13, cd_14, cd_15, div_eq_mul_inv]
  refine ⟨_, by hderiv, ?_⟩
  ring


/-! ### Derivatives in `x` -/

theorem deriv_v_s (v : ℕ → ℕ → ℕ → ℝ) (x y z : ℝ) (hx : x ≠ 0) :
    ∃ g, HasDerivAt (fun x => pSpecvol v x y z) g x ∧ g * (sf / (2 * x)) = r_s v x y z := by
  simp only [pSpecvol, r_s, n_s, c_2, c_3, c_4, c_5, c_6, c_8, c_9, c_12, c_18, c_20, c_24, c_30, c_60, c_120, cd_0, cd_1, cd_2, cd_3, cd_4, cd_5, cd_6, cd_7, cd_8, cd_9, cd_10, cd_11, cd_12, cd_13, cd_14, cd_15]
  refine ⟨_, by hderiv, ?_⟩
  field_simp
  ring

theorem deriv_s_s (v : ℕ → ℕ → ℕ → ℝ) (x y z : ℝ) (hx : x ≠ 0) :
    ∃ g, HasDerivAt (fun x => r_s v x y z) g x ∧ g * (sf / (2 * x)) = r_ss v x y z := by
  simp only [r_s, n_s, r_ss, n_ss, c_2, c_3, c_4, c_5, c_6, c_8, c_9, c_12, c_18, c_20, c_24, c_30, c_60, c_120, cd_0, cd_1, cd_2, cd_3, cd_4, cd_5, cd_6, cd_7, cd_8, cd_9, cd_10, cd_11, cd_12, cd_13, cd_14, cd_15]
  refine ⟨_, HasDerivAt.fun_mul (HasDerivAt.fun_div (by hderiv) (by hderiv) (by positivity)) (hasDerivAt_const _ _), ?_⟩
  field_simp
  ring

theorem deriv_t_s (v : ℕ → ℕ → ℕ → ℝ) (x y z : ℝ) (hx : x ≠ 0) :
    ∃ g, HasDerivAt (fun x => r_t v x y z) g x ∧ g * (sf / (2 * x)) = r_st v x y z := by
  simp only [r_t, n_t, r_st, n_st, c_2, c_3, c_4, c_5, c_6, c_8, c_9, c_12, c_18, c_20, c_24, c_30, c_60, c_120, cd_0, cd_1, cd_2, cd_3, cd_4, cd_5, cd_6, cd_7, cd_8, cd_9, cd_10, cd_11, cd_12, cd_13, cd_14, cd_15]
  refine ⟨_, by hderiv, ?_⟩
  field_simp
  ring

theorem deriv_p_s (v : ℕ → ℕ → ℕ → ℝ) (x y z : ℝ) (hx : x ≠ 0) :
    ∃ g, HasDerivAt (fun x => r_p v x y z) g x ∧ g * (sf / (2 * x)) = r_sp v x y z := by
  simp only [r_p, n_p, r_sp, n_sp, c_2, c_3, c_4, c_5, c_6, c_8, c_9, c_12, c_18, c_20, c_24, c_30, c_60, c_120, cd_0, cd_1, cd_2, cd_3, cd_4, cd_5, cd_6, cd_7, cd_8, cd_9, cd_10, cd_11, cd_12, cd_13, cd_14, cd_15]
  refine ⟨_, by hderiv, ?_⟩
  field_simp
  ring

theorem deriv_ss_s (v : ℕ → ℕ → ℕ → ℝ) (x y z : ℝ) (hx : x ≠ 0) :
    ∃ g, HasDerivAt (fun x => r_ss v x y z) g x ∧ g * (sf / (2 * x)) = r_sss v x y z := by
  simp only [r_ss, n_ss, r_sss, n_sss, c_2, c_3, c_4, c_5, c_6, c_8, c_9, c_12, c_18, c_20, c_24, c_30, c_60, c_120, cd_0, cd_1, cd_2, cd_3, cd_4, cd_5, cd_6, cd_7, cd_8, cd_9, cd_10, cd_11, cd_12, cd_13, cd_14, cd_15]
  refine ⟨_, HasDerivAt.fun_mul (HasDerivAt.fun_div (by hderiv) (by hderiv) (by positivity)) (hasDerivAt_const _ _), ?_⟩
  field_simp
  ring

theorem deriv_st_s (v : ℕ → ℕ → ℕ → ℝ) (x y z : ℝ) (hx : x ≠ 0) :
    ∃ g, HasDerivAt (fun x => r_st v x y z) g x ∧ g * (sf / (2 * x)) = r_sst v x y z := by
  simp only [r_st, n_st, r_sst, n_sst, c_2, c_3, c_4, c_5, c_6, c_8, c_9, c_12, c_18, c_20, c_24, c_30, c_60, c_120, cd_0, cd_1, cd_2, cd_3, cd_4, cd_5, cd_6, cd_7, cd_8, cd_9, cd_10, cd_11, cd_12, cd_13, cd_14, cd_15]
  refine ⟨_, HasDerivAt.fun_mul (HasDerivAt.fun_div (by hderiv) (by hderiv) (by positivity)) (hasDerivAt_const _ _), ?_⟩
  field_simp
  ring

theorem deriv_tt_s (v : ℕ → ℕ → ℕ → ℝ) (x y z : ℝ) (hx : x ≠ 0) :
    ∃ g, HasDerivAt (fun x => r_tt v x y z) g x ∧ g * (sf / (2 * x)) = r_stt v x y z := by
  simp only [r_tt, n_tt, r_stt, n_stt, c_2, c_3, c_4, c_5, c_6, c_8, c_9, c_12, c_18, c_20, c_24, c_30, c_60, c_120, cd_0, cd_1, cd_2, cd_3, cd_4, cd_5, cd_6, cd_7, cd_8, cd_9, cd_10, cd_11, cd_12, cd_13, cd_14, cd_15]
  refine ⟨_, by hderiv, ?_⟩
  field_simp
  ring

theorem deriv_sp_s (v : ℕ → ℕ → ℕ → ℝ) (x y z : ℝ) (hx : x ≠ 0) :
    ∃ g, HasDerivAt (fun x => r_sp v x y z) g x ∧ g * (sf / (2 * x)) = r_ssp v x y z := by
  simp only [r_sp, n_sp, r_ssp, n_ssp, c_2, c_3, c_4, c_5, c_6, c_8, c_9, c_12, c_18, c_20, c_24, c_30, c_60, c_120, cd_0, cd_1, cd_2, cd_3, cd_4, cd_5, cd_6, cd_7, cd_8, cd_9, cd_10, cd_11, cd_12, cd_13, cd_14, cd_15]
  refine ⟨_, HasDerivAt.fun_mul (HasDerivAt.fun_div (by hderiv) (by hderiv) (by positivity)) (hasDerivAt_const _ _), ?_⟩
  field_simp
  ring

theorem deriv_tp_s (v : ℕ → ℕ → ℕ → ℝ) (x y z : ℝ) (hx : x ≠ 0) :
    ∃ g, HasDerivAt (fun x => r_tp v x y z) g x ∧ g * (sf / (2 * x)) = r_stp v x y z := by
  simp only [r_tp, n_tp, r_stp, n_stp, c_2, c_3, c_4, c_5, c_6, c_8, c_9, c_12, c_18, c_20, c_24, c_30, c_60, c_120, cd_0, cd_1, cd_2, cd_3, cd_4, cd_5, cd_6, cd_7, cd_8, cd_9, cd_10, cd_11, cd_12, cd_13, cd_14, cd_15]
  refine ⟨_, by hderiv, ?_⟩
  field_simp
  ring

theorem deriv_pp_s (v : ℕ → ℕ → ℕ → ℝ) (x y z : ℝ) (hx : x ≠ 0) :
    ∃ g, HasDerivAt (fun x => r_pp v x y z) g x ∧ g * (sf / (2 * x)) = r_spp v x y z := by
  simp only [r_pp, n_pp, r_spp, n_spp, c_2, c_3, c_4, c_5, c_6, c_8, c_9, c_12, c_18, c_20, c_24, c_30, c_60, c_120, cd_0, cd_1, cd_2, cd_3, cd_4, cd_5, cd_6, cd_7, cd_8, cd_9, cd_10, cd_11, cd_12, cd_13, cd_14, cd_15]
  refine ⟨_, by hderiv, ?_⟩
  field_simp
  ring

end Gsw
