import Verif.Props.EosRound

/-!
# The gsw equation of state in rounded arithmetic (C129)
-/

namespace Gsw
open FloatLike Interp Eos
set_option linter.unusedSectionVars false

variable {rnd : ℝ → ℝ}

/-- The coefficients. -/
def vT (i j k : ℕ) : Trk := Trk.lit (vtab i j k)
/-- The square of the root. -/
def x2T : Trk := (Trk.lit sfac * Trk.arg 42 + Trk.lit offset).cap 1.6641
/-- The root. -/
def xT : Trk := Trk.sqrt 0.77 1.29 x2T
/-- The scaled temperature. -/
def yT : Trk := (Trk.arg 40 * Trk.lit tfac).cap 1
/-- The scaled pressure. -/
def zT : Trk := (Trk.arg 10000 * Trk.lit pfac).cap 1

theorem vT_tr (R : StdRound rnd) (i j k : ℕ) : Tr (vT i j k) (vR i j k) (vf i j k : Rfl rnd) := Tr.lit R _
theorem cT_tr (R : StdRound rnd) (q : ℚ) : Tr (Trk.lit q) (cR q) (lit q : Rfl rnd) := Tr.lit R _
theorem sf_tr (R : StdRound rnd) : Tr (Trk.lit sfac) sf (lit sfac : Rfl rnd) := Tr.lit R _
theorem tf_tr (R : StdRound rnd) : Tr (Trk.lit tfac) tf (lit tfac : Rfl rnd) := Tr.lit R _
theorem pf_tr (R : StdRound rnd) : Tr (Trk.lit pfac) pf (lit pfac : Rfl rnd) := Tr.lit R _
theorem half_tr (R : StdRound rnd) : Tr (Trk.lit 0.5) (1 / 2) (lit 0.5 : Rfl rnd) := half_eq ▸ Tr.lit R _

/-- Half of a number. -/
theorem half (R : StdRound rnd) {x : Trk} {a : ℝ} {v : Rfl rnd} (h : Tr x a v) : Tr (Trk.div 2 x (Trk.lit 2)) (a / 2) (v / lit 2) := by
  have h2 := Tr.lit R (rnd := rnd) 2
  obtain ⟨z, hz, ht⟩ := Tr.div R h h2 (L := 2) (by norm_num) (by decide +kernel)
  unfold sdiv at hz
  split at hz
  · cases hz
  · cases hz
    simpa using ht

/-- The arguments on the oceanographic range. -/
theorem Ocean.args (R : StdRound rnd) {SA CT p : ℝ} (h : Ocean SA CT p) : ∃ x y z x2 : Rfl rnd,
    process (Rfl.fin SA : Rfl rnd) (Rfl.fin CT) (Rfl.fin p) = (x, y, z, x2) ∧ Tr xT (X SA) x ∧ Tr yT (CT * tf) y ∧ Tr zT (p * pf) z ∧
    Tr x2T (X SA * X SA) x2 := by
  have hx := h.x
  have hm : max0 (Rfl.fin SA : Rfl rnd) = Rfl.fin SA := by
    unfold max0
    rw [Rfl.isNaN_fin, Rfl.lit_eq, Rat.cast_zero, R.zero, Rfl.lt_fin]
    simp [not_lt.mpr h.s0]
  have h2 : Tr x2T (X SA * X SA) (lit sfac * max0 (Rfl.fin SA : Rfl rnd) + lit offset) := by
    rw [hm, X_sq h.s0]
    refine (Tr.add R (Tr.mul R (sf_tr R) (Tr.arg ?_)) (Tr.lit R offset)).cap ?_
    · rw [abs_of_nonneg h.s0]; exact_mod_cast h.s1
    · rw [abs_of_pos (x2_pos h.s0), ← X_sq h.s0]
      norm_num at hx ⊢
      nlinarith
  have h1 : Tr xT (X SA) (FloatSqrt.sqrt (lit sfac * max0 (Rfl.fin SA : Rfl rnd) + lit offset)) := by
    have e : Real.sqrt (X SA * X SA) = X SA := Real.sqrt_mul_self (X_pos h.s0).le
    have := Tr.sqrt R h2 (L := 0.77) (M := 1.29) (by norm_num) (by rw [e]; norm_num at hx ⊢; exact hx.1)
      (by rw [e]; norm_num at hx ⊢; exact hx.2) (by decide +kernel)
    rwa [e] at this
  have h3 : Tr yT (CT * tf) ((Rfl.fin CT : Rfl rnd) * lit tfac) := by
    have ht0 := h.t0
    have ht1 := h.t1
    refine (Tr.mul R (Tr.arg (abs_le.mpr ⟨?_, ?_⟩)) (tf_tr R)).cap (abs_le.mpr ⟨?_, ?_⟩) <;> try rw [tf_eq]
    all_goals push_cast; linarith
  have h4 : Tr zT (p * pf) ((Rfl.fin p : Rfl rnd) * lit pfac) := by
    have ht0 := h.p0
    have ht1 := h.p1
    refine (Tr.mul R (Tr.arg (abs_le.mpr ⟨?_, ?_⟩)) (pf_tr R)).cap (abs_le.mpr ⟨?_, ?_⟩) <;> try rw [pf_eq]
    all_goals push_cast; linarith
  exact ⟨_, _, _, _, rfl, h1, h3, h4, h2⟩

section
variable (R : StdRound rnd) {x y z : ℝ} {x' y' z' x2' : Rfl rnd} (hx : Tr xT x x') (hy : Tr yT y y') (hz : Tr zT z z')
include R hx hy hz

/-- The specific volume. -/
def specvolT : Trk := pSpecvol vT xT yT zT

theorem specvol_tr : Tr specvolT (pSpecvol vR x y z) (pSpecvol vf x' y' z') := by
  unfold specvolT pSpecvol; track R (vT_tr R _ _) (cT_tr R)

/-- Error of `d_s`. -/
def s_T : Trk := Trk.div 0.77 (n_s Trk.lit vT xT yT zT) xT * (Trk.lit 0.5 * Trk.lit sfac)

theorem d_s_tr (h0 : 0.77 ≤ x) : ∃ w, d_s vf x' y' z' = some w ∧ Tr s_T (r_s vR x y z) w := by
  have hs := sf_tr R
  have ht := tf_tr R
  have hp := pf_tr R
  have hh := half_tr R
  have hn : Tr (n_s Trk.lit vT xT yT zT) (n_s cR vR x y z) (n_s lit vf x' y' z') := by
    unfold n_s; track R (vT_tr R _ _) (cT_tr R)
  have hf : Tr (Trk.lit 0.5 * Trk.lit sfac) (1 / 2 * sf) (lit 0.5 * lit sfac : Rfl rnd) := by track R (vT_tr R _ _) (cT_tr R)
  have hL : ((0.77 : ℚ) : ℝ) ≤ |x| := by
    have h00 : (0 : ℝ) < x := by norm_num at h0; linarith
    rw [abs_of_pos (by positivity)]
    have h1 : (0.77 : ℝ) * 0.77 ≤ x * x := by gcongr
    norm_num at h0 ⊢
    exact h0
  obtain ⟨q, hq, hqt⟩ := Tr.div R hn hx hL (by decide +kernel)
  refine ⟨_, ?_, Tr.mul R hqt hf⟩
  unfold d_s
  simp only [hq, Option.bind_eq_bind, Option.bind_some, Option.pure_def]

/-- Error of `d_t`. -/
def t_T : Trk := n_t Trk.lit vT xT yT zT * (Trk.lit tfac)

theorem d_t_tr : ∃ w, d_t vf x' y' z' = some w ∧ Tr t_T (r_t vR x y z) w := by
  have hs := sf_tr R
  have ht := tf_tr R
  have hp := pf_tr R
  have hh := half_tr R
  have hn : Tr (n_t Trk.lit vT xT yT zT) (n_t cR vR x y z) (n_t lit vf x' y' z') := by
    unfold n_t; track R (vT_tr R _ _) (cT_tr R)
  have hf : Tr (Trk.lit tfac) (tf) (lit tfac : Rfl rnd) := by track R (vT_tr R _ _) (cT_tr R)
  exact ⟨_, rfl, Tr.mul R hn hf⟩

/-- Error of `d_p`. -/
def p_T : Trk := n_p Trk.lit vT xT yT zT * (Trk.lit pfac)

theorem d_p_tr : ∃ w, d_p vf x' y' z' = some w ∧ Tr p_T (r_p vR x y z) w := by
  have hs := sf_tr R
  have ht := tf_tr R
  have hp := pf_tr R
  have hh := half_tr R
  have hn : Tr (n_p Trk.lit vT xT yT zT) (n_p cR vR x y z) (n_p lit vf x' y' z') := by
    unfold n_p; track R (vT_tr R _ _) (cT_tr R)
  have hf : Tr (Trk.lit pfac) (pf) (lit pfac : Rfl rnd) := by track R (vT_tr R _ _) (cT_tr R)
  exact ⟨_, rfl, Tr.mul R hn hf⟩

/-- Error of `d_ss`. -/
def ss_T : Trk := Trk.div 0.456533 (n_ss Trk.lit vT xT yT zT x2T) (xT * x2T) * (Trk.lit sfac * Trk.lit sfac)

theorem d_ss_tr (h2 : Tr x2T (x * x) x2') (h0 : 0.77 ≤ x) : ∃ w, d_ss vf x' y' z' x2' = some w ∧ Tr ss_T (r_ss vR x y z) w := by
  have hs := sf_tr R
  have ht := tf_tr R
  have hp := pf_tr R
  have hh := half_tr R
  have hn : Tr (n_ss Trk.lit vT xT yT zT x2T) (n_ss cR vR x y z (x * x)) (n_ss lit vf x' y' z' x2') := by
    unfold n_ss; track R (vT_tr R _ _) (cT_tr R)
  have hf : Tr (Trk.lit sfac * Trk.lit sfac) (sf * sf) (lit sfac * lit sfac : Rfl rnd) := by track R (vT_tr R _ _) (cT_tr R)
  have hL : ((0.456533 : ℚ) : ℝ) ≤ |x * (x * x)| := by
    have h00 : (0 : ℝ) < x := by norm_num at h0; linarith
    rw [abs_of_pos (by positivity)]
    have h1 : (0.77 : ℝ) * 0.77 ≤ x * x := by gcongr
    have h2 : (0.77 : ℝ) * (0.77 * 0.77) ≤ x * (x * x) := by gcongr
    norm_num at h2 ⊢
    linarith
  obtain ⟨q, hq, hqt⟩ := Tr.div R hn (Tr.mul R hx h2) hL (by decide +kernel)
  refine ⟨_, ?_, Tr.mul R hqt hf⟩
  unfold d_ss
  simp only [hq, Option.bind_eq_bind, Option.bind_some, Option.pure_def]

/-- Error of `d_st`. -/
def st_T : Trk := Trk.div 0.77 (n_st Trk.lit vT xT yT zT) xT * (Trk.lit 0.5 * Trk.lit tfac * Trk.lit sfac)

theorem d_st_tr (h0 : 0.77 ≤ x) : ∃ w, d_st vf x' y' z' = some w ∧ Tr st_T (r_st vR x y z) w := by
  have hs := sf_tr R
  have ht := tf_tr R
  have hp := pf_tr R
  have hh := half_tr R
  have hn : Tr (n_st Trk.lit vT xT yT zT) (n_st cR vR x y z) (n_st lit vf x' y' z') := by
    unfold n_st; track R (vT_tr R _ _) (cT_tr R)
  have hf : Tr (Trk.lit 0.5 * Trk.lit tfac * Trk.lit sfac) (1 / 2 * tf * sf) (lit 0.5 * lit tfac * lit sfac : Rfl rnd) := by track R (vT_tr R _ _) (cT_tr R)
  have hL : ((0.77 : ℚ) : ℝ) ≤ |x| := by
    have h00 : (0 : ℝ) < x := by norm_num at h0; linarith
    rw [abs_of_pos (by positivity)]
    have h1 : (0.77 : ℝ) * 0.77 ≤ x * x := by gcongr
    norm_num at h0 ⊢
    exact h0
  obtain ⟨q, hq, hqt⟩ := Tr.div R hn hx hL (by decide +kernel)
  refine ⟨_, ?_, Tr.mul R hqt hf⟩
  unfold d_st
  simp only [hq, Option.bind_eq_bind, Option.bind_some, Option.pure_def]

/-- Error of `d_tt`. -/
def tt_T : Trk := n_tt Trk.lit vT xT yT zT * (Trk.lit tfac * Trk.lit tfac)

theorem d_tt_tr : ∃ w, d_tt vf x' y' z' = some w ∧ Tr tt_T (r_tt vR x y z) w := by
  have hs := sf_tr R
  have ht := tf_tr R
  have hp := pf_tr R
  have hh := half_tr R
  have hn : Tr (n_tt Trk.lit vT xT yT zT) (n_tt cR vR x y z) (n_tt lit vf x' y' z') := by
    unfold n_tt; track R (vT_tr R _ _) (cT_tr R)
  have hf : Tr (Trk.lit tfac * Trk.lit tfac) (tf * tf) (lit tfac * lit tfac : Rfl rnd) := by track R (vT_tr R _ _) (cT_tr R)
  exact ⟨_, rfl, Tr.mul R hn hf⟩

/-- Error of `d_sp`. -/
def sp_T : Trk := Trk.div 0.77 (n_sp Trk.lit vT xT yT zT) xT * (Trk.lit 0.5 * Trk.lit pfac * Trk.lit sfac)

theorem d_sp_tr (h0 : 0.77 ≤ x) : ∃ w, d_sp vf x' y' z' = some w ∧ Tr sp_T (r_sp vR x y z) w := by
  have hs := sf_tr R
  have ht := tf_tr R
  have hp := pf_tr R
  have hh := half_tr R
  have hn : Tr (n_sp Trk.lit vT xT yT zT) (n_sp cR vR x y z) (n_sp lit vf x' y' z') := by
    unfold n_sp; track R (vT_tr R _ _) (cT_tr R)
  have hf : Tr (Trk.lit 0.5 * Trk.lit pfac * Trk.lit sfac) (1 / 2 * pf * sf) (lit 0.5 * lit pfac * lit sfac : Rfl rnd) := by track R (vT_tr R _ _) (cT_tr R)
  have hL : ((0.77 : ℚ) : ℝ) ≤ |x| := by
    have h00 : (0 : ℝ) < x := by norm_num at h0; linarith
    rw [abs_of_pos (by positivity)]
    have h1 : (0.77 : ℝ) * 0.77 ≤ x * x := by gcongr
    norm_num at h0 ⊢
    exact h0
  obtain ⟨q, hq, hqt⟩ := Tr.div R hn hx hL (by decide +kernel)
  refine ⟨_, ?_, Tr.mul R hqt hf⟩
  unfold d_sp
  simp only [hq, Option.bind_eq_bind, Option.bind_some, Option.pure_def]

/-- Error of `d_tp`. -/
def tp_T : Trk := n_tp Trk.lit vT xT yT zT * (Trk.lit tfac * Trk.lit pfac)

theorem d_tp_tr : ∃ w, d_tp vf x' y' z' = some w ∧ Tr tp_T (r_tp vR x y z) w := by
  have hs := sf_tr R
  have ht := tf_tr R
  have hp := pf_tr R
  have hh := half_tr R
  have hn : Tr (n_tp Trk.lit vT xT yT zT) (n_tp cR vR x y z) (n_tp lit vf x' y' z') := by
    unfold n_tp; track R (vT_tr R _ _) (cT_tr R)
  have hf : Tr (Trk.lit tfac * Trk.lit pfac) (tf * pf) (lit tfac * lit pfac : Rfl rnd) := by track R (vT_tr R _ _) (cT_tr R)
  exact ⟨_, rfl, Tr.mul R hn hf⟩

/-- Error of `d_pp`. -/
def pp_T : Trk := n_pp Trk.lit vT xT yT zT * (Trk.lit pfac * Trk.lit pfac)

theorem d_pp_tr : ∃ w, d_pp vf x' y' z' = some w ∧ Tr pp_T (r_pp vR x y z) w := by
  have hs := sf_tr R
  have ht := tf_tr R
  have hp := pf_tr R
  have hh := half_tr R
  have hn : Tr (n_pp Trk.lit vT xT yT zT) (n_pp cR vR x y z) (n_pp lit vf x' y' z') := by
    unfold n_pp; track R (vT_tr R _ _) (cT_tr R)
  have hf : Tr (Trk.lit pfac * Trk.lit pfac) (pf * pf) (lit pfac * lit pfac : Rfl rnd) := by track R (vT_tr R _ _) (cT_tr R)
  exact ⟨_, rfl, Tr.mul R hn hf⟩

/-- Error of `d_sss`. -/
def sss_T : Trk := Trk.div 0.27 (n_sss Trk.lit vT xT yT zT x2T) (xT * x2T * x2T) * (Trk.lit sfac * Trk.lit sfac * Trk.lit sfac)

theorem d_sss_tr (h2 : Tr x2T (x * x) x2') (h0 : 0.77 ≤ x) : ∃ w, d_sss vf x' y' z' x2' = some w ∧ Tr sss_T (r_sss vR x y z) w := by
  have hs := sf_tr R
  have ht := tf_tr R
  have hp := pf_tr R
  have hh := half_tr R
  have hn : Tr (n_sss Trk.lit vT xT yT zT x2T) (n_sss cR vR x y z (x * x)) (n_sss lit vf x' y' z' x2') := by
    unfold n_sss; track R (vT_tr R _ _) (cT_tr R)
  have hf : Tr (Trk.lit sfac * Trk.lit sfac * Trk.lit sfac) (sf * sf * sf) (lit sfac * lit sfac * lit sfac : Rfl rnd) := by track R (vT_tr R _ _) (cT_tr R)
  have hL : ((0.27 : ℚ) : ℝ) ≤ |x * (x * x) * (x * x)| := by
    have h00 : (0 : ℝ) < x := by norm_num at h0; linarith
    rw [abs_of_pos (by positivity)]
    have h1 : (0.77 : ℝ) * 0.77 ≤ x * x := by gcongr
    have h2 : (0.77 : ℝ) * (0.77 * 0.77) * (0.77 * 0.77) ≤ x * (x * x) * (x * x) := by gcongr
    norm_num at h2 ⊢
    linarith
  obtain ⟨q, hq, hqt⟩ := Tr.div R hn (Tr.mul R (Tr.mul R hx h2) h2) hL (by decide +kernel)
  refine ⟨_, ?_, Tr.mul R hqt hf⟩
  unfold d_sss
  simp only [hq, Option.bind_eq_bind, Option.bind_some, Option.pure_def]

/-- Error of `d_sst`. -/
def sst_T : Trk := Trk.div 0.456533 (n_sst Trk.lit vT xT yT zT x2T) (xT * x2T) * (Trk.lit sfac * Trk.lit sfac * Trk.lit tfac)

theorem d_sst_tr (h2 : Tr x2T (x * x) x2') (h0 : 0.77 ≤ x) : ∃ w, d_sst vf x' y' z' x2' = some w ∧ Tr sst_T (r_sst vR x y z) w := by
  have hs := sf_tr R
  have ht := tf_tr R
  have hp := pf_tr R
  have hh := half_tr R
  have hn : Tr (n_sst Trk.lit vT xT yT zT x2T) (n_sst cR vR x y z (x * x)) (n_sst lit vf x' y' z' x2') := by
    unfold n_sst; track R (vT_tr R _ _) (cT_tr R)
  have hf : Tr (Trk.lit sfac * Trk.lit sfac * Trk.lit tfac) (sf * sf * tf) (lit sfac * lit sfac * lit tfac : Rfl rnd) := by track R (vT_tr R _ _) (cT_tr R)
  have hL : ((0.456533 : ℚ) : ℝ) ≤ |x * (x * x)| := by
    have h00 : (0 : ℝ) < x := by norm_num at h0; linarith
    rw [abs_of_pos (by positivity)]
    have h1 : (0.77 : ℝ) * 0.77 ≤ x * x := by gcongr
    have h2 : (0.77 : ℝ) * (0.77 * 0.77) ≤ x * (x * x) := by gcongr
    norm_num at h2 ⊢
    linarith
  obtain ⟨q, hq, hqt⟩ := Tr.div R hn (Tr.mul R hx h2) hL (by decide +kernel)
  refine ⟨_, ?_, Tr.mul R hqt hf⟩
  unfold d_sst
  simp only [hq, Option.bind_eq_bind, Option.bind_some, Option.pure_def]

/-- Error of `d_stt`. -/
def stt_T : Trk := Trk.div 0.77 (n_stt Trk.lit vT xT yT zT) xT * Trk.div 2 (Trk.lit tfac * Trk.lit tfac * Trk.lit sfac) (Trk.lit 2)

theorem d_stt_tr (h0 : 0.77 ≤ x) : ∃ w, d_stt vf x' y' z' = some w ∧ Tr stt_T (r_stt vR x y z) w := by
  have hs := sf_tr R
  have ht := tf_tr R
  have hp := pf_tr R
  have hh := half_tr R
  have hn : Tr (n_stt Trk.lit vT xT yT zT) (n_stt cR vR x y z) (n_stt lit vf x' y' z') := by
    unfold n_stt; track R (vT_tr R _ _) (cT_tr R)
  have hf : Tr (Trk.div 2 (Trk.lit tfac * Trk.lit tfac * Trk.lit sfac) (Trk.lit 2)) (tf * tf * sf / 2) (lit tfac * lit tfac * lit sfac / lit 2 : Rfl rnd) := by
    refine half R ?_
    track R (vT_tr R _ _) (cT_tr R)
  have hL : ((0.77 : ℚ) : ℝ) ≤ |x| := by
    have h00 : (0 : ℝ) < x := by norm_num at h0; linarith
    rw [abs_of_pos (by positivity)]
    have h1 : (0.77 : ℝ) * 0.77 ≤ x * x := by gcongr
    norm_num at h0 ⊢
    exact h0
  obtain ⟨q, hq, hqt⟩ := Tr.div R hn hx hL (by decide +kernel)
  refine ⟨_, ?_, Tr.mul R hqt hf⟩
  unfold d_stt
  simp only [hq, Option.bind_eq_bind, Option.bind_some, Option.pure_def]

/-- Error of `d_ttt`. -/
def ttt_T : Trk := n_ttt Trk.lit vT xT yT zT * (Trk.lit tfac * Trk.lit tfac * Trk.lit tfac)

theorem d_ttt_tr : ∃ w, d_ttt vf x' y' z' = some w ∧ Tr ttt_T (r_ttt vR x y z) w := by
  have hs := sf_tr R
  have ht := tf_tr R
  have hp := pf_tr R
  have hh := half_tr R
  have hn : Tr (n_ttt Trk.lit vT xT yT zT) (n_ttt cR vR x y z) (n_ttt lit vf x' y' z') := by
    unfold n_ttt; track R (vT_tr R _ _) (cT_tr R)
  have hf : Tr (Trk.lit tfac * Trk.lit tfac * Trk.lit tfac) (tf * tf * tf) (lit tfac * lit tfac * lit tfac : Rfl rnd) := by track R (vT_tr R _ _) (cT_tr R)
  exact ⟨_, rfl, Tr.mul R hn hf⟩

/-- Error of `d_ssp`. -/
def ssp_T : Trk := Trk.div 0.456533 (n_ssp Trk.lit vT xT yT zT x2T) (xT * x2T) * (Trk.lit sfac * Trk.lit sfac * Trk.lit pfac)

theorem d_ssp_tr (h2 : Tr x2T (x * x) x2') (h0 : 0.77 ≤ x) : ∃ w, d_ssp vf x' y' z' x2' = some w ∧ Tr ssp_T (r_ssp vR x y z) w := by
  have hs := sf_tr R
  have ht := tf_tr R
  have hp := pf_tr R
  have hh := half_tr R
  have hn : Tr (n_ssp Trk.lit vT xT yT zT x2T) (n_ssp cR vR x y z (x * x)) (n_ssp lit vf x' y' z' x2') := by
    unfold n_ssp; track R (vT_tr R _ _) (cT_tr R)
  have hf : Tr (Trk.lit sfac * Trk.lit sfac * Trk.lit pfac) (sf * sf * pf) (lit sfac * lit sfac * lit pfac : Rfl rnd) := by track R (vT_tr R _ _) (cT_tr R)
  have hL : ((0.456533 : ℚ) : ℝ) ≤ |x * (x * x)| := by
    have h00 : (0 : ℝ) < x := by norm_num at h0; linarith
    rw [abs_of_pos (by positivity)]
    have h1 : (0.77 : ℝ) * 0.77 ≤ x * x := by gcongr
    have h2 : (0.77 : ℝ) * (0.77 * 0.77) ≤ x * (x * x) := by gcongr
    norm_num at h2 ⊢
    linarith
  obtain ⟨q, hq, hqt⟩ := Tr.div R hn (Tr.mul R hx h2) hL (by decide +kernel)
  refine ⟨_, ?_, Tr.mul R hqt hf⟩
  unfold d_ssp
  simp only [hq, Option.bind_eq_bind, Option.bind_some, Option.pure_def]

/-- Error of `d_stp`. -/
def stp_T : Trk := Trk.div 0.77 (n_stp Trk.lit vT xT yT zT) xT * (Trk.lit 0.5 * Trk.lit sfac * Trk.lit tfac * Trk.lit pfac)

theorem d_stp_tr (h0 : 0.77 ≤ x) : ∃ w, d_stp vf x' y' z' = some w ∧ Tr stp_T (r_stp vR x y z) w := by
  have hs := sf_tr R
  have ht := tf_tr R
  have hp := pf_tr R
  have hh := half_tr R
  have hn : Tr (n_stp Trk.lit vT xT yT zT) (n_stp cR vR x y z) (n_stp lit vf x' y' z') := by
    unfold n_stp; track R (vT_tr R _ _) (cT_tr R)
  have hf : Tr (Trk.lit 0.5 * Trk.lit sfac * Trk.lit tfac * Trk.lit pfac) (1 / 2 * sf * tf * pf) (lit 0.5 * lit sfac * lit tfac * lit pfac : Rfl rnd) := by track R (vT_tr R _ _) (cT_tr R)
  have hL : ((0.77 : ℚ) : ℝ) ≤ |x| := by
    have h00 : (0 : ℝ) < x := by norm_num at h0; linarith
    rw [abs_of_pos (by positivity)]
    have h1 : (0.77 : ℝ) * 0.77 ≤ x * x := by gcongr
    norm_num at h0 ⊢
    exact h0
  obtain ⟨q, hq, hqt⟩ := Tr.div R hn hx hL (by decide +kernel)
  refine ⟨_, ?_, Tr.mul R hqt hf⟩
  unfold d_stp
  simp only [hq, Option.bind_eq_bind, Option.bind_some, Option.pure_def]

/-- Error of `d_ttp`. -/
def ttp_T : Trk := n_ttp Trk.lit vT xT yT zT * (Trk.lit tfac * Trk.lit tfac * Trk.lit pfac)

theorem d_ttp_tr : ∃ w, d_ttp vf x' y' z' = some w ∧ Tr ttp_T (r_ttp vR x y z) w := by
  have hs := sf_tr R
  have ht := tf_tr R
  have hp := pf_tr R
  have hh := half_tr R
  have hn : Tr (n_ttp Trk.lit vT xT yT zT) (n_ttp cR vR x y z) (n_ttp lit vf x' y' z') := by
    unfold n_ttp; track R (vT_tr R _ _) (cT_tr R)
  have hf : Tr (Trk.lit tfac * Trk.lit tfac * Trk.lit pfac) (tf * tf * pf) (lit tfac * lit tfac * lit pfac : Rfl rnd) := by track R (vT_tr R _ _) (cT_tr R)
  exact ⟨_, rfl, Tr.mul R hn hf⟩

/-- Error of `d_spp`. -/
def spp_T : Trk := Trk.div 0.77 (n_spp Trk.lit vT xT yT zT) xT * Trk.div 2 (Trk.lit pfac * Trk.lit pfac * Trk.lit sfac) (Trk.lit 2)

theorem d_spp_tr (h0 : 0.77 ≤ x) : ∃ w, d_spp vf x' y' z' = some w ∧ Tr spp_T (r_spp vR x y z) w := by
  have hs := sf_tr R
  have ht := tf_tr R
  have hp := pf_tr R
  have hh := half_tr R
  have hn : Tr (n_spp Trk.lit vT xT yT zT) (n_spp cR vR x y z) (n_spp lit vf x' y' z') := by
    unfold n_spp; track R (vT_tr R _ _) (cT_tr R)
  have hf : Tr (Trk.div 2 (Trk.lit pfac * Trk.lit pfac * Trk.lit sfac) (Trk.lit 2)) (pf * pf * sf / 2) (lit pfac * lit pfac * lit sfac / lit 2 : Rfl rnd) := by
    refine half R ?_
    track R (vT_tr R _ _) (cT_tr R)
  have hL : ((0.77 : ℚ) : ℝ) ≤ |x| := by
    have h00 : (0 : ℝ) < x := by norm_num at h0; linarith
    rw [abs_of_pos (by positivity)]
    have h1 : (0.77 : ℝ) * 0.77 ≤ x * x := by gcongr
    norm_num at h0 ⊢
    exact h0
  obtain ⟨q, hq, hqt⟩ := Tr.div R hn hx hL (by decide +kernel)
  refine ⟨_, ?_, Tr.mul R hqt hf⟩
  unfold d_spp
  simp only [hq, Option.bind_eq_bind, Option.bind_some, Option.pure_def]

/-- Error of `d_tpp`. -/
def tpp_T : Trk := n_tpp Trk.lit vT xT yT zT * (Trk.lit tfac * Trk.lit pfac * Trk.lit pfac)

theorem d_tpp_tr : ∃ w, d_tpp vf x' y' z' = some w ∧ Tr tpp_T (r_tpp vR x y z) w := by
  have hs := sf_tr R
  have ht := tf_tr R
  have hp := pf_tr R
  have hh := half_tr R
  have hn : Tr (n_tpp Trk.lit vT xT yT zT) (n_tpp cR vR x y z) (n_tpp lit vf x' y' z') := by
    unfold n_tpp; track R (vT_tr R _ _) (cT_tr R)
  have hf : Tr (Trk.lit tfac * Trk.lit pfac * Trk.lit pfac) (tf * pf * pf) (lit tfac * lit pfac * lit pfac : Rfl rnd) := by track R (vT_tr R _ _) (cT_tr R)
  exact ⟨_, rfl, Tr.mul R hn hf⟩

/-- Error of `d_ppp`. -/
def ppp_T : Trk := n_ppp Trk.lit vT xT yT zT * (Trk.lit pfac * Trk.lit pfac * Trk.lit pfac)

theorem d_ppp_tr : ∃ w, d_ppp vf x' y' z' = some w ∧ Tr ppp_T (r_ppp vR x y z) w := by
  have hs := sf_tr R
  have ht := tf_tr R
  have hp := pf_tr R
  have hh := half_tr R
  have hn : Tr (n_ppp Trk.lit vT xT yT zT) (n_ppp cR vR x y z) (n_ppp lit vf x' y' z') := by
    unfold n_ppp; track R (vT_tr R _ _) (cT_tr R)
  have hf : Tr (Trk.lit pfac * Trk.lit pfac * Trk.lit pfac) (pf * pf * pf) (lit pfac * lit pfac * lit pfac : Rfl rnd) := by track R (vT_tr R _ _) (cT_tr R)
  exact ⟨_, rfl, Tr.mul R hn hf⟩

end

theorem gsw_exact {SA : ℝ} (h : 0 ≤ SA) (CT p : ℝ) :
    specvol (Fl.fin SA) (.fin CT) (.fin p) = .fin (tab 0 0 0 SA CT p) ∧
    specvolFirst (Fl.fin SA) (.fin CT) (.fin p) = some [.fin (tab 1 0 0 SA CT p), .fin (tab 0 1 0 SA CT p), .fin (tab 0 0 1 SA CT p)] ∧
    specvolSecond (Fl.fin SA) (.fin CT) (.fin p) = some [.fin (tab 2 0 0 SA CT p), .fin (tab 1 1 0 SA CT p), .fin (tab 0 2 0 SA CT p), .fin (tab 1 0 1 SA CT p), .fin (tab 0 1 1 SA CT p), .fin (tab 0 0 2 SA CT p)] ∧
    specvolThird (Fl.fin SA) (.fin CT) (.fin p) = some [.fin (tab 3 0 0 SA CT p), .fin (tab 2 1 0 SA CT p), .fin (tab 1 2 0 SA CT p), .fin (tab 0 3 0 SA CT p), .fin (tab 2 0 1 SA CT p), .fin (tab 1 1 1 SA CT p), .fin (tab 0 2 1 SA CT p), .fin (tab 1 0 2 SA CT p), .fin (tab 0 1 2 SA CT p), .fin (tab 0 0 3 SA CT p)] ∧
    specvolST (Fl.fin SA) (.fin CT) (.fin p) = some (.fin (tab 1 0 0 SA CT p), .fin (tab 0 1 0 SA CT p)) ∧
    specvolP (Fl.fin SA) (.fin CT) (.fin p) = some (.fin (tab 0 0 1 SA CT p)) ∧
    specvolSel2 (Fl.fin SA) (.fin CT) (.fin p) = some [.fin (tab 1 0 0 SA CT p), .fin (tab 0 1 0 SA CT p), .fin (tab 2 0 0 SA CT p), .fin (tab 1 1 0 SA CT p), .fin (tab 0 2 0 SA CT p), .fin (tab 1 0 1 SA CT p), .fin (tab 0 1 1 SA CT p)] ∧
    specvolSel3 (Fl.fin SA) (.fin CT) (.fin p) = some [.fin (tab 1 0 0 SA CT p), .fin (tab 0 1 0 SA CT p), .fin (tab 2 0 0 SA CT p), .fin (tab 1 1 0 SA CT p), .fin (tab 0 2 0 SA CT p), .fin (tab 1 0 1 SA CT p), .fin (tab 0 1 1 SA CT p), .fin (tab 3 0 0 SA CT p), .fin (tab 2 1 0 SA CT p), .fin (tab 1 2 0 SA CT p), .fin (tab 0 3 0 SA CT p), .fin (tab 2 0 1 SA CT p), .fin (tab 1 1 1 SA CT p), .fin (tab 0 2 1 SA CT p), .fin (tab 1 0 2 SA CT p), .fin (tab 0 1 2 SA CT p)] := by
  have hx := (X_pos h).ne'
  simp only [specvol, specvolFirst, specvolSecond, specvolThird, specvolST, specvolP, specvolSel2, specvolSel3, process_fin h,
    vf_eq, pSpecvol_fin, d_s_fin vR _ _ hx, d_t_fin, d_p_fin, d_ss_fin vR _ _ hx, d_st_fin vR _ _ hx, d_tt_fin, d_sp_fin vR _ _ hx,
    d_tp_fin, d_pp_fin, d_sss_fin vR _ _ hx, d_sst_fin vR _ _ hx, d_stt_fin vR _ _ hx, d_ttt_fin, d_ssp_fin vR _ _ hx, d_stp_fin vR _ _ hx,
    d_ttp_fin, d_spp_fin vR _ _ hx, d_tpp_fin, d_ppp_fin, Option.bind_eq_bind, Option.bind_some, Option.pure_def]
  exact ⟨rfl, rfl, rfl, rfl, rfl, rfl, rfl, rfl⟩

/-- The error bounds: order of differentiation in salinity, temperature and pressure. -/
def errBound : ℕ → ℕ → ℕ → ℚ
  | 0, 0, 0 => 2.2e-17
  | 1, 0, 0 => 1.2e-18
  | 0, 1, 0 => 8.0e-20
  | 0, 0, 1 => 1.4e-22
  | 2, 0, 0 => 7.1e-20
  | 1, 1, 0 => 2.4e-21
  | 0, 2, 0 => 2.3e-21
  | 1, 0, 1 => 5.4e-24
  | 0, 1, 1 => 1.5e-24
  | 0, 0, 2 => 3.8e-27
  | 3, 0, 0 => 3.1e-21
  | 2, 1, 0 => 7.0e-23
  | 1, 2, 0 => 4.9e-23
  | 0, 3, 0 => 5.4e-23
  | 2, 0, 1 => 2.3e-25
  | 1, 1, 1 => 3.4e-26
  | 0, 2, 1 => 2.9e-26
  | 1, 0, 2 => 1.2e-28
  | 0, 1, 2 => 4.4e-29
  | 0, 0, 3 => 5.9e-32
  | _, _, _ => 0

/-- **C129** On the oceanographic range no function of gsw fails in rounded arithmetic (`float64`), and what it returns differs from what it
returns in exact arithmetic by at most the bounds in the table: for the specific volume 2.2e-17 m³/kg. -/
theorem gsw_rounded (R : StdRound rnd) {SA CT p : ℝ} (h : Ocean SA CT p) : ∃ f g : ℕ → ℕ → ℕ → ℝ,
    (∀ i j k, i + j + k ≤ 3 → |f i j k - g i j k| ≤ errBound i j k) ∧
    specvol (Rfl.fin SA : Rfl rnd) (Rfl.fin CT) (Rfl.fin p) = Rfl.fin (f 0 0 0) ∧
    specvolFirst (Rfl.fin SA : Rfl rnd) (Rfl.fin CT) (Rfl.fin p) = some [Rfl.fin (f 1 0 0), Rfl.fin (f 0 1 0), Rfl.fin (f 0 0 1)] ∧
    specvolSecond (Rfl.fin SA : Rfl rnd) (Rfl.fin CT) (Rfl.fin p) = some [Rfl.fin (f 2 0 0), Rfl.fin (f 1 1 0), Rfl.fin (f 0 2 0), Rfl.fin (f 1 0 1), Rfl.fin (f 0 1 1), Rfl.fin (f 0 0 2)] ∧
    specvolThird (Rfl.fin SA : Rfl rnd) (Rfl.fin CT) (Rfl.fin p) = some [Rfl.fin (f 3 0 0), Rfl.fin (f 2 1 0), Rfl.fin (f 1 2 0), Rfl.fin (f 0 3 0), Rfl.fin (f 2 0 1), Rfl.fin (f 1 1 1), Rfl.fin (f 0 2 1), Rfl.fin (f 1 0 2), Rfl.fin (f 0 1 2), Rfl.fin (f 0 0 3)] ∧
    specvolST (Rfl.fin SA : Rfl rnd) (Rfl.fin CT) (Rfl.fin p) = some (Rfl.fin (f 1 0 0), Rfl.fin (f 0 1 0)) ∧
    specvolP (Rfl.fin SA : Rfl rnd) (Rfl.fin CT) (Rfl.fin p) = some (Rfl.fin (f 0 0 1)) ∧
    specvolSel2 (Rfl.fin SA : Rfl rnd) (Rfl.fin CT) (Rfl.fin p) = some [Rfl.fin (f 1 0 0), Rfl.fin (f 0 1 0), Rfl.fin (f 2 0 0), Rfl.fin (f 1 1 0), Rfl.fin (f 0 2 0), Rfl.fin (f 1 0 1), Rfl.fin (f 0 1 1)] ∧
    specvolSel3 (Rfl.fin SA : Rfl rnd) (Rfl.fin CT) (Rfl.fin p) = some [Rfl.fin (f 1 0 0), Rfl.fin (f 0 1 0), Rfl.fin (f 2 0 0), Rfl.fin (f 1 1 0), Rfl.fin (f 0 2 0), Rfl.fin (f 1 0 1), Rfl.fin (f 0 1 1), Rfl.fin (f 3 0 0), Rfl.fin (f 2 1 0), Rfl.fin (f 1 2 0), Rfl.fin (f 0 3 0), Rfl.fin (f 2 0 1), Rfl.fin (f 1 1 1), Rfl.fin (f 0 2 1), Rfl.fin (f 1 0 2), Rfl.fin (f 0 1 2)] ∧
    specvol (Fl.fin SA) (.fin CT) (.fin p) = .fin (g 0 0 0) ∧
    specvolFirst (Fl.fin SA) (.fin CT) (.fin p) = some [.fin (g 1 0 0), .fin (g 0 1 0), .fin (g 0 0 1)] ∧
    specvolSecond (Fl.fin SA) (.fin CT) (.fin p) = some [.fin (g 2 0 0), .fin (g 1 1 0), .fin (g 0 2 0), .fin (g 1 0 1), .fin (g 0 1 1), .fin (g 0 0 2)] ∧
    specvolThird (Fl.fin SA) (.fin CT) (.fin p) = some [.fin (g 3 0 0), .fin (g 2 1 0), .fin (g 1 2 0), .fin (g 0 3 0), .fin (g 2 0 1), .fin (g 1 1 1), .fin (g 0 2 1), .fin (g 1 0 2), .fin (g 0 1 2), .fin (g 0 0 3)] ∧
    specvolST (Fl.fin SA) (.fin CT) (.fin p) = some (.fin (g 1 0 0), .fin (g 0 1 0)) ∧
    specvolP (Fl.fin SA) (.fin CT) (.fin p) = some (.fin (g 0 0 1)) ∧
    specvolSel2 (Fl.fin SA) (.fin CT) (.fin p) = some [.fin (g 1 0 0), .fin (g 0 1 0), .fin (g 2 0 0), .fin (g 1 1 0), .fin (g 0 2 0), .fin (g 1 0 1), .fin (g 0 1 1)] ∧
    specvolSel3 (Fl.fin SA) (.fin CT) (.fin p) = some [.fin (g 1 0 0), .fin (g 0 1 0), .fin (g 2 0 0), .fin (g 1 1 0), .fin (g 0 2 0), .fin (g 1 0 1), .fin (g 0 1 1), .fin (g 3 0 0), .fin (g 2 1 0), .fin (g 1 2 0), .fin (g 0 3 0), .fin (g 2 0 1), .fin (g 1 1 1), .fin (g 0 2 1), .fin (g 1 0 2), .fin (g 0 1 2)] := by
  obtain ⟨x, y, z, x2, e, hx, hy, hz, h2⟩ := h.args R
  have h0 := h.x.1
  have b000 : Tr specvolT (tab 0 0 0 SA CT p) _ := specvol_tr R hx hy hz
  obtain ⟨w100, e100, b100⟩ := d_s_tr R hx hy hz h0
  obtain ⟨w010, e010, b010⟩ := d_t_tr R hx hy hz
  obtain ⟨w001, e001, b001⟩ := d_p_tr R hx hy hz
  obtain ⟨w200, e200, b200⟩ := d_ss_tr R hx hy hz h2 h0
  obtain ⟨w110, e110, b110⟩ := d_st_tr R hx hy hz h0
  obtain ⟨w020, e020, b020⟩ := d_tt_tr R hx hy hz
  obtain ⟨w101, e101, b101⟩ := d_sp_tr R hx hy hz h0
  obtain ⟨w011, e011, b011⟩ := d_tp_tr R hx hy hz
  obtain ⟨w002, e002, b002⟩ := d_pp_tr R hx hy hz
  obtain ⟨w300, e300, b300⟩ := d_sss_tr R hx hy hz h2 h0
  obtain ⟨w210, e210, b210⟩ := d_sst_tr R hx hy hz h2 h0
  obtain ⟨w120, e120, b120⟩ := d_stt_tr R hx hy hz h0
  obtain ⟨w030, e030, b030⟩ := d_ttt_tr R hx hy hz
  obtain ⟨w201, e201, b201⟩ := d_ssp_tr R hx hy hz h2 h0
  obtain ⟨w111, e111, b111⟩ := d_stp_tr R hx hy hz h0
  obtain ⟨w021, e021, b021⟩ := d_ttp_tr R hx hy hz
  obtain ⟨w102, e102, b102⟩ := d_spp_tr R hx hy hz h0
  obtain ⟨w012, e012, b012⟩ := d_tpp_tr R hx hy hz
  obtain ⟨w003, e003, b003⟩ := d_ppp_tr R hx hy hz
  obtain ⟨f000, q000, c000⟩ := b000.close (η := 2.2e-17) (by decide +kernel)
  obtain ⟨f100, rfl, c100⟩ := b100.close (η := 1.2e-18) (by decide +kernel)
  obtain ⟨f010, rfl, c010⟩ := b010.close (η := 8.0e-20) (by decide +kernel)
  obtain ⟨f001, rfl, c001⟩ := b001.close (η := 1.4e-22) (by decide +kernel)
  obtain ⟨f200, rfl, c200⟩ := b200.close (η := 7.1e-20) (by decide +kernel)
  obtain ⟨f110, rfl, c110⟩ := b110.close (η := 2.4e-21) (by decide +kernel)
  obtain ⟨f020, rfl, c020⟩ := b020.close (η := 2.3e-21) (by decide +kernel)
  obtain ⟨f101, rfl, c101⟩ := b101.close (η := 5.4e-24) (by decide +kernel)
  obtain ⟨f011, rfl, c011⟩ := b011.close (η := 1.5e-24) (by decide +kernel)
  obtain ⟨f002, rfl, c002⟩ := b002.close (η := 3.8e-27) (by decide +kernel)
  obtain ⟨f300, rfl, c300⟩ := b300.close (η := 3.1e-21) (by decide +kernel)
  obtain ⟨f210, rfl, c210⟩ := b210.close (η := 7.0e-23) (by decide +kernel)
  obtain ⟨f120, rfl, c120⟩ := b120.close (η := 4.9e-23) (by decide +kernel)
  obtain ⟨f030, rfl, c030⟩ := b030.close (η := 5.4e-23) (by decide +kernel)
  obtain ⟨f201, rfl, c201⟩ := b201.close (η := 2.3e-25) (by decide +kernel)
  obtain ⟨f111, rfl, c111⟩ := b111.close (η := 3.4e-26) (by decide +kernel)
  obtain ⟨f021, rfl, c021⟩ := b021.close (η := 2.9e-26) (by decide +kernel)
  obtain ⟨f102, rfl, c102⟩ := b102.close (η := 1.2e-28) (by decide +kernel)
  obtain ⟨f012, rfl, c012⟩ := b012.close (η := 4.4e-29) (by decide +kernel)
  obtain ⟨f003, rfl, c003⟩ := b003.close (η := 5.9e-32) (by decide +kernel)
  refine ⟨fun i j k => match i, j, k with
    | 0, 0, 0 => f000
    | 1, 0, 0 => f100
    | 0, 1, 0 => f010
    | 0, 0, 1 => f001
    | 2, 0, 0 => f200
    | 1, 1, 0 => f110
    | 0, 2, 0 => f020
    | 1, 0, 1 => f101
    | 0, 1, 1 => f011
    | 0, 0, 2 => f002
    | 3, 0, 0 => f300
    | 2, 1, 0 => f210
    | 1, 2, 0 => f120
    | 0, 3, 0 => f030
    | 2, 0, 1 => f201
    | 1, 1, 1 => f111
    | 0, 2, 1 => f021
    | 1, 0, 2 => f102
    | 0, 1, 2 => f012
    | 0, 0, 3 => f003
    | _, _, _ => 0, fun i j k => tab i j k SA CT p, ?_, ?_⟩
  · intro i j k hijk
    have hi : i ≤ 3 := by omega
    have hj : j ≤ 3 := by omega
    have hk : k ≤ 3 := by omega
    interval_cases i <;> interval_cases j <;> interval_cases k <;> first | omega | assumption
  · have hg := gsw_exact h.s0 CT p
    refine ⟨?_, ?_, ?_, ?_, ?_, ?_, ?_, ?_, hg⟩
    · simp only [specvol, e, q000]
    · simp only [specvolFirst, e, e100, e010, e001, e200, e110, e020, e101, e011, e002, e300, e210, e120, e030, e201, e111, e021, e102, e012, e003, Option.bind_eq_bind, Option.bind_some, Option.pure_def]
    · simp only [specvolSecond, e, e100, e010, e001, e200, e110, e020, e101, e011, e002, e300, e210, e120, e030, e201, e111, e021, e102, e012, e003, Option.bind_eq_bind, Option.bind_some, Option.pure_def]
    · simp only [specvolThird, e, e100, e010, e001, e200, e110, e020, e101, e011, e002, e300, e210, e120, e030, e201, e111, e021, e102, e012, e003, Option.bind_eq_bind, Option.bind_some, Option.pure_def]
    · simp only [specvolST, e, e100, e010, e001, e200, e110, e020, e101, e011, e002, e300, e210, e120, e030, e201, e111, e021, e102, e012, e003, Option.bind_eq_bind, Option.bind_some, Option.pure_def]
    · simp only [specvolP, e, e100, e010, e001, e200, e110, e020, e101, e011, e002, e300, e210, e120, e030, e201, e111, e021, e102, e012, e003, Option.bind_eq_bind, Option.bind_some, Option.pure_def]
    · simp only [specvolSel2, e, e100, e010, e001, e200, e110, e020, e101, e011, e002, e300, e210, e120, e030, e201, e111, e021, e102, e012, e003, Option.bind_eq_bind, Option.bind_some, Option.pure_def]
    · simp only [specvolSel3, e, e100, e010, e001, e200, e110, e020, e101, e011, e002, e300, e210, e120, e030, e201, e111, e021, e102, e012, e003, Option.bind_eq_bind, Option.bind_some, Option.pure_def]

/-- The hypotheses hold for IEEE rounding at a typical point. -/
example : StdRound (Rounding53.rndNear (α := ℝ)) ∧ Ocean 35 10 2000 :=
  ⟨Rounding53.rndNear_std, by norm_num, by norm_num, by norm_num, by norm_num, by norm_num, by norm_num⟩

end Gsw
