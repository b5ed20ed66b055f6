import Verif.Props.EosGsw
import Verif.Props.EosJmd95
import Verif.Props.EosJmdfwg06
import Verif.Lemmas.PolyBox
import Mathlib.Analysis.Calculus.Deriv.MeanValue

/-!
# The equations of state on the oceanographic range (C94)

On `0 ≤ s ≤ 42`, `-2 ≤ t ≤ 40`, `0 ≤ p ≤ 10000` (for gsw, `-6 ≤ CT ≤ 40`) every equation of state is defined, lies in
a physical range, and gets strictly denser with salinity and with pressure.
-/

theorem PolyBox.strictMonoOn_of {f f' : ℝ → ℝ} {a b : ℝ} {S : Set ℝ} (hS : Set.Icc a b ⊆ S)
    (h : ∀ x ∈ Set.Icc a b, HasDerivWithinAt f (f' x) S x ∧ 0 < f' x) : StrictMonoOn f (Set.Icc a b) := by
  have hi : interior (Set.Icc a b) ⊆ Set.Icc a b := interior_subset
  refine strictMonoOn_of_hasDerivWithinAt_pos (f' := f') (convex_Icc a b) ?_ ?_ ?_
  · exact fun x hx => ((h x hx).1.mono hS).continuousWithinAt
  · exact fun x hx => (h x (hi hx)).1.mono (hi.trans hS)
  · exact fun x hx => (h x (hi hx)).2

namespace Gsw
open FloatLike Interp Eos PolyBox
open Fl hiding nan

/-- Variables on the box `0.77 ≤ x ≤ 1.29`, `-0.15 ≤ y ≤ 1`, `0 ≤ z ≤ 1`. -/
def bx : P3 := x3 (103 / 100) (26 / 100)
/-- See `bx`. -/
def bY : P3 := y3 (425 / 1000) (575 / 1000)
/-- See `bx`. -/
def bz : P3 := z3 (1 / 2) (1 / 2)
/-- The coefficients as polynomials. -/
def vP (i j k : ℕ) : P3 := k3 (vtab i j k)

theorem val_v (u w q : ℝ) (i j k : ℕ) : val u w q (vP i j k) = vR i j k := val_k _
theorem val_c (u w q : ℝ) (a : ℚ) : val u w q (k3 a) = cR a := val_k _

theorem poly_bounds {x y z : ℝ} (hx : 0.77 ≤ x ∧ x ≤ 1.29) (hy : -0.15 ≤ y ∧ y ≤ 1) (hz : 0 ≤ z ∧ z ≤ 1) :
    (0.0009 < pSpecvol vR x y z ∧ pSpecvol vR x y z < 0.00102) ∧ n_s cR vR x y z < 0 ∧ n_p cR vR x y z < 0 ∧
      0 < n_pp cR vR x y z := by
  obtain ⟨u, hu, rfl⟩ := unit_of (x := x) (m := 103 / 100) (h := 26 / 100) (by norm_num) (by norm_num at hx ⊢; exact hx.1)
    (by norm_num at hx ⊢; exact hx.2)
  obtain ⟨w, hw, rfl⟩ := unit_of (x := y) (m := 425 / 1000) (h := 575 / 1000) (by norm_num) (by norm_num at hy ⊢; exact hy.1)
    (by norm_num at hy ⊢; exact hy.2)
  obtain ⟨q, hq, rfl⟩ := unit_of (x := z) (m := 1 / 2) (h := 1 / 2) (by norm_num) (by norm_num at hz ⊢; exact hz.1)
    (by norm_num at hz ⊢; exact hz.2)
  have ex : val u w q bx = _ := val_x (103 / 100) (26 / 100)
  have ey : val u w q bY = _ := val_y (425 / 1000) (575 / 1000)
  have ez : val u w q bz = _ := val_z (1 / 2) (1 / 2)
  rw [← ex, ← ey, ← ez]
  have e0 : pSpecvol vR (val u w q bx) (val u w q bY) (val u w q bz) = val u w q (pSpecvol vP bx bY bz) := by
    simp only [pSpecvol, val_add, val_mul, val_v]
  have e1 : n_s cR vR (val u w q bx) (val u w q bY) (val u w q bz) = val u w q (n_s k3 vP bx bY bz) := by
    simp only [n_s, val_add, val_mul, val_v, val_c]
  have e2 : n_p cR vR (val u w q bx) (val u w q bY) (val u w q bz) = val u w q (n_p k3 vP bx bY bz) := by
    simp only [n_p, val_add, val_mul, val_v, val_c]
  have e3 : n_pp cR vR (val u w q bx) (val u w q bY) (val u w q bz) = val u w q (n_pp k3 vP bx bY bz) := by
    simp only [n_pp, val_add, val_mul, val_v, val_c]
  rw [e0, e1, e2, e3]
  have b0 := val_bound hu hw hq (pSpecvol vP bx bY bz)
  have b1 := val_bound hu hw hq (n_s k3 vP bx bY bz)
  have b2 := val_bound hu hw hq (n_p k3 vP bx bY bz)
  have b3 := val_bound hu hw hq (n_pp k3 vP bx bY bz)
  have c0 : (0.0009 : ℚ) < low (pSpecvol vP bx bY bz) := by decide +kernel
  have c0' : high (pSpecvol vP bx bY bz) < (0.00102 : ℚ) := by decide +kernel
  have c1 : high (n_s k3 vP bx bY bz) < 0 := by decide +kernel
  have c2 : high (n_p k3 vP bx bY bz) < 0 := by decide +kernel
  have c3 : 0 < low (n_pp k3 vP bx bY bz) := by decide +kernel
  have d0 : ((0.0009 : ℚ) : ℝ) < low (pSpecvol vP bx bY bz) := by exact_mod_cast c0
  have d0' : (high (pSpecvol vP bx bY bz) : ℝ) < (0.00102 : ℚ) := by exact_mod_cast c0'
  have d1 : (high (n_s k3 vP bx bY bz) : ℝ) < 0 := by exact_mod_cast c1
  have d2 : (high (n_p k3 vP bx bY bz) : ℝ) < 0 := by exact_mod_cast c2
  have d3 : (0 : ℝ) < low (n_pp k3 vP bx bY bz) := by exact_mod_cast c3
  refine ⟨⟨lt_of_eq_of_lt (by norm_num) (d0.trans_le b0.1), (b0.2.trans_lt d0').trans_eq (by norm_num)⟩,
    b1.2.trans_lt d1, b2.2.trans_lt d2, d3.trans_le b3.1⟩

/-- The oceanographic range. -/
structure Ocean (SA CT p : ℝ) : Prop where
  s0 : 0 ≤ SA
  s1 : SA ≤ 42
  t0 : -6 ≤ CT
  t1 : CT ≤ 40
  p0 : 0 ≤ p
  p1 : p ≤ 10000

theorem Ocean.x {SA CT p : ℝ} (h : Ocean SA CT p) : 0.77 ≤ X SA ∧ X SA ≤ 1.29 := by
  have hq := X_sq h.s0
  have hx := X_pos h.s0
  have h1 : sf * SA + (offset : ℚ) ≤ 1.29 * 1.29 := by
    have := h.s1
    have : sf * SA ≤ sf * 42 := by gcongr; exact sf_pos.le
    have : sf * 42 + (offset : ℚ) ≤ 1.29 * 1.29 := by norm_num [sf, sfac, offset]
    linarith
  have h0 : (0.77 : ℝ) * 0.77 ≤ sf * SA + (offset : ℚ) := by
    have := mul_nonneg sf_pos.le h.s0
    have : (0.77 : ℝ) * 0.77 ≤ (offset : ℚ) := by norm_num [offset]
    linarith
  constructor <;> nlinarith

theorem tf_eq : tf = 1 / 40 := by norm_num [tf, tfac]
theorem pf_eq : pf = 1 / 10000 := by norm_num [pf, pfac]

theorem Ocean.bounds {SA CT p : ℝ} (h : Ocean SA CT p) :
    (0.0009 < tab 0 0 0 SA CT p ∧ tab 0 0 0 SA CT p < 0.00102) ∧ tab 1 0 0 SA CT p < 0 ∧ tab 0 0 1 SA CT p < 0 ∧
      0 < tab 0 0 2 SA CT p := by
  have hy : -0.15 ≤ CT * tf ∧ CT * tf ≤ 1 := by
    rw [tf_eq]; exact ⟨by linarith [h.t0], by linarith [h.t1]⟩
  have hz : 0 ≤ p * pf ∧ p * pf ≤ 1 := by
    rw [pf_eq]; exact ⟨by linarith [h.p0], by linarith [h.p1]⟩
  obtain ⟨h0, h1, h2, h3⟩ := poly_bounds h.x hy hz
  have hp : 0 < pf := by rw [pf_eq]; norm_num
  refine ⟨h0, ?_, ?_, ?_⟩
  · show n_s cR vR (X SA) (CT * tf) (p * pf) / X SA * (1 / 2 * sf) < 0
    have := div_neg_of_neg_of_pos h1 (X_pos h.s0)
    have := sf_pos
    nlinarith
  · show n_p cR vR (X SA) (CT * tf) (p * pf) * pf < 0
    exact mul_neg_of_neg_of_pos h2 hp
  · show 0 < n_pp cR vR (X SA) (CT * tf) (p * pf) * (pf * pf)
    exact mul_pos h3 (mul_pos hp hp)

theorem specvol_tab {SA : ℝ} (h : 0 ≤ SA) (CT p : ℝ) : specvol (Fl.fin SA) (.fin CT) (.fin p) = .fin (tab 0 0 0 SA CT p) := by
  simp only [specvol, process_fin h, vf_eq, pSpecvol_fin]
  rfl

/-- **C94** On the oceanographic range the specific volume lies between 0.0009 and 0.00102 m³/kg, and the returned
derivatives have the physical signs: negative in salinity, negative in pressure. -/
theorem gsw_ocean {SA CT p : ℝ} (h : Ocean SA CT p) : ∃ v a b c : ℝ, specvol (Fl.fin SA) (.fin CT) (.fin p) = .fin v ∧
    0.0009 < v ∧ v < 0.00102 ∧ specvolST (Fl.fin SA) (.fin CT) (.fin p) = some (.fin a, .fin b) ∧ a < 0 ∧
    specvolP (Fl.fin SA) (.fin CT) (.fin p) = some (.fin c) ∧ c < 0 := by
  have hx := (X_pos h.s0).ne'
  obtain ⟨⟨h0, h0'⟩, h1, h2, -⟩ := h.bounds
  refine ⟨_, _, tab 0 1 0 SA CT p, _, specvol_tab h.s0 CT p, h0, h0', ?_, h1, ?_, h2⟩
  · simp only [specvolST, process_fin h.s0, vf_eq, d_s_fin vR _ _ hx, d_t_fin, Option.bind_eq_bind, Option.bind_some,
      Option.pure_def]
    rfl
  · simp only [specvolP, process_fin h.s0, vf_eq, d_p_fin]
    rfl

/-- **C94** On the oceanographic range specific volume strictly decreases with salinity. -/
theorem gsw_mono_s {SA SA' CT p : ℝ} (h : Ocean SA CT p) (h' : Ocean SA' CT p) (hlt : SA < SA') : ∃ v v' : ℝ,
    specvol (Fl.fin SA) (.fin CT) (.fin p) = .fin v ∧ specvol (Fl.fin SA') (.fin CT) (.fin p) = .fin v' ∧ v' < v := by
  refine ⟨_, _, specvol_tab h.s0 CT p, specvol_tab h'.s0 CT p, ?_⟩
  have : StrictMonoOn (fun s => -tab 0 0 0 s CT p) (Set.Icc 0 42) :=
    strictMonoOn_of (f' := fun s => -tab 1 0 0 s CT p) (S := Set.Ici 0) (fun x hx => hx.1) fun x hx =>
      ⟨((tab_table 0 0 0 (by omega)).1 x hx.1 CT p).fun_neg, neg_pos.mpr
        (Ocean.bounds ⟨hx.1, hx.2, h.t0, h.t1, h.p0, h.p1⟩).2.1⟩
  exact neg_lt_neg_iff.mp (this ⟨h.s0, h.s1⟩ ⟨h'.s0, h'.s1⟩ hlt)

/-- **C94** On the oceanographic range specific volume strictly decreases with pressure. -/
theorem gsw_mono_p {SA CT p p' : ℝ} (h : Ocean SA CT p) (h' : Ocean SA CT p') (hlt : p < p') : ∃ v v' : ℝ,
    specvol (Fl.fin SA) (.fin CT) (.fin p) = .fin v ∧ specvol (Fl.fin SA) (.fin CT) (.fin p') = .fin v' ∧ v' < v := by
  refine ⟨_, _, specvol_tab h.s0 CT p, specvol_tab h.s0 CT p', ?_⟩
  have : StrictMonoOn (fun q => -tab 0 0 0 SA CT q) (Set.Icc 0 10000) :=
    strictMonoOn_of (f' := fun q => -tab 0 0 1 SA CT q) (S := Set.univ) (fun x hx => trivial) fun x hx =>
      ⟨((tab_table 0 0 0 (by omega)).2.2 SA h.s0 CT x).fun_neg.hasDerivWithinAt, neg_pos.mpr
        (Ocean.bounds ⟨h.s0, h.s1, h.t0, h.t1, hx.1, hx.2⟩).2.2.1⟩
  exact neg_lt_neg_iff.mp (this ⟨h.p0, h.p1⟩ ⟨h'.p0, h'.p1⟩ hlt)

/-- The range is not empty. -/
example : Ocean 35 10 2000 := ⟨by norm_num, by norm_num, by norm_num, by norm_num, by norm_num, by norm_num⟩

end Gsw

namespace Jmd95
open FloatLike Interp Eos PolyBox
open Fl hiding nan

/-- Variables on the box `0 ≤ √s ≤ 6.5`, `-2 ≤ t ≤ 40`, `0 ≤ p ≤ 10000`. -/
def bx : P3 := x3 (13 / 4) (13 / 4)
/-- See `bx`. -/
def bY : P3 := y3 19 21
/-- See `bx`. -/
def bz : P3 := z3 5000 5000
/-- The coefficients as polynomials. -/
def kP (n : Co) : P3 := k3 (co n)

theorem val_co (u w q : ℝ) (n : Co) : val u w q (kP n) = kR n := val_k _
theorem val_c (u w q : ℝ) (a : ℚ) : val u w q (k3 a) = cR a := val_k _

/-- The oceanographic range. -/
structure Ocean (s t p : ℝ) : Prop where
  s0 : 0 ≤ s
  s1 : s ≤ 42
  t0 : -2 ≤ t
  t1 : t ≤ 40
  p0 : 0 ≤ p
  p1 : p ≤ 10000

theorem poly_bounds {r t p : ℝ} (hr : 0 ≤ r ∧ r ≤ 6.5) (ht : -2 ≤ t ∧ t ≤ 40) (hp : 0 ≤ p ∧ p ≤ 10000) :
    176000 < bulk kR r (r * r) t p ∧ (176000 < bulk kR r (r * r) t p - p) ∧ bulkS cR kR r (r * r) t p < 667 ∧
    0 < bulkS cR kR r (r * r) t p ∧
    973 < dens0InS kR r (r * r) t ∧ dens0InS kR r (r * r) t < 1040 ∧ 0.68 < dens0S cR kR r (r * r) t ∧
    0 < bulk kR r (r * r) t p - p * (pK1plusK2 kR r (r * r) t (pK2 kR (r * r) t p) + pK2 kR (r * r) t p) := by
  obtain ⟨u, hu, rfl⟩ := unit_of (x := r) (m := 13 / 4) (h := 13 / 4) (by norm_num) (by norm_num at hr ⊢; exact hr.1)
    (by norm_num at hr ⊢; exact hr.2)
  obtain ⟨w, hw, rfl⟩ := unit_of (x := t) (m := 19) (h := 21) (by norm_num) (by norm_num at ht ⊢; exact ht.1)
    (by norm_num at ht ⊢; exact ht.2)
  obtain ⟨q, hq, rfl⟩ := unit_of (x := p) (m := 5000) (h := 5000) (by norm_num) (by norm_num at hp ⊢; exact hp.1)
    (by norm_num at hp ⊢; exact hp.2)
  have ex : val u w q bx = _ := val_x (13 / 4) (13 / 4)
  have ey : val u w q bY = _ := val_y 19 21
  have ez : val u w q bz = _ := val_z 5000 5000
  rw [← ex, ← ey, ← ez]
  have e0 : bulk kR (val u w q bx) (val u w q bx * val u w q bx) (val u w q bY) (val u w q bz) = val u w q (bulk kP bx (bx * bx) bY bz) := by
    simp only [bulk, val_add, val_mul, val_co]
  have e1 : bulkS cR kR (val u w q bx) (val u w q bx * val u w q bx) (val u w q bY) (val u w q bz) = val u w q (bulkS k3 kP bx (bx * bx) bY bz) := by
    simp only [bulkS, val_add, val_mul, val_co, val_c]
  have e2 : dens0InS kR (val u w q bx) (val u w q bx * val u w q bx) (val u w q bY) = val u w q (dens0InS kP bx (bx * bx) bY) := by
    simp only [dens0InS, val_add, val_mul, val_co]
  have e3 : dens0S cR kR (val u w q bx) (val u w q bx * val u w q bx) (val u w q bY) = val u w q (dens0S k3 kP bx (bx * bx) bY) := by
    simp only [dens0S, val_add, val_mul, val_co, val_c]
  have e4 : pK1plusK2 kR (val u w q bx) (val u w q bx * val u w q bx) (val u w q bY) (pK2 kR (val u w q bx * val u w q bx) (val u w q bY) (val u w q bz))
      + pK2 kR (val u w q bx * val u w q bx) (val u w q bY) (val u w q bz)
      = val u w q (pK1plusK2 kP bx (bx * bx) bY (pK2 kP (bx * bx) bY bz) + pK2 kP (bx * bx) bY bz) := by
    simp only [pK1plusK2, pK2, val_add, val_mul, val_co]
  rw [e0, e1, e2, e3, e4, ← val_sub, ← val_mul, ← val_sub]
  have b0 := val_bound hu hw hq (bulk kP bx (bx * bx) bY bz)
  have b0' := val_bound hu hw hq (bulk kP bx (bx * bx) bY bz - bz)
  have b1 := val_bound hu hw hq (bulkS k3 kP bx (bx * bx) bY bz)
  have b2 := val_bound hu hw hq (dens0InS kP bx (bx * bx) bY)
  have b3 := val_bound hu hw hq (dens0S k3 kP bx (bx * bx) bY)
  have b4 := val_bound hu hw hq (bulk kP bx (bx * bx) bY bz - bz * (pK1plusK2 kP bx (bx * bx) bY (pK2 kP (bx * bx) bY bz) + pK2 kP (bx * bx) bY bz))
  have c0 : 176000 < low (bulk kP bx (bx * bx) bY bz) := by decide +kernel
  have c0' : 176000 < low (bulk kP bx (bx * bx) bY bz - bz) := by decide +kernel
  have c1 : high (bulkS k3 kP bx (bx * bx) bY bz) < 667 := by decide +kernel
  have c1' : 0 < low (bulkS k3 kP bx (bx * bx) bY bz) := by decide +kernel
  have c2 : 973 < low (dens0InS kP bx (bx * bx) bY) := by decide +kernel
  have c2' : high (dens0InS kP bx (bx * bx) bY) < 1040 := by decide +kernel
  have c3 : (0.68 : ℚ) < low (dens0S k3 kP bx (bx * bx) bY) := by decide +kernel
  have c4 : 0 < low (bulk kP bx (bx * bx) bY bz - bz * (pK1plusK2 kP bx (bx * bx) bY (pK2 kP (bx * bx) bY bz) + pK2 kP (bx * bx) bY bz)) := by
    decide +kernel
  have d0 : (176000 : ℝ) < low (bulk kP bx (bx * bx) bY bz) := by exact_mod_cast c0
  have d0' : (176000 : ℝ) < low (bulk kP bx (bx * bx) bY bz - bz) := by exact_mod_cast c0'
  have d1 : (high (bulkS k3 kP bx (bx * bx) bY bz) : ℝ) < 667 := by exact_mod_cast c1
  have d1' : (0 : ℝ) < low (bulkS k3 kP bx (bx * bx) bY bz) := by exact_mod_cast c1'
  have d2 : (973 : ℝ) < low (dens0InS kP bx (bx * bx) bY) := by exact_mod_cast c2
  have d2' : (high (dens0InS kP bx (bx * bx) bY) : ℝ) < 1040 := by exact_mod_cast c2'
  have d3 : ((0.68 : ℚ) : ℝ) < low (dens0S k3 kP bx (bx * bx) bY) := by exact_mod_cast c3
  have d4 : (0 : ℝ) < low (bulk kP bx (bx * bx) bY bz - bz * (pK1plusK2 kP bx (bx * bx) bY (pK2 kP (bx * bx) bY bz) + pK2 kP (bx * bx) bY bz)) := by
    exact_mod_cast c4
  exact ⟨d0.trans_le b0.1, d0'.trans_le b0'.1, b1.2.trans_lt d1, d1'.trans_le b1.1, d2.trans_le b2.1, b2.2.trans_lt d2',
    lt_of_eq_of_lt (by norm_num) (d3.trans_le b3.1), d4.trans_le b4.1⟩

theorem Ocean.bounds {s t p : ℝ} (h : Ocean s t p) :
    176000 < K s t p ∧ 176000 < K s t p - p ∧ bulkS cR kR (Real.sqrt s) s t p < 667 ∧ 0 < bulkS cR kR (Real.sqrt s) s t p ∧
    973 < rho0 s t ∧ rho0 s t < 1040 ∧ 0.68 < dens0S cR kR (Real.sqrt s) s t ∧
    0 < K s t p - p * (pK1plusK2 kR (Real.sqrt s) s t (pK2 kR s t p) + pK2 kR s t p) := by
  have hr : 0 ≤ Real.sqrt s ∧ Real.sqrt s ≤ 6.5 := by
    refine ⟨Real.sqrt_nonneg s, ?_⟩
    rw [Real.sqrt_le_left (by norm_num)]
    have := h.s1
    norm_num
    linarith
  have := poly_bounds hr ⟨h.t0, h.t1⟩ ⟨h.p0, h.p1⟩
  rw [Real.mul_self_sqrt h.s0] at this
  exact this

theorem Ocean.dS_pos {s t p : ℝ} (h : Ocean s t p) : 0 < dS s t p := by
  obtain ⟨h1, h2, h3, h4, h5, h6, h7, -⟩ := h.bounds
  have hd : 0 < K s t p - p := by linarith
  apply div_pos _ hd
  rw [sub_pos, div_mul_eq_mul_div, div_lt_iff₀ hd]
  have a1 : rho0 s t * p ≤ 1040 * 10000 := by
    have := h.p0
    have := h.p1
    gcongr
  have a2 : rho0 s t * p * bulkS cR kR (Real.sqrt s) s t p ≤ 1040 * 10000 * 667 := by
    have : 0 ≤ 1040 * (10000 : ℝ) := by norm_num
    gcongr
  have a3 : 0.68 * 176000 * 176000 ≤ dens0S cR kR (Real.sqrt s) s t * K s t p * (K s t p - p) := by
    gcongr
  norm_num at a2 a3
  linarith

theorem Ocean.dP_pos {s t p : ℝ} (h : Ocean s t p) : 0 < dP s t p := by
  obtain ⟨h1, h2, h3, h4, h5, h6, h7, h8⟩ := h.bounds
  have hd : 0 < K s t p - p := by linarith
  exact div_pos (mul_pos (by linarith) h8) (mul_pos hd hd)

theorem Ocean.ne {s t p : ℝ} (h : Ocean s t p) : K s t p ≠ 0 ∧ K s t p ≠ p := by
  obtain ⟨h1, h2, -⟩ := h.bounds
  exact ⟨by linarith, fun e => by linarith⟩

/-- **C94** On the oceanographic range jmd95 is defined, its density lies between 973 and 1103 kg/m³, and the returned
derivatives in salinity and in pressure are strictly positive. -/
theorem jmd95_ocean {s t p : ℝ} (h : Ocean s t p) : ∃ ρ a b c : ℝ, rho (Fl.fin s) (.fin t) (.fin p) = some (.fin ρ) ∧
    973 < ρ ∧ ρ < 1103 ∧ rhoST (Fl.fin s) (.fin t) (.fin p) = some (.fin a, .fin b) ∧ 0 < a ∧
    rhoP (Fl.fin s) (.fin t) (.fin p) = some (.fin c) ∧ 0 < c := by
  obtain ⟨h1, h2, h3, h4, h5, h6, h7, h8⟩ := h.bounds
  have hK : 0 < K s t p := by linarith
  have hq : 0 ≤ p / K s t p := div_nonneg h.p0 hK.le
  have hq1 : p / K s t p < 10 / 176 := by
    rw [div_lt_iff₀ hK]
    have := h.p1
    linarith
  have hd : 0 < 1 - p / K s t p := by linarith
  refine ⟨_, _, _, _, rho_eq h.s0 h.ne.1 h.ne.2, ?_, ?_, rhoST_val h.s0 h.ne.2, h.dS_pos, rhoP_val h.s0 h.ne.2, h.dP_pos⟩
  · unfold density
    rw [lt_div_iff₀ hd]
    nlinarith
  · unfold density
    rw [div_lt_iff₀ hd]
    linarith

/-- **C94** On the oceanographic range density strictly increases with salinity. -/
theorem jmd95_mono_s {s s' t p : ℝ} (h : Ocean s t p) (h' : Ocean s' t p) (hlt : s < s') : ∃ a b : ℝ,
    rho (Fl.fin s) (.fin t) (.fin p) = some (.fin a) ∧ rho (Fl.fin s') (.fin t) (.fin p) = some (.fin b) ∧ a < b := by
  refine ⟨_, _, rho_eq h.s0 h.ne.1 h.ne.2, rho_eq h'.s0 h'.ne.1 h'.ne.2, ?_⟩
  have : StrictMonoOn (fun s => density s t p) (Set.Icc 0 42) :=
    strictMonoOn_of (f' := fun s => dS s t p) (S := Set.Ici 0) (fun x hx => hx.1) fun x hx =>
      have hx' : Ocean x t p := ⟨hx.1, hx.2, h.t0, h.t1, h.p0, h.p1⟩
      ⟨density_deriv_s hx.1 hx'.ne.1 hx'.ne.2, hx'.dS_pos⟩
  exact this ⟨h.s0, h.s1⟩ ⟨h'.s0, h'.s1⟩ hlt

/-- **C94** On the oceanographic range density strictly increases with pressure. -/
theorem jmd95_mono_p {s t p p' : ℝ} (h : Ocean s t p) (h' : Ocean s t p') (hlt : p < p') : ∃ a b : ℝ,
    rho (Fl.fin s) (.fin t) (.fin p) = some (.fin a) ∧ rho (Fl.fin s) (.fin t) (.fin p') = some (.fin b) ∧ a < b := by
  refine ⟨_, _, rho_eq h.s0 h.ne.1 h.ne.2, rho_eq h'.s0 h'.ne.1 h'.ne.2, ?_⟩
  have : StrictMonoOn (fun p => density s t p) (Set.Icc 0 10000) :=
    strictMonoOn_of (f' := fun p => dP s t p) (S := Set.univ) (fun x hx => trivial) fun x hx =>
      have hx' : Ocean s t x := ⟨h.s0, h.s1, h.t0, h.t1, hx.1, hx.2⟩
      ⟨(density_deriv_p hx'.ne.1 hx'.ne.2).hasDerivWithinAt, hx'.dP_pos⟩
  exact this ⟨h.p0, h.p1⟩ ⟨h'.p0, h'.p1⟩ hlt

/-- The range is not empty. -/
example : Ocean 35 10 2000 := ⟨by norm_num, by norm_num, by norm_num, by norm_num, by norm_num, by norm_num⟩

end Jmd95

namespace Jmdfwg06
open FloatLike Interp Eos PolyBox
open Fl hiding nan

/-- Variables on the box `0 ≤ √s ≤ 6.5`, `-2 ≤ t ≤ 40`, `0 ≤ p ≤ 10000`. -/
def bx : P3 := x3 (13 / 4) (13 / 4)
/-- See `bx`. -/
def bY : P3 := y3 19 21
/-- See `bx`. -/
def bz : P3 := z3 5000 5000
/-- The coefficients as polynomials. -/
def kP (n : Co) : P3 := k3 (co n)

theorem val_co (u w q : ℝ) (n : Co) : val u w q (kP n) = kR n := val_k _
theorem val_c (u w q : ℝ) (a : ℚ) : val u w q (k3 a) = cR a := val_k _

/-- The oceanographic range. -/
structure Ocean (s t p : ℝ) : Prop where
  s0 : 0 ≤ s
  s1 : s ≤ 42
  t0 : -2 ≤ t
  t1 : t ≤ 40
  p0 : 0 ≤ p
  p1 : p ≤ 10000

/-- Numerator on the box. -/
def pN : P3 := num kP (bx * bx) bY bz (bY * bY)
/-- Denominator on the box. -/
def pD : P3 := den kP bx (bx * bx) bY bz (bY * bY)
/-- Sign of the salinity derivative. -/
def pS : P3 := numS k3 kP (bx * bx) bY bz * pD - pN * denS k3 kP bx bY (bY * bY)
/-- Sign of the pressure derivative. -/
def pP : P3 := numP_ k3 kP (bx * bx) (bY * bY) bz * pD - pN * denP_ k3 kP bY bz (bY * bY)

theorem poly_bounds {r t p : ℝ} (hr : 0 ≤ r ∧ r ≤ 6.5) (ht : -2 ≤ t ∧ t ≤ 40) (hp : 0 ≤ p ∧ p ≤ 10000) :
    0 < den kR r (r * r) t p (t * t) ∧ 970 * den kR r (r * r) t p (t * t) < num kR (r * r) t p (t * t) ∧
    num kR (r * r) t p (t * t) < 1110 * den kR r (r * r) t p (t * t) ∧
    0 < numS cR kR (r * r) t p * den kR r (r * r) t p (t * t) - num kR (r * r) t p (t * t) * denS cR kR r t (t * t) ∧
    0 < numP_ cR kR (r * r) (t * t) p * den kR r (r * r) t p (t * t) - num kR (r * r) t p (t * t) * denP_ cR kR t p (t * t) := by
  obtain ⟨u, hu, rfl⟩ := unit_of (x := r) (m := 13 / 4) (h := 13 / 4) (by norm_num) (by norm_num at hr ⊢; exact hr.1)
    (by norm_num at hr ⊢; exact hr.2)
  obtain ⟨w, hw, rfl⟩ := unit_of (x := t) (m := 19) (h := 21) (by norm_num) (by norm_num at ht ⊢; exact ht.1)
    (by norm_num at ht ⊢; exact ht.2)
  obtain ⟨q, hq, rfl⟩ := unit_of (x := p) (m := 5000) (h := 5000) (by norm_num) (by norm_num at hp ⊢; exact hp.1)
    (by norm_num at hp ⊢; exact hp.2)
  have ex : val u w q bx = _ := val_x (13 / 4) (13 / 4)
  have ey : val u w q bY = _ := val_y 19 21
  have ez : val u w q bz = _ := val_z 5000 5000
  rw [← ex, ← ey, ← ez]
  have e0 : num kR (val u w q bx * val u w q bx) (val u w q bY) (val u w q bz) (val u w q bY * val u w q bY) = val u w q pN := by
    simp only [pN, num, val_add, val_mul, val_co]
  have e1 : den kR (val u w q bx) (val u w q bx * val u w q bx) (val u w q bY) (val u w q bz) (val u w q bY * val u w q bY) = val u w q pD := by
    simp only [pD, den, val_add, val_mul, val_co]
  rw [e0, e1]
  have e2 : numS cR kR (val u w q bx * val u w q bx) (val u w q bY) (val u w q bz) * val u w q pD
      - val u w q pN * denS cR kR (val u w q bx) (val u w q bY) (val u w q bY * val u w q bY) = val u w q pS := by
    simp only [pS, val_sub, numS, denS, val_add, val_mul, val_co, val_c]
  have e3 : numP_ cR kR (val u w q bx * val u w q bx) (val u w q bY * val u w q bY) (val u w q bz) * val u w q pD
      - val u w q pN * denP_ cR kR (val u w q bY) (val u w q bz) (val u w q bY * val u w q bY) = val u w q pP := by
    simp only [pP, val_sub, numP_, denP_, val_add, val_mul, val_co, val_c]
  rw [e2, e3]
  have b1 := val_bound hu hw hq pD
  have b2 := val_bound hu hw hq pS
  have b3 := val_bound hu hw hq pP
  have b4 := val_bound hu hw hq (pN - k3 970 * pD)
  have b5 := val_bound hu hw hq (k3 1110 * pD - pN)
  rw [val_sub, val_mul, val_k] at b4 b5
  have c1 : 0 < low pD := by decide +kernel
  have c2 : 0 < low pS := by decide +kernel
  have c3 : 0 < low pP := by decide +kernel
  have c4 : 0 < low (pN - k3 970 * pD) := by decide +kernel
  have c5 : 0 < low (k3 1110 * pD - pN) := by decide +kernel
  have d1 : (0 : ℝ) < low pD := by exact_mod_cast c1
  have d2 : (0 : ℝ) < low pS := by exact_mod_cast c2
  have d3 : (0 : ℝ) < low pP := by exact_mod_cast c3
  have d4 : (0 : ℝ) < low (pN - k3 970 * pD) := by exact_mod_cast c4
  have d5 : (0 : ℝ) < low (k3 1110 * pD - pN) := by exact_mod_cast c5
  have f4 := b4.1
  have f5 := b5.1
  push_cast at f4 f5
  exact ⟨d1.trans_le b1.1, by linarith, by linarith, d2.trans_le b2.1, d3.trans_le b3.1⟩

theorem Ocean.bounds {s t p : ℝ} (h : Ocean s t p) :
    0 < D s t p ∧ 970 * D s t p < N s t p ∧ N s t p < 1110 * D s t p ∧
    0 < numS cR kR s t p * D s t p - N s t p * denS cR kR (Real.sqrt s) t (t * t) ∧
    0 < numP_ cR kR s (t * t) p * D s t p - N s t p * denP_ cR kR t p (t * t) := by
  have hr : 0 ≤ Real.sqrt s ∧ Real.sqrt s ≤ 6.5 := by
    refine ⟨Real.sqrt_nonneg s, ?_⟩
    rw [Real.sqrt_le_left (by norm_num)]
    have := h.s1
    norm_num
    linarith
  have := poly_bounds hr ⟨h.t0, h.t1⟩ ⟨h.p0, h.p1⟩
  rw [Real.mul_self_sqrt h.s0] at this
  exact this

theorem Ocean.dS_pos {s t p : ℝ} (h : Ocean s t p) : 0 < dS s t p := by
  obtain ⟨h1, -, -, h2, -⟩ := h.bounds
  have e : dS s t p = (numS cR kR s t p * D s t p - N s t p * denS cR kR (Real.sqrt s) t (t * t)) / (D s t p * D s t p) := by
    unfold dS
    field_simp
  rw [e]
  exact div_pos h2 (mul_pos h1 h1)

theorem Ocean.dP_pos {s t p : ℝ} (h : Ocean s t p) : 0 < dP s t p := by
  obtain ⟨h1, -, -, -, h2⟩ := h.bounds
  have e : dP s t p = (numP_ cR kR s (t * t) p * D s t p - N s t p * denP_ cR kR t p (t * t)) / (D s t p * D s t p) := by
    unfold dP
    field_simp
  rw [e]
  exact div_pos h2 (mul_pos h1 h1)

/-- **C94** On the oceanographic range jmdfwg06 is defined, its density lies between 970 and 1110 kg/m³, and the returned
derivatives in salinity and in pressure are strictly positive. -/
theorem jmdfwg06_ocean {s t p : ℝ} (h : Ocean s t p) : ∃ ρ a b c : ℝ, rho (Fl.fin s) (.fin t) (.fin p) = some (.fin ρ) ∧
    970 < ρ ∧ ρ < 1110 ∧ rhoST (Fl.fin s) (.fin t) (.fin p) = some (.fin a, .fin b) ∧ 0 < a ∧
    rhoP (Fl.fin s) (.fin t) (.fin p) = some (.fin c) ∧ 0 < c := by
  obtain ⟨h1, h2, h3, -, -⟩ := h.bounds
  refine ⟨_, _, _, _, rho_eq h.s0 h1.ne', ?_, ?_, rhoST_val h.s0 h1.ne', h.dS_pos, rhoP_val h.s0 h1.ne', h.dP_pos⟩
  · unfold density
    rwa [lt_div_iff₀ h1]
  · unfold density
    rwa [div_lt_iff₀ h1]

/-- **C94** On the oceanographic range density strictly increases with salinity. -/
theorem jmdfwg06_mono_s {s s' t p : ℝ} (h : Ocean s t p) (h' : Ocean s' t p) (hlt : s < s') : ∃ a b : ℝ,
    rho (Fl.fin s) (.fin t) (.fin p) = some (.fin a) ∧ rho (Fl.fin s') (.fin t) (.fin p) = some (.fin b) ∧ a < b := by
  refine ⟨_, _, rho_eq h.s0 h.bounds.1.ne', rho_eq h'.s0 h'.bounds.1.ne', ?_⟩
  have : StrictMonoOn (fun s => density s t p) (Set.Icc 0 42) :=
    strictMonoOn_of (f' := fun s => dS s t p) (S := Set.Ici 0) (fun x hx => hx.1) fun x hx =>
      have hx' : Ocean x t p := ⟨hx.1, hx.2, h.t0, h.t1, h.p0, h.p1⟩
      ⟨density_deriv_s hx.1 hx'.bounds.1.ne', hx'.dS_pos⟩
  exact this ⟨h.s0, h.s1⟩ ⟨h'.s0, h'.s1⟩ hlt

/-- **C94** On the oceanographic range density strictly increases with pressure. -/
theorem jmdfwg06_mono_p {s t p p' : ℝ} (h : Ocean s t p) (h' : Ocean s t p') (hlt : p < p') : ∃ a b : ℝ,
    rho (Fl.fin s) (.fin t) (.fin p) = some (.fin a) ∧ rho (Fl.fin s) (.fin t) (.fin p') = some (.fin b) ∧ a < b := by
  refine ⟨_, _, rho_eq h.s0 h.bounds.1.ne', rho_eq h'.s0 h'.bounds.1.ne', ?_⟩
  have : StrictMonoOn (fun p => density s t p) (Set.Icc 0 10000) :=
    strictMonoOn_of (f' := fun p => dP s t p) (S := Set.univ) (fun x hx => trivial) fun x hx =>
      have hx' : Ocean s t x := ⟨h.s0, h.s1, h.t0, h.t1, hx.1, hx.2⟩
      ⟨(density_deriv_p hx'.bounds.1.ne').hasDerivWithinAt, hx'.dP_pos⟩
  exact this ⟨h.p0, h.p1⟩ ⟨h'.p0, h'.p1⟩ hlt

/-- The range is not empty. -/
example : Ocean 35 10 2000 := ⟨by norm_num, by norm_num, by norm_num, by norm_num, by norm_num, by norm_num⟩

end Jmdfwg06
