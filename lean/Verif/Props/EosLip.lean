import Verif.Props.EosGswRound
import Verif.Props.SolveAccuracy
import Mathlib.Analysis.Calculus.MeanValue

/-!
# Sensitivity of the equations of state, and accuracy of the vertical solves with them (C130)

Two sided bounds on the derivatives of the three equations of state on the oceanographic range.  They give Lipschitz
constants, the signs of the computed derivatives, and the accuracy in floating point of the vertical solves with the library's own
equations of state.
-/

namespace PolyBox

theorem lip_of {f f' : ℝ → ℝ} {a b L : ℝ} {S : Set ℝ} (hS : Set.Icc a b ⊆ S)
    (h : ∀ x ∈ Set.Icc a b, HasDerivWithinAt f (f' x) S x ∧ |f' x| ≤ L) {x y : ℝ} (hx : x ∈ Set.Icc a b) (hy : y ∈ Set.Icc a b) :
    |f x - f y| ≤ L * |x - y| :=
  Convex.norm_image_sub_le_of_norm_hasDerivWithin_le (fun z hz => (h z hz).1.mono hS) (fun z hz => (h z hz).2) (convex_Icc a b) hy hx

end PolyBox

namespace Jmd95
open FloatLike Interp Eos PolyBox
open Fl hiding nan

theorem poly_bounds' {r t p : ℝ} (hr : 0 ≤ r ∧ r ≤ 6.5) (ht : -2 ≤ t ∧ t ≤ 40) (hp : 0 ≤ p ∧ p ≤ 10000) :
    (-0.6132 < dens0T cR kR r (r * r) t ∧ dens0T cR kR r (r * r) t < 0.1838) ∧ dens0S cR kR r (r * r) t < 0.834 ∧
    (35 < bulkT cR kR r (r * r) t p ∧ bulkT cR kR r (r * r) t p < 1791) ∧
    178380 < bulk kR r (r * r) t p - p * (pK1plusK2 kR r (r * r) t (pK2 kR (r * r) t p) + pK2 kR (r * r) t p) ∧
    bulk kR r (r * r) t p - p * (pK1plusK2 kR r (r * r) t (pK2 kR (r * r) t p) + pK2 kR (r * r) t p) < 269060 ∧
    bulk kR r (r * r) t p - p < 296670 := by
  obtain ⟨u, hu, rfl⟩ := unit_of (x := r) (m := 13 / 4) (h := 13 / 4) (by norm_num) (by norm_num at hr ⊢; exact hr.1)
    (by norm_num at hr ⊢; exact hr.2)
  obtain ⟨w, hw, rfl⟩ := unit_of (x := t) (m := 19) (h := 21) (by norm_num) (by norm_num at ht ⊢; exact ht.1)
    (by norm_num at ht ⊢; exact ht.2)
  obtain ⟨q, hq, rfl⟩ := unit_of (x := p) (m := 5000) (h := 5000) (by norm_num) (by norm_num at hp ⊢; exact hp.1)
    (by norm_num at hp ⊢; exact hp.2)
  have ex : val u w q bx = _ := val_x (13 / 4) (13 / 4)
  have ey : val u w q bY = _ := val_y 19 21
  have ez : val u w q bz = _ := val_z 5000 5000
  rw [← ex, ← ey, ← ez]
  have e0 : bulk kR (val u w q bx) (val u w q bx * val u w q bx) (val u w q bY) (val u w q bz) = val u w q (bulk kP bx (bx * bx) bY bz) := by
    simp only [bulk, val_add, val_mul, val_co]
  have e1 : bulkT cR kR (val u w q bx) (val u w q bx * val u w q bx) (val u w q bY) (val u w q bz) = val u w q (bulkT k3 kP bx (bx * bx) bY bz) := by
    simp only [bulkT, val_add, val_mul, val_co, val_c]
  have e2 : dens0T cR kR (val u w q bx) (val u w q bx * val u w q bx) (val u w q bY) = val u w q (dens0T k3 kP bx (bx * bx) bY) := by
    simp only [dens0T, val_add, val_mul, val_co, val_c]
  have e3 : dens0S cR kR (val u w q bx) (val u w q bx * val u w q bx) (val u w q bY) = val u w q (dens0S k3 kP bx (bx * bx) bY) := by
    simp only [dens0S, val_add, val_mul, val_co, val_c]
  have e4 : pK1plusK2 kR (val u w q bx) (val u w q bx * val u w q bx) (val u w q bY) (pK2 kR (val u w q bx * val u w q bx) (val u w q bY) (val u w q bz))
      + pK2 kR (val u w q bx * val u w q bx) (val u w q bY) (val u w q bz)
      = val u w q (pK1plusK2 kP bx (bx * bx) bY (pK2 kP (bx * bx) bY bz) + pK2 kP (bx * bx) bY bz) := by
    simp only [pK1plusK2, pK2, val_add, val_mul, val_co]
  rw [e0, e1, e2, e3, e4, ← val_sub, ← val_mul, ← val_sub]
  have b0 := val_bound hu hw hq (bulk kP bx (bx * bx) bY bz - bz)
  have b1 := val_bound hu hw hq (bulkT k3 kP bx (bx * bx) bY bz)
  have b2 := val_bound hu hw hq (dens0T k3 kP bx (bx * bx) bY)
  have b3 := val_bound hu hw hq (dens0S k3 kP bx (bx * bx) bY)
  have b4 := val_bound hu hw hq (bulk kP bx (bx * bx) bY bz - bz * (pK1plusK2 kP bx (bx * bx) bY (pK2 kP (bx * bx) bY bz) + pK2 kP (bx * bx) bY bz))
  have c0 : high (bulk kP bx (bx * bx) bY bz - bz) < 296670 := by decide +kernel
  have c1 : 35 < low (bulkT k3 kP bx (bx * bx) bY bz) ∧ high (bulkT k3 kP bx (bx * bx) bY bz) < 1791 := by decide +kernel
  have c2 : (-0.6132 : ℚ) < low (dens0T k3 kP bx (bx * bx) bY) ∧ high (dens0T k3 kP bx (bx * bx) bY) < (0.1838 : ℚ) := by decide +kernel
  have c3 : high (dens0S k3 kP bx (bx * bx) bY) < (0.834 : ℚ) := by decide +kernel
  have c4 : 178380 < low (bulk kP bx (bx * bx) bY bz - bz * (pK1plusK2 kP bx (bx * bx) bY (pK2 kP (bx * bx) bY bz) + pK2 kP (bx * bx) bY bz)) ∧
      high (bulk kP bx (bx * bx) bY bz - bz * (pK1plusK2 kP bx (bx * bx) bY (pK2 kP (bx * bx) bY bz) + pK2 kP (bx * bx) bY bz)) < 269060 := by
    decide +kernel
  generalize bulk kP bx (bx * bx) bY bz - bz * (pK1plusK2 kP bx (bx * bx) bY (pK2 kP (bx * bx) bY bz) + pK2 kP (bx * bx) bY bz) = g4 at b4 c4 ⊢
  generalize bulk kP bx (bx * bx) bY bz - bz = g0 at b0 c0 ⊢
  generalize bulkT k3 kP bx (bx * bx) bY bz = g1 at b1 c1 ⊢
  generalize dens0T k3 kP bx (bx * bx) bY = g2 at b2 c2 ⊢
  generalize dens0S k3 kP bx (bx * bx) bY = g3 at b3 c3 ⊢
  have d0 : (high g0 : ℝ) < ((296670 : ℚ) : ℝ) := Rat.cast_lt.mpr c0
  have d1 : ((35 : ℚ) : ℝ) < low g1 := Rat.cast_lt.mpr c1.1
  have d1' : (high g1 : ℝ) < ((1791 : ℚ) : ℝ) := Rat.cast_lt.mpr c1.2
  have d2 : ((-0.6132 : ℚ) : ℝ) < low g2 := Rat.cast_lt.mpr c2.1
  have d2' : (high g2 : ℝ) < ((0.1838 : ℚ) : ℝ) := Rat.cast_lt.mpr c2.2
  have d3 : (high g3 : ℝ) < ((0.834 : ℚ) : ℝ) := Rat.cast_lt.mpr c3
  have d4 : ((178380 : ℚ) : ℝ) < low g4 := Rat.cast_lt.mpr c4.1
  have d4' : (high g4 : ℝ) < ((269060 : ℚ) : ℝ) := Rat.cast_lt.mpr c4.2
  norm_num at d0 d1 d1' d2 d2' d3 d4 d4' ⊢
  exact ⟨⟨d2.trans_le b2.1, b2.2.trans_lt d2'⟩, b3.2.trans_lt d3, ⟨d1.trans_le b1.1, b1.2.trans_lt d1'⟩, d4.trans_le b4.1,
    b4.2.trans_lt d4', b0.2.trans_lt d0⟩

theorem Ocean.bounds' {s t p : ℝ} (h : Ocean s t p) :
    (-0.6132 < dens0T cR kR (Real.sqrt s) s t ∧ dens0T cR kR (Real.sqrt s) s t < 0.1838) ∧ dens0S cR kR (Real.sqrt s) s t < 0.834 ∧
    (35 < bulkT cR kR (Real.sqrt s) s t p ∧ bulkT cR kR (Real.sqrt s) s t p < 1791) ∧
    178380 < K s t p - p * (pK1plusK2 kR (Real.sqrt s) s t (pK2 kR s t p) + pK2 kR s t p) ∧
    K s t p - p * (pK1plusK2 kR (Real.sqrt s) s t (pK2 kR s t p) + pK2 kR s t p) < 269060 ∧ K s t p - p < 296670 := by
  have hr : 0 ≤ Real.sqrt s ∧ Real.sqrt s ≤ 6.5 := by
    refine ⟨Real.sqrt_nonneg s, ?_⟩
    rw [Real.sqrt_le_left (by norm_num)]
    have := h.s1
    norm_num
    linarith
  have := poly_bounds' hr ⟨h.t0, h.t1⟩ ⟨h.p0, h.p1⟩
  rw [Real.mul_self_sqrt h.s0] at this
  exact this

/-- The coefficient `ρ₀ p / (K - p)²` and the factor `K / (K - p)` of the derivatives. -/
theorem Ocean.factors {s t p : ℝ} (h : Ocean s t p) : 0 ≤ rho0 s t * p / ((K s t p - p) * (K s t p - p)) ∧
    rho0 s t * p / ((K s t p - p) * (K s t p - p)) ≤ 0.000336 ∧ 1 ≤ K s t p / (K s t p - p) ∧ K s t p / (K s t p - p) ≤ 1.0569 := by
  obtain ⟨h1, h2, _, _, h5, h6, -⟩ := h.bounds
  have hd : 0 < K s t p - p := by linarith
  have hp := h.p0
  have hp1 := h.p1
  refine ⟨by apply div_nonneg (mul_nonneg (by linarith) hp) (mul_pos hd hd).le, ?_, ?_, ?_⟩
  · rw [div_le_iff₀ (mul_pos hd hd)]
    have a1 : rho0 s t * p ≤ 1040 * 10000 := by gcongr
    have a2 : (176000 : ℝ) * 176000 ≤ (K s t p - p) * (K s t p - p) := by gcongr
    norm_num at a1 a2 ⊢
    linarith
  · rw [le_div_iff₀ hd]; linarith
  · rw [div_le_iff₀ hd]
    norm_num
    linarith

/-- Bounds on the exact derivatives of jmd95. -/
theorem Ocean.derivs {s t p : ℝ} (h : Ocean s t p) : (0.45 ≤ dS s t p ∧ dS s t p ≤ 0.89) ∧ (-1.25 ≤ dT s t p ∧ dT s t p ≤ 0.2) ∧
    (0.0019 ≤ dP s t p ∧ dP s t p ≤ 0.0091) := by
  obtain ⟨h1, h2, h3, h4, h5, h6, h7, h8⟩ := h.bounds
  obtain ⟨⟨g1, g2⟩, g3, ⟨g4, g5⟩, g6, g7, g8⟩ := h.bounds'
  obtain ⟨f1, f2, f3, f4⟩ := h.factors
  have hd : 0 < K s t p - p := by linarith
  have eS : dS s t p = dens0S cR kR (Real.sqrt s) s t * (K s t p / (K s t p - p))
      - rho0 s t * p / ((K s t p - p) * (K s t p - p)) * bulkS cR kR (Real.sqrt s) s t p := by
    unfold dS; field_simp
  have eT : dT s t p = dens0T cR kR (Real.sqrt s) s t * (K s t p / (K s t p - p))
      - rho0 s t * p / ((K s t p - p) * (K s t p - p)) * bulkT cR kR (Real.sqrt s) s t p := by
    unfold dT; field_simp
  refine ⟨?_, ?_, ?_⟩
  · rw [eS]
    generalize K s t p / (K s t p - p) = k at *
    generalize rho0 s t * p / ((K s t p - p) * (K s t p - p)) = m at *
    have a1 : 0.68 * 1 ≤ dens0S cR kR (Real.sqrt s) s t * k := by gcongr
    have a2 : dens0S cR kR (Real.sqrt s) s t * k ≤ 0.834 * 1.0569 := by gcongr
    have a3 : m * bulkS cR kR (Real.sqrt s) s t p ≤ 0.000336 * 667 := by gcongr
    have a4 := mul_nonneg f1 h4.le
    norm_num at a1 a2 a3 ⊢
    constructor <;> linarith
  · rw [eT]
    generalize K s t p / (K s t p - p) = k at *
    generalize rho0 s t * p / ((K s t p - p) * (K s t p - p)) = m at *
    generalize dens0T cR kR (Real.sqrt s) s t = d at *
    have a1 : -0.6132 * 1.0569 ≤ d * k := by norm_num at *; nlinarith
    have a2 : d * k ≤ 0.1838 * 1.0569 := by norm_num at *; nlinarith
    have a3 : m * bulkT cR kR (Real.sqrt s) s t p ≤ 0.000336 * 1791 := by gcongr
    have a4 : 0 ≤ m * bulkT cR kR (Real.sqrt s) s t p := mul_nonneg f1 (by linarith)
    norm_num at a1 a2 a3 ⊢
    constructor <;> linarith
  · unfold dP
    generalize K s t p - p * (pK1plusK2 kR (Real.sqrt s) s t (pK2 kR s t p) + pK2 kR s t p) = m at *
    constructor
    · rw [le_div_iff₀ (mul_pos hd hd)]
      have a1 : (973 : ℝ) * 178380 ≤ rho0 s t * m := by gcongr
      have a2 : (K s t p - p) * (K s t p - p) ≤ 296670 * 296670 := by gcongr
      norm_num at a1 a2 ⊢
      linarith
    · rw [div_le_iff₀ (mul_pos hd hd)]
      have a1 : rho0 s t * m ≤ 1040 * 269060 := by gcongr
      have a2 : (176000 : ℝ) * 176000 ≤ (K s t p - p) * (K s t p - p) := by gcongr
      norm_num at a1 a2 ⊢
      linarith

theorem Ocean.lip {s t p s' t' p' : ℝ} (h : Ocean s t p) (h' : Ocean s' t' p') :
    |density s t p - density s' t' p'| ≤ 0.89 * |s - s'| + 1.25 * |t - t'| + 0.0091 * |p - p'| := by
  have l1 : |density s t p - density s' t p| ≤ 0.89 * |s - s'| :=
    lip_of (f := fun s => density s t p) (f' := fun s => dS s t p) (S := Set.Ici 0) (a := 0) (b := 42) (fun x hx => hx.1) (fun x hx => by
      have hx' : Ocean x t p := ⟨hx.1, hx.2, h.t0, h.t1, h.p0, h.p1⟩
      refine ⟨density_deriv_s hx.1 hx'.ne.1 hx'.ne.2, ?_⟩
      have := hx'.derivs.1
      rw [abs_le]; norm_num at this ⊢; constructor <;> linarith) ⟨h.s0, h.s1⟩ ⟨h'.s0, h'.s1⟩
  have l2 : |density s' t p - density s' t' p| ≤ 1.25 * |t - t'| :=
    lip_of (f := fun t => density s' t p) (f' := fun t => dT s' t p) (S := Set.univ) (a := -2) (b := 40) (fun x hx => trivial) (fun x hx => by
      have hx' : Ocean s' x p := ⟨h'.s0, h'.s1, hx.1, hx.2, h.p0, h.p1⟩
      refine ⟨(density_deriv_t hx'.ne.1 hx'.ne.2).hasDerivWithinAt, ?_⟩
      have := hx'.derivs.2.1
      rw [abs_le]; norm_num at this ⊢; constructor <;> linarith) ⟨h.t0, h.t1⟩ ⟨h'.t0, h'.t1⟩
  have l3 : |density s' t' p - density s' t' p'| ≤ 0.0091 * |p - p'| :=
    lip_of (f := fun p => density s' t' p) (f' := fun p => dP s' t' p) (S := Set.univ) (a := 0) (b := 10000) (fun x hx => trivial) (fun x hx => by
      have hx' : Ocean s' t' x := ⟨h'.s0, h'.s1, h'.t0, h'.t1, hx.1, hx.2⟩
      refine ⟨(density_deriv_p hx'.ne.1 hx'.ne.2).hasDerivWithinAt, ?_⟩
      have := hx'.derivs.2.2
      rw [abs_le]; norm_num at this ⊢; constructor <;> linarith) ⟨h.p0, h.p1⟩ ⟨h'.p0, h'.p1⟩
  have e : density s t p - density s' t' p' = (density s t p - density s' t p) + (density s' t p - density s' t' p)
      + (density s' t' p - density s' t' p') := by ring
  rw [e]
  refine (abs_add_three _ _ _).trans (by linarith)

end Jmd95

namespace Jmdfwg06
open FloatLike Interp Eos PolyBox
open Fl hiding nan

/-- Bounds on the exact derivatives of jmdfwg06. -/
theorem Ocean.derivs {s t p : ℝ} (h : Ocean s t p) : (0.33 ≤ dS s t p ∧ dS s t p ≤ 1.51) ∧ (-1.16 ≤ dT s t p ∧ dT s t p ≤ 0.24) ∧
    (0.002 ≤ dP s t p ∧ dP s t p ≤ 0.0079) := by
  obtain ⟨⟨d1, d2⟩, _, ⟨s1, s2⟩, ⟨t1, t2⟩, ⟨p1, p2⟩⟩ := h.bounds'
  have hD : 0 < D s t p := lt_trans (by norm_num) d1
  have q1 : 0.945 * 0.945 ≤ D s t p * D s t p := by gcongr
  have q2 : D s t p * D s t p ≤ 1.405 * 1.405 := by gcongr
  have q0 := mul_pos hD hD
  have eS : dS s t p = (numS cR kR s t p * D s t p - N s t p * denS cR kR (Real.sqrt s) t (t * t)) / (D s t p * D s t p) := by
    unfold dS; field_simp
  have eT : dT s t p = (numT cR kR s t p (p * t) * D s t p - N s t p * denT cR kR (Real.sqrt s) s t p (t * t) (p * t)) / (D s t p * D s t p) := by
    unfold dT; field_simp
  have eP : dP s t p = (numP_ cR kR s (t * t) p * D s t p - N s t p * denP_ cR kR t p (t * t)) / (D s t p * D s t p) := by
    unfold dP; field_simp
  rw [eS, eT, eP]
  simp only [le_div_iff₀ q0, div_le_iff₀ q0]
  norm_num at *
  refine ⟨⟨?_, ?_⟩, ⟨?_, ?_⟩, ?_, ?_⟩ <;> linarith

theorem Ocean.lip {s t p s' t' p' : ℝ} (h : Ocean s t p) (h' : Ocean s' t' p') :
    |density s t p - density s' t' p'| ≤ 1.51 * |s - s'| + 1.16 * |t - t'| + 0.0079 * |p - p'| := by
  have l1 : |density s t p - density s' t p| ≤ 1.51 * |s - s'| :=
    lip_of (f := fun s => density s t p) (f' := fun s => dS s t p) (S := Set.Ici 0) (a := 0) (b := 42) (fun x hx => hx.1) (fun x hx => by
      have hx' : Ocean x t p := ⟨hx.1, hx.2, h.t0, h.t1, h.p0, h.p1⟩
      refine ⟨density_deriv_s hx.1 hx'.bounds.1.ne', ?_⟩
      have := hx'.derivs.1
      rw [abs_le]; norm_num at this ⊢; constructor <;> linarith) ⟨h.s0, h.s1⟩ ⟨h'.s0, h'.s1⟩
  have l2 : |density s' t p - density s' t' p| ≤ 1.16 * |t - t'| :=
    lip_of (f := fun t => density s' t p) (f' := fun t => dT s' t p) (S := Set.univ) (a := -2) (b := 40) (fun x hx => trivial) (fun x hx => by
      have hx' : Ocean s' x p := ⟨h'.s0, h'.s1, hx.1, hx.2, h.p0, h.p1⟩
      refine ⟨(density_deriv_t hx'.bounds.1.ne').hasDerivWithinAt, ?_⟩
      have := hx'.derivs.2.1
      rw [abs_le]; norm_num at this ⊢; constructor <;> linarith) ⟨h.t0, h.t1⟩ ⟨h'.t0, h'.t1⟩
  have l3 : |density s' t' p - density s' t' p'| ≤ 0.0079 * |p - p'| :=
    lip_of (f := fun p => density s' t' p) (f' := fun p => dP s' t' p) (S := Set.univ) (a := 0) (b := 10000) (fun x hx => trivial) (fun x hx => by
      have hx' : Ocean s' t' x := ⟨h'.s0, h'.s1, h'.t0, h'.t1, hx.1, hx.2⟩
      refine ⟨(density_deriv_p hx'.bounds.1.ne').hasDerivWithinAt, ?_⟩
      have := hx'.derivs.2.2
      rw [abs_le]; norm_num at this ⊢; constructor <;> linarith) ⟨h.p0, h.p1⟩ ⟨h'.p0, h'.p1⟩
  have e : density s t p - density s' t' p' = (density s t p - density s' t p) + (density s' t p - density s' t' p)
      + (density s' t' p - density s' t' p') := by ring
  rw [e]
  refine (abs_add_three _ _ _).trans (by linarith)

end Jmdfwg06

namespace Gsw
open FloatLike Interp Eos PolyBox
open Fl hiding nan

theorem poly_bounds' {x y z : ℝ} (hx : 0.77 ≤ x ∧ x ≤ 1.29) (hy : -0.15 ≤ y ∧ y ≤ 1) (hz : 0 ≤ z ∧ z ≤ 1) :
    (-0.000084 < n_s cR vR x y z ∧ n_s cR vR x y z < -0.000028) ∧ (-0.00001 < n_t cR vR x y z ∧ n_t cR vR x y z < 0.00003) ∧
    (-0.000055 < n_p cR vR x y z ∧ n_p cR vR x y z < -0.00002) := by
  obtain ⟨u, hu, rfl⟩ := unit_of (x := x) (m := 103 / 100) (h := 26 / 100) (by norm_num) (by norm_num at hx ⊢; exact hx.1)
    (by norm_num at hx ⊢; exact hx.2)
  obtain ⟨w, hw, rfl⟩ := unit_of (x := y) (m := 425 / 1000) (h := 575 / 1000) (by norm_num) (by norm_num at hy ⊢; exact hy.1)
    (by norm_num at hy ⊢; exact hy.2)
  obtain ⟨q, hq, rfl⟩ := unit_of (x := z) (m := 1 / 2) (h := 1 / 2) (by norm_num) (by norm_num at hz ⊢; exact hz.1)
    (by norm_num at hz ⊢; exact hz.2)
  have ex : val u w q bx = _ := val_x (103 / 100) (26 / 100)
  have ey : val u w q bY = _ := val_y (425 / 1000) (575 / 1000)
  have ez : val u w q bz = _ := val_z (1 / 2) (1 / 2)
  rw [← ex, ← ey, ← ez]
  have e1 : n_s cR vR (val u w q bx) (val u w q bY) (val u w q bz) = val u w q (n_s k3 vP bx bY bz) := by
    simp only [n_s, val_add, val_mul, val_v, val_c]
  have e2 : n_p cR vR (val u w q bx) (val u w q bY) (val u w q bz) = val u w q (n_p k3 vP bx bY bz) := by
    simp only [n_p, val_add, val_mul, val_v, val_c]
  have e3 : n_t cR vR (val u w q bx) (val u w q bY) (val u w q bz) = val u w q (n_t k3 vP bx bY bz) := by
    simp only [n_t, val_add, val_mul, val_v, val_c]
  rw [e1, e2, e3]
  have b1 := val_bound hu hw hq (n_s k3 vP bx bY bz)
  have b2 := val_bound hu hw hq (n_t k3 vP bx bY bz)
  have b3 := val_bound hu hw hq (n_p k3 vP bx bY bz)
  have c1 : (-0.000084 : ℚ) < low (n_s k3 vP bx bY bz) ∧ high (n_s k3 vP bx bY bz) < (-0.000028 : ℚ) := by decide +kernel
  have c2 : (-0.00001 : ℚ) < low (n_t k3 vP bx bY bz) ∧ high (n_t k3 vP bx bY bz) < (0.00003 : ℚ) := by decide +kernel
  have c3 : (-0.000055 : ℚ) < low (n_p k3 vP bx bY bz) ∧ high (n_p k3 vP bx bY bz) < (-0.00002 : ℚ) := by decide +kernel
  generalize n_s k3 vP bx bY bz = g1 at *
  generalize n_t k3 vP bx bY bz = g2 at *
  generalize n_p k3 vP bx bY bz = g3 at *
  have d1 : ((-0.000084 : ℚ) : ℝ) < low g1 := Rat.cast_lt.mpr c1.1
  have d1' : (high g1 : ℝ) < ((-0.000028 : ℚ) : ℝ) := Rat.cast_lt.mpr c1.2
  have d2 : ((-0.00001 : ℚ) : ℝ) < low g2 := Rat.cast_lt.mpr c2.1
  have d2' : (high g2 : ℝ) < ((0.00003 : ℚ) : ℝ) := Rat.cast_lt.mpr c2.2
  have d3 : ((-0.000055 : ℚ) : ℝ) < low g3 := Rat.cast_lt.mpr c3.1
  have d3' : (high g3 : ℝ) < ((-0.00002 : ℚ) : ℝ) := Rat.cast_lt.mpr c3.2
  norm_num at d1 d1' d2 d2' d3 d3' ⊢
  exact ⟨⟨d1.trans_le b1.1, b1.2.trans_lt d1'⟩, ⟨d2.trans_le b2.1, b2.2.trans_lt d2'⟩, ⟨d3.trans_le b3.1, b3.2.trans_lt d3'⟩⟩

/-- Bounds on the exact derivatives of gsw. -/
theorem Ocean.derivs {SA CT p : ℝ} (h : Ocean SA CT p) :
    (-1.4e-6 ≤ tab 1 0 0 SA CT p ∧ tab 1 0 0 SA CT p ≤ -2.6e-7) ∧ (-2.5e-7 ≤ tab 0 1 0 SA CT p ∧ tab 0 1 0 SA CT p ≤ 7.5e-7) ∧
    (-5.5e-9 ≤ tab 0 0 1 SA CT p ∧ tab 0 0 1 SA CT p ≤ -2e-9) := by
  have hy : -0.15 ≤ CT * tf ∧ CT * tf ≤ 1 := by
    rw [tf_eq]; exact ⟨by linarith [h.t0], by linarith [h.t1]⟩
  have hz : 0 ≤ p * pf ∧ p * pf ≤ 1 := by
    rw [pf_eq]; exact ⟨by linarith [h.p0], by linarith [h.p1]⟩
  obtain ⟨⟨s1, s2⟩, ⟨t1, t2⟩, ⟨p1, p2⟩⟩ := poly_bounds' h.x hy hz
  obtain ⟨x1, x2⟩ := h.x
  have hx := X_pos h.s0
  have es : tab 1 0 0 SA CT p = n_s cR vR (X SA) (CT * tf) (p * pf) / X SA * (1 / 2 * sf) := rfl
  have et : tab 0 1 0 SA CT p = n_t cR vR (X SA) (CT * tf) (p * pf) * tf := rfl
  have ep : tab 0 0 1 SA CT p = n_p cR vR (X SA) (CT * tf) (p * pf) * pf := rfl
  rw [es, et, ep]
  generalize n_s cR vR (X SA) (CT * tf) (p * pf) = a at *
  generalize n_t cR vR (X SA) (CT * tf) (p * pf) = b at *
  generalize n_p cR vR (X SA) (CT * tf) (p * pf) = c at *
  have f1 : -0.00011 ≤ a / X SA := by rw [le_div_iff₀ hx]; norm_num at *; linarith
  have f2 : a / X SA ≤ -0.000021 := by rw [div_le_iff₀ hx]; norm_num at *; linarith
  have hsf : sf = 0.0248826675584615 := by norm_num [sf, sfac]
  rw [hsf, tf_eq, pf_eq]
  norm_num at *
  refine ⟨⟨?_, ?_⟩, ⟨?_, ?_⟩, ?_, ?_⟩ <;> linarith

theorem Ocean.lip {s t p s' t' p' : ℝ} (h : Ocean s t p) (h' : Ocean s' t' p') :
    |tab 0 0 0 s t p - tab 0 0 0 s' t' p'| ≤ 1.4e-6 * |s - s'| + 7.5e-7 * |t - t'| + 5.5e-9 * |p - p'| := by
  have l1 : |tab 0 0 0 s t p - tab 0 0 0 s' t p| ≤ 1.4e-6 * |s - s'| :=
    lip_of (f := fun s => tab 0 0 0 s t p) (f' := fun s => tab 1 0 0 s t p) (S := Set.Ici 0) (a := 0) (b := 42) (fun x hx => hx.1) (fun x hx => by
      have hx' : Ocean x t p := ⟨hx.1, hx.2, h.t0, h.t1, h.p0, h.p1⟩
      refine ⟨(tab_table 0 0 0 (by omega)).1 x hx.1 t p, ?_⟩
      have := hx'.derivs.1
      rw [abs_le]; norm_num at this ⊢; constructor <;> linarith) ⟨h.s0, h.s1⟩ ⟨h'.s0, h'.s1⟩
  have l2 : |tab 0 0 0 s' t p - tab 0 0 0 s' t' p| ≤ 7.5e-7 * |t - t'| :=
    lip_of (f := fun t => tab 0 0 0 s' t p) (f' := fun t => tab 0 1 0 s' t p) (S := Set.univ) (a := -6) (b := 40) (fun x hx => trivial) (fun x hx => by
      have hx' : Ocean s' x p := ⟨h'.s0, h'.s1, hx.1, hx.2, h.p0, h.p1⟩
      refine ⟨((tab_table 0 0 0 (by omega)).2.1 s' h'.s0 x p).hasDerivWithinAt, ?_⟩
      have := hx'.derivs.2.1
      rw [abs_le]; norm_num at this ⊢; constructor <;> linarith) ⟨h.t0, h.t1⟩ ⟨h'.t0, h'.t1⟩
  have l3 : |tab 0 0 0 s' t' p - tab 0 0 0 s' t' p'| ≤ 5.5e-9 * |p - p'| :=
    lip_of (f := fun p => tab 0 0 0 s' t' p) (f' := fun p => tab 0 0 1 s' t' p) (S := Set.univ) (a := 0) (b := 10000) (fun x hx => trivial) (fun x hx => by
      have hx' : Ocean s' t' x := ⟨h'.s0, h'.s1, h'.t0, h'.t1, hx.1, hx.2⟩
      refine ⟨((tab_table 0 0 0 (by omega)).2.2 s' h'.s0 t' x).hasDerivWithinAt, ?_⟩
      have := hx'.derivs.2.2
      rw [abs_le]; norm_num at this ⊢; constructor <;> linarith) ⟨h.p0, h.p1⟩ ⟨h'.p0, h'.p1⟩
  have e : tab 0 0 0 s t p - tab 0 0 0 s' t' p' = (tab 0 0 0 s t p - tab 0 0 0 s' t p) + (tab 0 0 0 s' t p - tab 0 0 0 s' t' p)
      + (tab 0 0 0 s' t' p - tab 0 0 0 s' t' p') := by ring
  rw [e]
  refine (abs_add_three _ _ _).trans (by linarith)

end Gsw
