import Verif.Props.Synthocean
import Mathlib.Analysis.SpecialFunctions.Integrals.Basic

/-!
# The grid geometry returned by `synthocean` (C126)
-/

namespace Synthocean

/-- Radians. -/
noncomputable def rad (x : ℝ) : ℝ := x * (Real.pi / 180)

/-- Area of the part of a sphere of radius `r` between two meridians and two circles of latitude (degrees). -/
noncomputable def sphereArea (r west east south north : ℝ) : ℝ :=
  ∫ _ in rad west..rad east, ∫ φ in rad south..rad north, r ^ 2 * Real.cos φ

theorem sphereArea_eq (r west east south north : ℝ) :
    sphereArea r west east south north = r ^ 2 * (rad east - rad west) * (Real.sin (rad north) - Real.sin (rad south)) := by
  unfold sphereArea
  rw [intervalIntegral.integral_const, intervalIntegral.integral_const_mul, integral_cos, smul_eq_mul]
  ring

variable {ni nj : ℕ}

theorem XG_eq (hi : 1 ≤ ni) (i : ℕ) : XG ni i = 360 * (i / ni) := by
  have hni : (0 : ℝ) < ni := by exact_mod_cast hi
  unfold XG resx
  field_simp
  ring

theorem YG_eq (hj : 1 ≤ nj) (j : ℕ) : YG nj j = -80 + 140 * (j / nj) := by
  have hnj : (0 : ℝ) < nj := by exact_mod_cast hj
  unfold YG resy
  field_simp
  norm_num

/-- **C126** Longitudes: the western edges start at 0, the cells are equally wide and meet, the last one ends at 360, and the
centres are in the middle. -/
theorem longitudes (hi : 1 ≤ ni) : XG ni 0 = 0 ∧ XG ni ni = 360 ∧ (∀ i, XG ni (i + 1) - XG ni i = 360 / ni) ∧
    ∀ i, XC ni i = (XG ni i + XG ni (i + 1)) / 2 := by
  have hni : (0 : ℝ) < ni := by exact_mod_cast hi
  refine ⟨?_, ?_, fun i => ?_, fun i => ?_⟩
  · rw [XG_eq hi]; simp
  · rw [XG_eq hi, div_self hni.ne']; norm_num
  · rw [XG_eq hi, XG_eq hi]; push_cast; field_simp; ring
  · unfold XC; rw [XG_eq hi, XG_eq hi]; unfold resx; push_cast; field_simp; ring

/-- **C126** Latitudes: the southern edges start at 80°S, the cells are equally tall and meet, the last one ends at 60°N, and the
centres are in the middle. -/
theorem latitudes (hj : 1 ≤ nj) : YG nj 0 = -80 ∧ YG nj nj = 60 ∧ (∀ j, YG nj (j + 1) - YG nj j = 140 / nj) ∧
    ∀ j, YC nj j = (YG nj j + YG nj (j + 1)) / 2 := by
  have hnj : (0 : ℝ) < nj := by exact_mod_cast hj
  refine ⟨?_, ?_, fun j => ?_, fun j => ?_⟩
  · rw [YG_eq hj]; simp
  · rw [YG_eq hj, div_self hnj.ne']; norm_num
  · rw [YG_eq hj, YG_eq hj]; push_cast; field_simp; ring
  · unfold YC; rw [YG_eq hj, YG_eq hj]; unfold resy; push_cast; field_simp; ring

/-- **C126** Distances: `DXG` and `DXC` are lengths along the circles of latitude through the southern edges and the centres, of
the width of a cell; `DYG` is the length along a meridian between southern edges (and between centres) of neighbours.  All are
positive. -/
theorem distances (hi : 1 ≤ ni) (hj : 1 ≤ nj) {i j : ℕ} (hjn : j < nj) :
    DXG ni nj j = rSphere * Real.cos (rad (YG nj j)) * (rad (XG ni (i + 1)) - rad (XG ni i)) ∧
    DXC ni nj j = rSphere * Real.cos (rad (YC nj j)) * (rad (XC ni (i + 1)) - rad (XC ni i)) ∧
    DYG nj = rSphere * (rad (YG nj (j + 1)) - rad (YG nj j)) ∧ DYG nj = rSphere * (rad (YC nj (j + 1)) - rad (YC nj j)) ∧
    0 < DXG ni nj j ∧ 0 < DXC ni nj j ∧ 0 < DYG nj := by
  have hni : (0 : ℝ) < ni := by exact_mod_cast hi
  have hnj : (0 : ℝ) < nj := by exact_mod_cast hj
  have h1 : (j : ℝ) / nj < 1 := by rw [div_lt_one hnj]; exact_mod_cast hjn
  have h0 : (0 : ℝ) ≤ (j : ℝ) / nj := by positivity
  have hh : ((j + 1 : ℕ) : ℝ) / nj ≤ 1 := by rw [div_le_one hnj]; exact_mod_cast hjn
  have h01 : (0 : ℝ) ≤ ((j + 1 : ℕ) : ℝ) / nj := by positivity
  have hpi := Real.pi_pos
  have hrx : 0 < resx ni := by unfold resx; positivity
  have hry : 0 < resy nj := by unfold resy; norm_num; positivity
  have hd : 0 < deg2rad := by unfold deg2rad; positivity
  have c1 : 0 < Real.cos (YG nj j * deg2rad) := by
    apply Real.cos_pos_of_mem_Ioo
    rw [YG_eq hj, deg2rad]
    constructor <;> nlinarith
  have c2 : 0 < Real.cos (YC nj j * deg2rad) := by
    apply Real.cos_pos_of_mem_Ioo
    rw [(latitudes hj).2.2.2, YG_eq hj, YG_eq hj, deg2rad]
    constructor <;> nlinarith
  have hX := (longitudes hi).2.2.1
  have hY := (latitudes hj).2.2.1
  have hXC : XC ni (i + 1) - XC ni i = 360 / ni := by
    rw [(longitudes hi).2.2.2, (longitudes hi).2.2.2]
    linarith [hX i, hX (i + 1)]
  have hYC : YC nj (j + 1) - YC nj j = 140 / nj := by
    rw [(latitudes hj).2.2.2, (latitudes hj).2.2.2]
    linarith [hY j, hY (j + 1)]
  have ex : (1 : ℝ) / resx ni = 360 / ni := by unfold resx; field_simp
  have ey : (1 : ℝ) / resy nj = 140 / nj := by unfold resy; field_simp; norm_num
  refine ⟨?_, ?_, ?_, ?_, ?_, ?_, ?_⟩
  · unfold DXG rad
    rw [← sub_mul, hX, ← ex, deg2rad]
    ring
  · unfold DXC rad
    rw [← sub_mul, hXC, ← ex, deg2rad]
    ring
  · unfold DYG rad
    rw [← sub_mul, hY, ← ey, deg2rad]
    ring
  · unfold DYG rad
    rw [← sub_mul, hYC, ← ey, deg2rad]
    ring
  · unfold DXG rSphere; positivity
  · unfold DXC rSphere; positivity
  · unfold DYG rSphere; positivity

theorem sin_le (hj : 1 ≤ nj) {x y : ℝ} (hx : -90 ≤ x) (hxy : x ≤ y) (hy : y ≤ 60) :
    Real.sin (x * deg2rad) ≤ Real.sin (y * deg2rad) := by
  have hpi := Real.pi_pos
  apply Real.monotoneOn_sin
  · rw [deg2rad]; constructor <;> nlinarith
  · rw [deg2rad]; constructor <;> nlinarith
  · rw [deg2rad]; nlinarith

/-- **C126** Areas: `RAC` is the area of the tracer cell on the sphere, and `RAS` that of the cell between the centres of a tracer
cell and its southern neighbour; in the southernmost row that of the cell that reaches as far south of the centre (given enough rows
for this not to go beyond the pole). -/
theorem areas (hi : 1 ≤ ni) (hj : 1 ≤ nj) {i j : ℕ} (hjn : j < nj) :
    RAC ni nj j = sphereArea rSphere (XG ni i) (XG ni (i + 1)) (YG nj j) (YG nj (j + 1)) ∧
    (1 ≤ j → RAS ni nj j = sphereArea rSphere (XG ni i) (XG ni (i + 1)) (YC nj (j - 1)) (YC nj j)) ∧
    (7 ≤ nj → RAS ni nj 0 = sphereArea rSphere (XG ni i) (XG ni (i + 1)) (YC nj 0 - 140 / nj) (YC nj 0)) := by
  have hni : (0 : ℝ) < ni := by exact_mod_cast hi
  have hnj : (0 : ℝ) < nj := by exact_mod_cast hj
  have hX := (longitudes hi).2.2.1
  have ex : (1 : ℝ) / resx ni = 360 / ni := by unfold resx; field_simp
  have ey : (1 : ℝ) / resy nj = 140 / nj := by unfold resy; field_simp; norm_num
  have h1 : ((j + 1 : ℕ) : ℝ) / nj ≤ 1 := by rw [div_le_one hnj]; exact_mod_cast hjn
  have h0 : (0 : ℝ) ≤ (j : ℝ) / nj := by positivity
  have hs : ((j + 1 : ℕ) : ℝ) / nj = (j : ℝ) / nj + 1 / nj := by push_cast; ring
  have hinv : (0 : ℝ) < 1 / nj := by positivity
  refine ⟨?_, ?_, ?_⟩
  · have e : YG nj j + 1 / resy nj = YG nj (j + 1) := by
      rw [ey]; linarith [(latitudes hj).2.2.1 j]
    rw [sphereArea_eq]
    unfold RAC rad
    rw [e, ← sub_mul, hX, ← ex, abs_of_nonneg (sub_nonneg.mpr (sin_le hj ?_ ?_ ?_)), deg2rad]
    · ring
    · rw [YG_eq hj]; linarith
    · rw [YG_eq hj, YG_eq hj]; linarith
    · rw [YG_eq hj]; linarith
  · intro hj1
    obtain ⟨m, rfl⟩ : ∃ m, j = m + 1 := ⟨j - 1, by omega⟩
    have e : YC nj (m + 1) - 1 / resy nj = YC nj m := by
      rw [ey, (latitudes hj).2.2.2, (latitudes hj).2.2.2]
      linarith [(latitudes hj).2.2.1 m, (latitudes hj).2.2.1 (m + 1)]
    have hs' : ((m + 1 : ℕ) : ℝ) / nj = (m : ℝ) / nj + 1 / nj := by push_cast; ring
    have h0' : (0 : ℝ) ≤ (m : ℝ) / nj := by positivity
    rw [sphereArea_eq]
    unfold RAS rad
    rw [e, ← sub_mul, hX, ← ex, Nat.add_sub_cancel, abs_of_nonneg (sub_nonneg.mpr (sin_le hj ?_ ?_ ?_)), deg2rad]
    · ring
    · rw [(latitudes hj).2.2.2, YG_eq hj, YG_eq hj]; linarith
    · rw [(latitudes hj).2.2.2, (latitudes hj).2.2.2, YG_eq hj, YG_eq hj, YG_eq hj]; linarith
    · rw [(latitudes hj).2.2.2, YG_eq hj, YG_eq hj]; linarith
  · intro h7
    have h7' : (1 : ℝ) / nj ≤ 1 / 7 := one_div_le_one_div_of_le (by norm_num) (by exact_mod_cast h7)
    have hd : (140 : ℝ) / nj = 140 * (1 / nj) := by ring
    have hz : YC nj 0 = -80 + 70 * (1 / nj) := by
      rw [(latitudes hj).2.2.2, YG_eq hj, YG_eq hj]
      push_cast
      ring
    rw [sphereArea_eq]
    unfold RAS rad
    rw [ey, ← sub_mul, hX, ← ex, abs_of_nonneg (sub_nonneg.mpr (sin_le hj ?_ ?_ ?_)), deg2rad]
    · ring
    · rw [hz, hd]; linarith
    · rw [hd]; linarith
    · rw [hz]; linarith

example : ∃ ni nj j : ℕ, 1 ≤ ni ∧ 1 ≤ nj ∧ j < nj ∧ 1 ≤ j := ⟨16, 17, 3, by norm_num, by norm_num, by norm_num, by norm_num⟩

end Synthocean
