import Verif.Model.Synthocean
import Mathlib.Analysis.SpecialFunctions.Trigonometric.Basic
import Mathlib.Algebra.BigOperators.Field
import Mathlib.Tactic.FieldSimp
import Mathlib.Tactic.Positivity

/-!
# Properties of `synthocean` (C62, C98, C99)
-/

set_option linter.unusedSectionVars false

namespace Synthocean
open FloatLike
open Fl hiding nan
variable {α : Type*} [Field α] [LinearOrder α] [IsStrictOrderedRing α]

/-- The fraction of the way from the first to the last of `n` evenly spaced points. -/
def frac (n i : ℕ) : α := if n ≤ 1 then 0 else (i : α) / ((n - 1 : ℕ) : α)

theorem frac_zero (n : ℕ) : frac n 0 = (0 : α) := by
  unfold frac
  split_ifs <;> simp

theorem frac_last {n : ℕ} (h : 2 ≤ n) : frac n (n - 1) = (1 : α) := by
  unfold frac
  rw [if_neg (by omega), div_self]
  exact_mod_cast (by omega : n - 1 ≠ 0)

theorem frac_lt {n i i' : ℕ} (h : i < i') (hi : i' < n) : frac n i < (frac n i' : α) := by
  unfold frac
  rw [if_neg (by omega), if_neg (by omega)]
  have : (0 : α) < ((n - 1 : ℕ) : α) := by exact_mod_cast (by omega : 0 < n - 1)
  exact div_lt_div_of_pos_right (by exact_mod_cast h) this

theorem frac_nonneg (n i : ℕ) : (0 : α) ≤ frac n i := by
  unfold frac
  split_ifs
  · exact le_refl _
  · positivity

theorem frac_le_one {n i : ℕ} (hi : i < n) : (frac n i : α) ≤ 1 := by
  unfold frac
  split_ifs
  · exact zero_le_one
  · have : (0 : α) < ((n - 1 : ℕ) : α) := by exact_mod_cast (by omega : 0 < n - 1)
    rw [div_le_one this]
    exact_mod_cast (by omega : i ≤ n - 1)

theorem linspace_fin (a b : α) {n i : ℕ} (hi : i < n) :
    linspace (Fl.fin a) (.fin b) n i = .fin (a + (b - a) * frac n i) := by
  unfold linspace
  split_ifs with h1 h2
  · simp [frac, h1]
  · subst h2
    rw [frac_last (by omega)]
    simp
  · have : ((n - 1 : ℕ) : α) ≠ 0 := by exact_mod_cast (by omega : n - 1 ≠ 0)
    have e : (lit ((n - 1 : ℕ) : ℚ) : Fl α) = .fin ((n - 1 : ℕ) : α) := by simp
    have e' : (lit (i : ℚ) : Fl α) = .fin (i : α) := by simp
    rw [e, e', fin_sub, fin_div _ _ this, fin_mul, fin_add]
    unfold frac
    rw [if_neg h1]
    congr 1
    field_simp
    ring

theorem pow_fin (x : α) : ∀ k, pow (Fl.fin x) (k + 1) = .fin (x ^ (k + 1))
  | 0 => by simp [pow]
  | k + 1 => by rw [pow, pow_fin x k, fin_mul, pow_succ x (k + 1)]; simp

/-! ### Pressure -/

theorem P_fin {o : Opts (Fl α)} {pbot : α} (ho : o.pbot = .fin pbot) {k : ℕ} (hk : k < o.nk) :
    P o k = .fin (frac o.nk k ^ 3 * pbot) := by
  unfold P
  rw [lit_eq, lit_eq, linspace_fin _ _ hk, pow_fin, ho, fin_mul]
  simp

/-- **C62** With at least two levels, the pressures start at zero, end at `pbot` and, for positive `pbot`, increase
strictly. -/
theorem pressure_levels {o : Opts (Fl α)} {pbot : α} (ho : o.pbot = .fin pbot) (hn : 2 ≤ o.nk) :
    P o 0 = .fin 0 ∧ P o (o.nk - 1) = .fin pbot ∧
    (0 < pbot → ∀ k k', k < k' → k' < o.nk → lt (P o k) (P o k') = true) := by
  refine ⟨?_, ?_, fun hp k k' h h' => ?_⟩
  · rw [P_fin ho (by omega), frac_zero]
    simp
  · rw [P_fin ho (by omega), frac_last hn]
    simp
  · rw [P_fin ho (h.trans h'), P_fin ho h', lt_fin, decide_eq_true_iff]
    exact mul_lt_mul_of_pos_right (pow_lt_pow_left₀ (frac_lt h h') (frac_nonneg _ _) (by decide)) hp

/-- **C98** With one level the last pressure is zero whatever `pbot` was asked for, contrary to the documentation of
`pbot`. -/
theorem pressure_single_false {o : Opts (Fl α)} {pbot : α} (ho : o.pbot = .fin pbot) (hn : o.nk = 1) (hp : pbot ≠ 0) :
    P o (o.nk - 1) = .fin 0 ∧ P o (o.nk - 1) ≠ o.pbot := by
  have : P o (o.nk - 1) = .fin 0 := by
    rw [P_fin ho (by omega), hn, frac_zero]
    simp
  refine ⟨this, ?_⟩
  rw [this, ho]
  simp [Ne.symm hp]

/-! ### Salinity -/

/-- Latitude scaled, as a number. -/
def xv (nj j : ℕ) : α := (-73 + 140 * frac nj j) / (41.14 : ℚ)

theorem xx_fin {o : Opts (Fl α)} {j : ℕ} (hj : j < o.nj) : xx o j = .fin (xv o.nj j) := by
  unfold xx xv
  have h : (((41.14 : ℚ)) : α) ≠ 0 := by
    rw [Rat.cast_ne_zero]; norm_num
  rw [lit_eq, lit_eq, lit_eq, lit_eq, linspace_fin _ _ hj, fin_sub, fin_div _ _ h]
  congr 2
  push_cast
  ring

/-- Longitude scaled, as a number. -/
def Xv (ni i : ℕ) : α := -1 + 2 * frac ni i

theorem X_fin {o : Opts (Fl α)} {i : ℕ} (hi : i < o.ni) : X o i = .fin (Xv o.ni i) := by
  unfold X Xv
  rw [lit_eq, lit_eq, linspace_fin _ _ hi]
  congr 1
  push_cast
  ring

/-- Surface salinity without the southern anomaly, as a number. -/
def sv (u : Bool) (ni nj i j : ℕ) : α :=
  let x : α := xv nj j
  let s := ((0.2221 : ℚ) : α) * x ^ 4 + ((-0.09487 : ℚ) : α) * x ^ 3 + ((-1.355 : ℚ) : α) * x ^ 2 + ((-0.126 : ℚ) : α) * x
    + ((35.59 : ℚ) : α)
  if u then s else s + (((0.4 : ℚ) : α) + ((0.5 : ℚ) : α) * Xv ni i - ((0.8 : ℚ) : α) * Xv ni i ^ 2)

theorem Ss_fin {o : Opts (Fl α)} {a : α} (ho : o.ssssa = .fin a) {i j : ℕ} (hi : i < o.ni) (hj : j < o.nj) :
    Ss o i j = .fin (sv o.uniform o.ni o.nj i j + a * (1 - frac o.nj j)) := by
  unfold Ss sv
  simp only [xx_fin hj, X_fin hi, pow_fin, lit_eq, fin_mul, fin_add, fin_sub, ho]
  rw [linspace_fin _ _ hj]
  have e : a + (((0 : ℚ) : α) - a) * frac o.nj j = a * (1 - frac o.nj j) := by push_cast; ring
  rw [e]
  split_ifs <;> rw [fin_add]

theorem Sb_fin {o : Opts (Fl α)} {j : ℕ} (hj : j < o.nj) :
    Sb o j = .fin (((34.7 : ℚ) : α) + (((34.5 : ℚ) : α) - ((34.7 : ℚ) : α)) * frac o.nj j) := by
  unfold Sb
  rw [lit_eq, lit_eq, linspace_fin _ _ hj]

/-- Salinity, as a number: linear in the level fraction between surface and bottom. -/
def salt (u : Bool) (ni nj nk : ℕ) (a : α) (i j k : ℕ) : α :=
  let b := ((34.7 : ℚ) : α) + (((34.5 : ℚ) : α) - ((34.7 : ℚ) : α)) * frac nj j
  let s := sv u ni nj i j + a * (1 - frac nj j)
  frac nk k * (b - s) + s

/-- A column is a wall when it is in the first row of a direction that is not periodic. -/
def IsWall {F : Type*} (o : Opts F) (i j : ℕ) : Prop := (o.wrap0 = false ∧ i = 0) ∨ (o.wrap1 = false ∧ j = 0)

theorem wall_iff {F : Type*} {o : Opts F} {i j : ℕ} : wall o i j = true ↔ IsWall o i j := by
  simp [wall, IsWall]

theorem S_fin {o : Opts (Fl α)} {a : α} (ho : o.ssssa = .fin a) {i j k : ℕ} (hi : i < o.ni) (hj : j < o.nj) (hk : k < o.nk)
    (hw : ¬ IsWall o i j) : S o i j k = .fin (salt o.uniform o.ni o.nj o.nk a i j k) := by
  unfold S salt
  rw [if_neg (by rwa [wall_iff]), Ss_fin ho hi hj, Sb_fin hj, lit_eq, lit_eq, linspace_fin _ _ hk]
  simp only [fin_sub, fin_mul, fin_add]
  congr 2
  push_cast
  ring

/-- **C62** For every finite anomaly, salinity is NaN exactly on the requested walls. -/
theorem salinity_nan_iff {o : Opts (Fl α)} {a : α} (ho : o.ssssa = .fin a) {i j k : ℕ} (hi : i < o.ni) (hj : j < o.nj)
    (hk : k < o.nk) : isNaN (S o i j k) = true ↔ IsWall o i j := by
  by_cases hw : IsWall o i j
  · simp only [hw, iff_true]
    unfold S
    rw [if_pos (wall_iff.mpr hw)]
    rfl
  · rw [S_fin ho hi hj hk hw]
    simp [hw]

/-- **C99** The southern anomaly raises the surface salinity by `SSSSa` in the southernmost cells, by nothing in the
northernmost cells and linearly between; the bottom salinity does not depend on it. -/
theorem salinity_anomaly {o o' : Opts (Fl α)} {a : α} (ho : o.ssssa = .fin a)
    (ho' : o' = {o with ssssa := .fin 0}) {i j : ℕ} (hi : i < o.ni) (hj : j < o.nj) (hk : 2 ≤ o.nk) (hw : ¬ IsWall o i j) :
    ∃ s s' : α, S o i j 0 = .fin s ∧ S o' i j 0 = .fin s' ∧ s - s' = a * (1 - frac o.nj j) ∧
      S o i j (o.nk - 1) = S o' i j (o.nk - 1) := by
  subst ho'
  have h2 := S_fin (o := {o with ssssa := .fin 0}) (a := (0 : α)) rfl (i := i) (j := j) (k := 0) hi hj (by dsimp only; omega) hw
  have h4 := S_fin (o := {o with ssssa := .fin 0}) (a := (0 : α)) rfl (i := i) (j := j) (k := o.nk - 1) hi hj (by dsimp only; omega) hw
  refine ⟨_, _, S_fin ho hi hj (by omega) hw, h2, ?_, ?_⟩
  · simp only [salt, frac_zero]
    ring
  · rw [S_fin ho hi hj (by omega) hw, h4]
    simp only [salt, frac_last hk]
    congr 1
    ring

/-! ### Temperature -/

/-- Surface temperature before scaling, as a number. -/
def tv (u : Bool) (ni nj i j : ℕ) : α :=
  let x : α := xv nj j
  let t := ((0.6265 : ℚ) : α) * x ^ 5 + ((3.269 : ℚ) : α) * x ^ 4 + ((-3.602 : ℚ) : α) * x ^ 3 + ((-18.93 : ℚ) : α) * x ^ 2
    + ((5.927 : ℚ) : α) * x + ((27.41 : ℚ) : α)
  if u then t else t - ((1.5 : ℚ) : α) * Xv ni i

theorem rawT_fin {o : Opts (Fl α)} {i j : ℕ} (hi : i < o.ni) (hj : j < o.nj) :
    rawT o i j = .fin (tv o.uniform o.ni o.nj i j) := by
  unfold rawT tv
  simp only [xx_fin hj, X_fin hi, pow_fin, lit_eq, fin_mul, fin_add, fin_sub]
  split_ifs <;> rfl

theorem foldl_fmin : ∀ (l : List α) (x : α), ∃ m ∈ x :: l, (l.map Fl.fin).foldl fmin (.fin x) = .fin m ∧ ∀ y ∈ x :: l, m ≤ y
  | [], x => ⟨x, by simp, rfl, by simp⟩
  | z :: l, x => by
    obtain ⟨m, hm, e, h⟩ := foldl_fmin l (min x z)
    refine ⟨m, ?_, ?_, ?_⟩
    · rcases List.mem_cons.mp hm with rfl | h'
      · rcases min_choice x z with e | e <;> rw [e] <;> simp
      · simp [h']
    · rw [List.map_cons, List.foldl_cons, fmin_fin, e]
    · intro y hy
      have hmin := h (min x z) (by simp)
      rcases List.mem_cons.mp hy with rfl | hy
      · exact hmin.trans (min_le_left _ _)
      · rcases List.mem_cons.mp hy with rfl | hy
        · exact hmin.trans (min_le_right _ _)
        · exact h y (by simp [hy])

theorem foldl_fmax : ∀ (l : List α) (x : α), ∃ m ∈ x :: l, (l.map Fl.fin).foldl fmax (.fin x) = .fin m ∧ ∀ y ∈ x :: l, y ≤ m
  | [], x => ⟨x, by simp, rfl, by simp⟩
  | z :: l, x => by
    obtain ⟨m, hm, e, h⟩ := foldl_fmax l (max x z)
    refine ⟨m, ?_, ?_, ?_⟩
    · rcases List.mem_cons.mp hm with rfl | h'
      · rcases max_choice x z with e | e <;> rw [e] <;> simp
      · simp [h']
    · rw [List.map_cons, List.foldl_cons, fmax_fin, e]
    · intro y hy
      have hmax := h (max x z) (by simp)
      rcases List.mem_cons.mp hy with rfl | hy
      · exact (le_max_left _ _).trans hmax
      · rcases List.mem_cons.mp hy with rfl | hy
        · exact (le_max_right _ _).trans hmax
        · exact h y (by simp [hy])

theorem cells_fin {ni nj : ℕ} {f : ℕ → ℕ → Fl α} {g : ℕ → ℕ → α} (h : ∀ i < ni, ∀ j < nj, f i j = .fin (g i j)) :
    cells ni nj f = ((List.range ni).flatMap fun i => (List.range nj).map fun j => g i j).map Fl.fin := by
  unfold cells
  rw [List.map_flatMap]
  apply List.flatMap_congr
  intro i hi
  rw [List.map_map]
  apply List.map_congr_left
  intro j hj
  exact h i (List.mem_range.mp hi) j (List.mem_range.mp hj)

/-- `lo` and `hi` are the extremes of the raw surface temperature. -/
theorem extremes {o : Opts (Fl α)} (hi : 1 ≤ o.ni) (hj : 1 ≤ o.nj) : ∃ lo hi : α,
    amin (cells o.ni o.nj (rawT o)) = some (.fin lo) ∧ amax (cells o.ni o.nj (rawT o)) = some (.fin hi) ∧
    (∃ i < o.ni, ∃ j < o.nj, tv o.uniform o.ni o.nj i j = lo) ∧ (∃ i < o.ni, ∃ j < o.nj, tv o.uniform o.ni o.nj i j = hi) ∧
    ∀ i < o.ni, ∀ j < o.nj, lo ≤ tv o.uniform o.ni o.nj i j ∧ tv o.uniform o.ni o.nj i j ≤ hi := by
  rw [cells_fin (f := rawT o) (g := tv o.uniform o.ni o.nj) (fun i hi j hj => rawT_fin hi hj)]
  have hm : ∀ y : α, (y ∈ (List.range o.ni).flatMap fun i => (List.range o.nj).map fun j => tv o.uniform o.ni o.nj i j) ↔
      ∃ i < o.ni, ∃ j < o.nj, tv o.uniform o.ni o.nj i j = y := by
    intro y
    simp
  generalize hl : ((List.range o.ni).flatMap fun i => (List.range o.nj).map fun j => (tv o.uniform o.ni o.nj i j : α)) = l at hm
  cases l with
  | nil => exact absurd ((hm _).mpr ⟨0, hi, 0, hj, rfl⟩) (by simp)
  | cons x l =>
    obtain ⟨m, h1, h2, h3⟩ := foldl_fmin l x
    obtain ⟨M, h4, h5, h6⟩ := foldl_fmax l x
    refine ⟨m, M, ?_, ?_, (hm _).mp h1, (hm _).mp h4, fun i hi j hj => ⟨h3 _ ((hm _).mpr ⟨i, hi, j, hj, rfl⟩), h6 _ ((hm _).mpr ⟨i, hi, j, hj, rfl⟩)⟩⟩
    · rw [List.map_cons, amin, h2]
    · rw [List.map_cons, amax, h5]

/-- The grid is large enough for the surface temperature to vary. -/
def Varies (o : Opts F) : Prop := 2 ≤ o.nj ∨ (2 ≤ o.ni ∧ o.uniform = false)

theorem tv_varies {o : Opts F} (hi : 1 ≤ o.ni) (hj : 1 ≤ o.nj) (h : Varies o) : ∃ i < o.ni, ∃ j < o.nj, ∃ i' < o.ni, ∃ j' < o.nj,
    tv o.uniform o.ni o.nj i j ≠ (tv o.uniform o.ni o.nj i' j' : α) := by
  rcases h with h | ⟨h, hu⟩
  · refine ⟨0, hi, 0, hj, 0, hi, o.nj - 1, by omega, fun e => ?_⟩
    have e0 : (xv o.nj 0 : α) = -73 / (41.14 : ℚ) := by simp [xv, frac_zero]
    have e1 : (xv o.nj (o.nj - 1) : α) = 67 / (41.14 : ℚ) := by
      rw [xv, frac_last h]
      norm_num
    unfold tv at e
    rw [e0, e1] at e
    split_ifs at e
    · revert e
      norm_num
    · have e := sub_left_injective e
      revert e
      norm_num
  · refine ⟨0, by omega, 0, hj, 1, by omega, 0, hj, fun e => ?_⟩
    simp only [tv, hu, Bool.false_eq_true, if_false, sub_right_inj] at e
    have e' : (Xv o.ni 0 : α) = Xv o.ni 1 := by
      have : ((1.5 : ℚ) : α) ≠ 0 := by rw [Rat.cast_ne_zero]; norm_num
      exact mul_left_cancel₀ this e
    have := frac_lt (α := α) (n := o.ni) (i := 0) (i' := 1) (by omega) (by omega)
    simp only [Xv] at e'
    linarith

/-- The temperature as the code computes it from the surface and bottom values. -/
theorem T_fin {o : Opts (Fl α)} {i j k : ℕ} (hi : i < o.ni) (hj : j < o.nj) (hk : k < o.nk) (hv : Varies o)
    (hw : ¬ IsWall o i j) : ∃ θ : α, 0 ≤ θ ∧ θ ≤ 1 ∧
      T o i j k = some (.fin (frac o.nk k * (frac o.nj j - 19 / 10 - (θ * (318 / 10) - 18 / 10)) + (θ * (318 / 10) - 18 / 10))) := by
  obtain ⟨lo, hi', e1, e2, ⟨i1, hi1, j1, hj1, f1⟩, ⟨i2, hi2, j2, hj2, f2⟩, h⟩ := extremes (o := o) (by omega) (by omega)
  have hlt : lo < hi' := by
    obtain ⟨a, ha, b, hb, c, hc, d, hd, hne⟩ := tv_varies (α := α) (o := o) (by omega) (by omega) hv
    rcases lt_or_gt_of_ne hne with hh | hh
    · exact lt_of_le_of_lt (h a ha b hb).1 (lt_of_lt_of_le hh (h c hc d hd).2)
    · exact lt_of_le_of_lt (h c hc d hd).1 (lt_of_lt_of_le hh (h a ha b hb).2)
  have hd : hi' - lo ≠ 0 := sub_ne_zero.mpr hlt.ne'
  refine ⟨(tv o.uniform o.ni o.nj i j - lo) / (hi' - lo), div_nonneg (sub_nonneg.mpr (h i hi j hj).1) (sub_nonneg.mpr hlt.le), ?_, ?_⟩
  · rw [div_le_one (sub_pos.mpr hlt)]
    exact sub_le_sub_right (h i hi j hj).2 _
  · unfold T Ts
    rw [e1, e2, Option.bind_eq_bind, Option.bind_some, Option.bind_some, Option.bind_some]
    rw [if_neg (by rwa [wall_iff]), rawT_fin hi hj, fin_sub, fin_sub, fin_div _ _ hd, Tb, lit_eq, lit_eq, lit_eq, lit_eq, lit_eq,
      linspace_fin _ _ hk, linspace_fin _ _ hj]
    simp only [fin_sub, fin_mul, fin_add]
    congr 2
    push_cast
    ring

/-- **C62** When the grid is at least two cells wide north to south (or, with zonal structure, east to west), temperature
is finite except on the requested walls, lies between -1.9 and 30, and at the surface between -1.8 and 30. -/
theorem temperature_range {o : Opts (Fl α)} {i j k : ℕ} (hi : i < o.ni) (hj : j < o.nj) (hk : k < o.nk) (hv : Varies o) :
    (IsWall o i j → T o i j k = some FloatLike.nan) ∧
    (¬ IsWall o i j → ∃ t : α, T o i j k = some (.fin t) ∧ -19 / 10 ≤ t ∧ t ≤ 30 ∧ (k = 0 → -18 / 10 ≤ t)) := by
  constructor
  · intro hw
    obtain ⟨lo, hi', e1, e2, -⟩ := extremes (o := o) (by omega) (by omega)
    unfold T Ts
    rw [e1, e2, Option.bind_eq_bind, Option.bind_some, Option.bind_some, Option.bind_some,
      if_pos (wall_iff.mpr hw)]
  · intro hw
    obtain ⟨θ, h0, h1, e⟩ := T_fin hi hj hk hv hw
    have f0 := frac_nonneg (α := α) o.nk k
    have f1 := frac_le_one (α := α) hk
    have g0 := frac_nonneg (α := α) o.nj j
    have g1 := frac_le_one (α := α) hj
    refine ⟨_, e, ?_, ?_, ?_⟩
    · nlinarith [mul_nonneg f0 g0, mul_nonneg (sub_nonneg.mpr f1) h0]
    · nlinarith [mul_nonneg f0 (sub_nonneg.mpr g1), mul_nonneg (sub_nonneg.mpr f1) (sub_nonneg.mpr h1)]
    · rintro rfl
      rw [frac_zero]
      linarith

/-- **C98** On a single column (or a single row of latitude of a zonally uniform ocean) every temperature is NaN, also
off the walls. -/
theorem temperature_single_false {o : Opts (Fl α)} {i j k : ℕ} (hi : i < o.ni) (hj : j < o.nj) (hv : ¬ Varies o) :
    T o i j k = some FloatLike.nan := by
  obtain ⟨lo, hi', e1, e2, ⟨i1, hi1, j1, hj1, f1⟩, ⟨i2, hi2, j2, hj2, f2⟩, h⟩ := extremes (o := o) (by omega) (by omega)
  have hc : ∀ a < o.ni, ∀ b < o.nj, tv o.uniform o.ni o.nj a b = (tv o.uniform o.ni o.nj 0 0 : α) := by
    intro a ha b hb
    unfold Varies at hv
    push Not at hv
    obtain rfl : b = 0 := by omega
    cases hu : o.uniform
    · have := hv.2
      obtain rfl : a = 0 := by
        by_contra h
        exact hv.2 (by omega) hu
      rfl
    · rfl
  have hlh : hi' - lo = 0 := by
    rw [← f1, ← f2, hc _ hi1 _ hj1, hc _ hi2 _ hj2, sub_self]
  have hz : tv o.uniform o.ni o.nj i j - lo = (0 : α) := by
    rw [← f1, hc _ hi1 _ hj1, hc _ hi _ hj, sub_self]
  have hnan : (Fl.fin (0 : α) / Fl.fin 0 : Fl α) = FloatLike.nan := by
    show (if (0 : α) = 0 then (if (0 : α) < 0 then Fl.pinf else if (0 : α) < 0 then Fl.ninf else Fl.nan) else _) = _
    simp
  unfold T Ts
  rw [e1, e2, Option.bind_eq_bind, Option.bind_some, Option.bind_some, Option.bind_some]
  split_ifs
  · rfl
  · rw [rawT_fin hi hj, fin_sub, fin_sub, hlh, hz, hnan]
    simp

/-- **C99** A zonally uniform ocean does not depend on longitude away from walls. -/
theorem zonally_uniform {o : Opts (Fl α)} {a : α} (ho : o.ssssa = .fin a) (hu : o.uniform = true) {i i' j k : ℕ}
    (hi : i < o.ni) (hi' : i' < o.ni) (hj : j < o.nj) (hk : k < o.nk) (hw : ¬ IsWall o i j) (hw' : ¬ IsWall o i' j) :
    S o i j k = S o i' j k ∧ T o i j k = T o i' j k := by
  constructor
  · rw [S_fin ho hi hj hk hw, S_fin ho hi' hj hk hw']
    simp [salt, sv, hu]
  · have : rawT o i j = rawT o i' j := by
      rw [rawT_fin hi hj, rawT_fin hi' hj]
      simp [tv, hu]
    unfold T Ts
    rw [this, show wall o i j = wall o i' j by
      rw [Bool.eq_iff_iff, wall_iff, wall_iff]
      tauto]

/-- A small ocean with walls in both directions. -/
def demo : Opts (Fl ℚ) := ⟨3, 4, 5, .fin 4000, .fin (3 / 10), false, false, true⟩

example : Varies demo ∧ IsWall demo 0 2 ∧ ¬ IsWall demo 1 0 ∧ 2 ≤ demo.nk := by
  simp [Varies, IsWall, demo]

example : P demo 2 = .fin 500 := by decide +kernel

example : ∃ o : Opts (Fl ℚ), ¬ Varies o ∧ o.ni = 4 ∧ o.nj = 1 := ⟨⟨4, 1, 5, .fin 4000, .fin 0, true, false, true⟩, by simp [Varies]⟩

/-! ### Geometry -/

/-- **C99** The tracer cells tile the band between 80°S and 60°N: their areas are positive and add up to the area of
that band of the sphere. -/
theorem total_area {ni nj : ℕ} (hi : 1 ≤ ni) (hj : 1 ≤ nj) : (∀ j < nj, 0 < RAC ni nj j) ∧
    ∑ j ∈ Finset.range nj, (ni : ℝ) * RAC ni nj j =
      2 * Real.pi * rSphere ^ 2 * (Real.sin (60 * (Real.pi / 180)) - Real.sin (-80 * (Real.pi / 180))) := by
  have hni : (0 : ℝ) < ni := by exact_mod_cast hi
  have hnj : (0 : ℝ) < nj := by exact_mod_cast hj
  have hstep : ∀ j : ℕ, YG nj j + 1 / resy nj = YG nj (j + 1) := by
    intro j
    unfold YG resy
    push_cast
    field_simp
    ring
  have hYG : ∀ j : ℕ, YG nj j = -80 + 140 * (j / nj) := by
    intro j
    unfold YG resy
    field_simp
    norm_num
  have hsin : ∀ j < nj, Real.sin (YG nj j * deg2rad) < Real.sin (YG nj (j + 1) * deg2rad) := by
    intro j hj'
    have h1 : (j : ℝ) / nj < ((j + 1 : ℕ) : ℝ) / nj := by
      apply div_lt_div_of_pos_right _ hnj
      push_cast
      linarith
    have h2 : ((j + 1 : ℕ) : ℝ) / nj ≤ 1 := by
      rw [div_le_one hnj]
      exact_mod_cast hj'
    have h3 : (0 : ℝ) ≤ (j : ℝ) / nj := by positivity
    have hpi := Real.pi_pos
    apply Real.strictMonoOn_sin
    · rw [hYG, deg2rad]
      constructor <;> nlinarith
    · rw [hYG, deg2rad]
      constructor <;> nlinarith
    · rw [hYG, hYG, deg2rad]
      nlinarith
  have habs : ∀ j < nj, RAC ni nj j = rSphere * rSphere / resx ni * deg2rad *
      (Real.sin (YG nj (j + 1) * deg2rad) - Real.sin (YG nj j * deg2rad)) := by
    intro j hj'
    unfold RAC
    rw [hstep, abs_of_pos (sub_pos.mpr (hsin j hj'))]
  have hpos : 0 < rSphere * rSphere / resx ni * deg2rad := by
    have : 0 < resx ni := by unfold resx; positivity
    have : 0 < deg2rad := by unfold deg2rad; have := Real.pi_pos; positivity
    unfold rSphere
    positivity
  constructor
  · intro j hj'
    rw [habs j hj']
    exact mul_pos hpos (sub_pos.mpr (hsin j hj'))
  · rw [Finset.sum_congr rfl (g := fun j => ni * (rSphere * rSphere / resx ni * deg2rad) *
      (Real.sin (YG nj (j + 1) * deg2rad) - Real.sin (YG nj j * deg2rad)))
      (fun j hj' => by rw [habs j (Finset.mem_range.mp hj')]; ring)]
    rw [← Finset.mul_sum, Finset.sum_range_sub (fun j => Real.sin (YG nj j * deg2rad))]
    rw [hYG nj, hYG 0, div_self hnj.ne']
    unfold resx deg2rad
    have h0 : ((0 : ℕ) : ℝ) / nj = 0 := by simp
    rw [h0]
    have e1 : (-80 + 140 * (1 : ℝ)) = 60 := by norm_num
    have e2 : (-80 + 140 * (0 : ℝ)) = -80 := by norm_num
    rw [e1, e2]
    field_simp
    ring

example : ∃ ni nj : ℕ, 1 ≤ ni ∧ 1 ≤ nj ∧ 2 ≤ nj := ⟨16, 17, by norm_num, by norm_num, by norm_num⟩

end Synthocean
