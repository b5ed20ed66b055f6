import Verif.Model.OmegaMat
import Verif.Props.Lib
import Mathlib.Algebra.BigOperators.Ring.Finset
import Mathlib.Algebra.Order.BigOperators.Group.Finset
import Mathlib.LinearAlgebra.FiniteDimensional.Basic
import Mathlib.Logic.Relation
import Mathlib.Tactic.Linarith
import Mathlib.Tactic.Ring
import Mathlib.Tactic.LinearCombination

/-! # Linear algebra of the pinned graph Laplacian -/

namespace OmegaMat
open Finset

set_option linter.unusedSectionVars false

variable {α : Type*} [Field α] [LinearOrder α] [IsStrictOrderedRing α]

/-- Value of the weighted Laplacian applied to `x`, at node `r`: net outflow of `w * (x a - x b)`. -/
def lap (R : List (Row α)) (x : ℕ → α) (r : ℕ) : α :=
  (R.map fun k => (if k.a = r then k.w * (x k.a - x k.b) else 0) + (if k.b = r then k.w * (x k.b - x k.a) else 0)).sum

/-- net outflow of the scaled errors from node `r` -/
def div (R : List (Row α)) (r : ℕ) : α :=
  (R.map fun k => (if k.a = r then k.e else 0) - (if k.b = r then k.e else 0)).sum

/-- quadratic form -/
def energy (R : List (Row α)) (x : ℕ → α) : α := (R.map fun k => k.w * (x k.a - x k.b) ^ 2).sum

theorem lap_cons (k : Row α) (R : List (Row α)) (x : ℕ → α) (r : ℕ) :
    lap (k :: R) x r = (if k.a = r then k.w * (x k.a - x k.b) else 0) + (if k.b = r then k.w * (x k.b - x k.a) else 0) + lap R x r := by
  unfold lap; rw [List.map_cons, List.sum_cons]

theorem div_cons (k : Row α) (R : List (Row α)) (r : ℕ) :
    div (k :: R) r = (if k.a = r then k.e else 0) - (if k.b = r then k.e else 0) + div R r := by
  unfold div; rw [List.map_cons, List.sum_cons]

theorem energy_cons (k : Row α) (R : List (Row α)) (x : ℕ → α) :
    energy (k :: R) x = k.w * (x k.a - x k.b) ^ 2 + energy R x := by
  unfold energy; rw [List.map_cons, List.sum_cons]

theorem sum_pick (N a : ℕ) (ha : a < N) (f : ℕ → α) : ∑ r ∈ range N, (if a = r then f r else 0) = f a := by
  rw [Finset.sum_ite_eq, if_pos (mem_range.2 ha)]

theorem div_eq (R : List (Row α)) (r : ℕ) : div R r =
    (R.map fun k => if k.a = r then k.e else 0).sum - (R.map fun k => if k.b = r then k.e else 0).sum := by
  induction R with
  | nil => simp [div]
  | cons k R ih => rw [div_cons, ih, List.map_cons, List.map_cons, List.sum_cons, List.sum_cons]; ring

theorem lap_sum {N : ℕ} {R : List (Row α)} (hR : ∀ k ∈ R, k.a < N ∧ k.b < N) (x : ℕ → α) : ∑ r ∈ range N, lap R x r = 0 := by
  induction R with
  | nil => exact Finset.sum_eq_zero fun _ _ => rfl
  | cons k R ih =>
    simp only [lap_cons, Finset.sum_add_distrib, ih fun k hk => hR k (List.mem_cons_of_mem _ hk)]
    obtain ⟨h1, h2⟩ := hR k List.mem_cons_self
    rw [sum_pick N k.a h1 fun _ => k.w * (x k.a - x k.b), sum_pick N k.b h2 fun _ => k.w * (x k.b - x k.a)]
    ring

theorem div_sum {N : ℕ} {R : List (Row α)} (hR : ∀ k ∈ R, k.a < N ∧ k.b < N) : ∑ r ∈ range N, div R r = 0 := by
  induction R with
  | nil => exact Finset.sum_eq_zero fun _ _ => rfl
  | cons k R ih =>
    simp only [div_cons, Finset.sum_add_distrib, Finset.sum_sub_distrib, ih fun k hk => hR k (List.mem_cons_of_mem _ hk)]
    obtain ⟨h1, h2⟩ := hR k List.mem_cons_self
    rw [sum_pick N k.a h1 fun _ => k.e, sum_pick N k.b h2 fun _ => k.e]
    ring

theorem lap_energy {N : ℕ} {R : List (Row α)} (hR : ∀ k ∈ R, k.a < N ∧ k.b < N) (x y : ℕ → α) :
    ∑ r ∈ range N, y r * lap R x r = (R.map fun k => k.w * (x k.a - x k.b) * (y k.a - y k.b)).sum := by
  induction R with
  | nil => simp [lap]
  | cons k R ih =>
    simp only [lap_cons, mul_add, Finset.sum_add_distrib, ih fun k hk => hR k (List.mem_cons_of_mem _ hk), mul_ite, mul_zero,
      List.map_cons, List.sum_cons]
    obtain ⟨h1, h2⟩ := hR k List.mem_cons_self
    rw [sum_pick N k.a h1 fun r => y r * (k.w * (x k.a - x k.b)), sum_pick N k.b h2 fun r => y r * (k.w * (x k.b - x k.a))]
    ring

theorem div_pair {N : ℕ} {R : List (Row α)} (hR : ∀ k ∈ R, k.a < N ∧ k.b < N) (y : ℕ → α) :
    ∑ r ∈ range N, y r * div R r = (R.map fun k => k.e * (y k.a - y k.b)).sum := by
  induction R with
  | nil => simp [div]
  | cons k R ih =>
    simp only [div_cons, mul_add, mul_sub, Finset.sum_add_distrib, Finset.sum_sub_distrib,
      ih fun k hk => hR k (List.mem_cons_of_mem _ hk), mul_ite, mul_zero, List.map_cons, List.sum_cons]
    obtain ⟨h1, h2⟩ := hR k List.mem_cons_self
    rw [sum_pick N k.a h1 fun r => y r * k.e, sum_pick N k.b h2 fun r => y r * k.e]
    ring

theorem energy_nonneg {R : List (Row α)} (hw : ∀ k ∈ R, 0 < k.w) (x : ℕ → α) : 0 ≤ energy R x := by
  induction R with
  | nil => simp [energy]
  | cons k R ih =>
    rw [energy_cons]
    have := ih fun k hk => hw k (List.mem_cons_of_mem _ hk)
    have := mul_nonneg (hw k List.mem_cons_self).le (sq_nonneg (x k.a - x k.b))
    linarith

theorem energy_zero {R : List (Row α)} (hw : ∀ k ∈ R, 0 < k.w) (x : ℕ → α) (h : energy R x = 0) : ∀ k ∈ R, x k.a = x k.b := by
  induction R with
  | nil => simp
  | cons k R ih =>
    rw [energy_cons] at h
    have h1 := energy_nonneg (fun k hk => hw k (List.mem_cons_of_mem _ hk)) x
    have hk := hw k List.mem_cons_self
    have h2 := mul_nonneg hk.le (sq_nonneg (x k.a - x k.b))
    intro j hj
    rcases List.mem_cons.1 hj with rfl | hj
    · have : j.w * (x j.a - x j.b) ^ 2 = 0 := by linarith
      rcases mul_eq_zero.1 this with h | h
      · exact absurd h hk.ne'
      · exact sub_eq_zero.1 (pow_eq_zero_iff two_ne_zero |>.1 h)
    · exact ih (fun k hk => hw k (List.mem_cons_of_mem _ hk)) (by linarith) j hj

/-- `x` and `y` are the ends of an edge -/
def Adj (R : List (Row α)) (i j : ℕ) : Prop := ∃ k ∈ R, (k.a = i ∧ k.b = j) ∨ (k.a = j ∧ k.b = i)

/-- every node below `N` is linked to `ref` -/
def Conn (R : List (Row α)) (N ref : ℕ) : Prop := ∀ i < N, Relation.ReflTransGen (Adj R) ref i

theorem const_of_conn {R : List (Row α)} {N ref : ℕ} (hc : Conn R N ref) (x : ℕ → α) (h : ∀ k ∈ R, x k.a = x k.b) :
    ∀ i < N, x i = x ref := by
  intro i hi
  have hi' := hc i hi
  clear hi
  induction hi' with
  | refl => rfl
  | tail _ h2 ih =>
    obtain ⟨k, hk, ⟨rfl, rfl⟩ | ⟨rfl, rfl⟩⟩ := h2
    · rw [← h k hk, ih]
    · rw [h k hk, ih]

/-- the pinned operator -/
def pinned (R : List (Row α)) (ref : ℕ) (x : ℕ → α) (r : ℕ) : α := lap R x r + if r = ref then x ref else 0

theorem pinned_energy {N ref : ℕ} {R : List (Row α)} (hR : ∀ k ∈ R, k.a < N ∧ k.b < N) (href : ref < N) (x : ℕ → α) :
    ∑ r ∈ range N, x r * pinned R ref x r = energy R x + x ref ^ 2 := by
  simp only [pinned, mul_add, Finset.sum_add_distrib, lap_energy hR, mul_ite, mul_zero]
  congr 1
  · unfold energy; congr 1; apply List.map_congr_left; intro k _; ring
  · have : ∀ r, (if r = ref then x r * x ref else 0) = (if ref = r then x r * x ref else 0) := fun r => by simp only [eq_comm]
    simp only [this, sum_pick N ref href fun r => x r * x ref]; ring

theorem pinned_inj {N ref : ℕ} {R : List (Row α)} (hR : ∀ k ∈ R, k.a < N ∧ k.b < N) (hw : ∀ k ∈ R, 0 < k.w)
    (href : ref < N) (hc : Conn R N ref) (x : ℕ → α) (h : ∀ r < N, pinned R ref x r = 0) : ∀ r < N, x r = 0 := by
  have h1 : energy R x + x ref ^ 2 = 0 := by
    rw [← pinned_energy hR href]
    exact Finset.sum_eq_zero fun r hr => by rw [h r (mem_range.1 hr), mul_zero]
  have h2 := energy_nonneg hw x
  have h3 := sq_nonneg (x ref)
  have h4 : x ref = 0 := pow_eq_zero_iff two_ne_zero |>.1 (by linarith : x ref ^ 2 = 0)
  intro r hr
  rw [const_of_conn hc x (energy_zero hw x (by linarith)) r hr, h4]

theorem lap_lin (R : List (Row α)) (x y : ℕ → α) (c : α) (r : ℕ) : lap R (fun i => c * x i + y i) r = c * lap R x r + lap R y r := by
  induction R with
  | nil => simp [lap]
  | cons k R ih =>
    simp only [lap_cons, ih]
    split_ifs <;> ring

theorem pinned_lin (R : List (Row α)) (ref : ℕ) (x y : ℕ → α) (c : α) (r : ℕ) :
    pinned R ref (fun i => c * x i + y i) r = c * pinned R ref x r + pinned R ref y r := by
  unfold pinned
  rw [lap_lin]
  split_ifs <;> ring

theorem lap_congr {N : ℕ} {R : List (Row α)} (hR : ∀ k ∈ R, k.a < N ∧ k.b < N) {x y : ℕ → α} (h : ∀ i < N, x i = y i) (r : ℕ) :
    lap R x r = lap R y r := by
  unfold lap
  congr 1
  apply List.map_congr_left
  intro k hk
  rw [h _ (hR k hk).1, h _ (hR k hk).2]

theorem pinned_congr {N ref : ℕ} {R : List (Row α)} (hR : ∀ k ∈ R, k.a < N ∧ k.b < N) (href : ref < N) {x y : ℕ → α}
    (h : ∀ i < N, x i = y i) (r : ℕ) : pinned R ref x r = pinned R ref y r := by
  unfold pinned
  rw [lap_congr hR h, h ref href]

/-- extension of a vector by zero -/
def ext {N : ℕ} (v : Fin N → α) (i : ℕ) : α := if h : i < N then v ⟨i, h⟩ else 0

/-- There is a solution for every right-hand side. -/
theorem pinned_surj {N ref : ℕ} {R : List (Row α)} (hR : ∀ k ∈ R, k.a < N ∧ k.b < N) (hw : ∀ k ∈ R, 0 < k.w)
    (href : ref < N) (hc : Conn R N ref) (d : ℕ → α) : ∃ x : ℕ → α, ∀ r < N, pinned R ref x r = d r := by
  let A : (Fin N → α) →ₗ[α] (Fin N → α) :=
    { toFun := fun v r => pinned R ref (ext v) r
      map_add' := by
        intro u v
        funext r
        have := pinned_lin R ref (ext u) (ext v) 1 r
        rw [one_mul] at this
        show pinned R ref (ext (u + v)) r = _
        rw [Pi.add_apply, ← this]
        congr 1
        funext i
        unfold ext; split_ifs <;> simp
      map_smul' := by
        intro c v
        funext r
        have := pinned_lin R ref (ext v) (fun _ => 0) c r
        have h0 : pinned R ref (fun _ => (0 : α)) r = 0 := by
          unfold pinned lap; simp
        rw [h0, add_zero] at this
        show pinned R ref (ext (c • v)) r = _
        rw [RingHom.id_apply, Pi.smul_apply, smul_eq_mul, ← this]
        congr 1
        funext i
        unfold ext; split_ifs <;> simp }
  have hinj : Function.Injective A := by
    rw [← LinearMap.ker_eq_bot, LinearMap.ker_eq_bot']
    intro v hv
    funext i
    have := pinned_inj hR hw href hc (ext v) (fun r hr => congrFun hv ⟨r, hr⟩) i i.2
    simpa [ext] using this
  obtain ⟨v, hv⟩ := LinearMap.injective_iff_surjective.1 hinj (fun i => d i)
  exact ⟨ext v, fun r hr => congrFun hv ⟨r, hr⟩⟩

/-- The reference value of a solution for the divergence is zero. -/
theorem pinned_ref_zero {N ref : ℕ} {R : List (Row α)} (hR : ∀ k ∈ R, k.a < N ∧ k.b < N) (href : ref < N) (x : ℕ → α)
    (h : ∀ r < N, pinned R ref x r = div R r) : x ref = 0 := by
  have h1 : ∑ r ∈ range N, pinned R ref x r = 0 := by
    rw [← div_sum hR]; exact Finset.sum_congr rfl fun r hr => h r (mem_range.1 hr)
  have e : ∀ r, (if r = ref then x ref else 0) = (if ref = r then x ref else 0) := fun r => by simp only [eq_comm]
  simp only [pinned, Finset.sum_add_distrib, lap_sum hR, e, sum_pick N ref href fun _ => x ref, zero_add] at h1
  exact h1

/-! ## The matrix of the model -/

open FloatLike Fl in
theorem entry_fin (trip : List (ℕ × ℕ × α)) (r c : ℕ) :
    entry (trip.map fun x => (x.1, x.2.1, Fl.fin x.2.2)) r c =
      .fin (((trip.filter fun x => decide (x.1 = r ∧ x.2.1 = c)).map fun x => x.2.2).sum) := by
  unfold entry
  rw [List.filter_map, List.map_map, lit_eq, Rat.cast_zero]
  have := Lib.foldl_fin ((trip.filter fun x => decide (x.1 = r ∧ x.2.1 = c)).map fun x => x.2.2) (0 : α)
  rw [zero_add, List.map_map] at this
  exact this

theorem filter_sum {β : Type*} (l : List β) (q : β → Bool) (f : β → α) :
    ((l.filter q).map f).sum = (l.map fun x => if q x then f x else 0).sum := by
  induction l with
  | nil => rfl
  | cons x l ih =>
    rw [List.filter_cons, List.map_cons, List.sum_cons, ← ih]
    split_ifs <;> simp

theorem entry_apply {N : ℕ} (trip : List (ℕ × ℕ × α)) (h : ∀ x ∈ trip, x.2.1 < N) (r : ℕ) (x : ℕ → α) :
    ∑ c ∈ range N, ((trip.filter fun x => decide (x.1 = r ∧ x.2.1 = c)).map fun x => x.2.2).sum * x c =
      (trip.map fun k => if k.1 = r then k.2.2 * x k.2.1 else 0).sum := by
  simp only [filter_sum]
  induction trip with
  | nil => simp
  | cons k trip ih =>
    simp only [List.map_cons, List.sum_cons, add_mul, Finset.sum_add_distrib, ih fun k hk => h k (List.mem_cons_of_mem _ hk)]
    congr 1
    by_cases hr : k.1 = r
    · simp only [hr, true_and, decide_eq_true_eq, if_true, ite_mul, zero_mul]
      exact sum_pick N k.2.1 (h k List.mem_cons_self) fun c => k.2.2 * x c
    · simp [hr]

theorem range_sum (N : ℕ) (f : ℕ → α) : ((List.range N).map f).sum = ∑ i ∈ range N, f i := by
  induction N with
  | zero => rfl
  | succ N ih => rw [List.range_succ, List.map_append, List.sum_append, Finset.sum_range_succ, ih]; simp

/-- a row of numbers as a row of floats -/
def toFl (k : Row α) : Row (Fl α) := ⟨k.a, k.b, .fin k.e, .fin k.w⟩

open FloatLike Fl in
theorem aggsum_rows (R : List (Row α)) (N : ℕ) (i : Row α → ℕ) (hi : ∀ k ∈ R, i k < N) (f : Row α → α) :
    ∃ b, Lib.aggsum (R.map fun k => ((i k : ℤ), Fl.fin (f k))) N = .ok b ∧
      ∀ g, b g = .fin (R.map fun k => if i k = g then f k else 0).sum := by
  obtain ⟨b, h1, h2⟩ := Lib.aggsum_exact (R.map fun k => ((i k : ℤ), f k)) N (by
    simp only [List.mem_map]
    rintro _ ⟨k, hk, rfl⟩
    show ((i k : ℕ) : ℤ) < N
    exact_mod_cast hi k hk)
  rw [List.map_map] at h1
  refine ⟨b, h1, fun g => ?_⟩
  rw [h2, filter_sum, List.map_map]
  simp only [Function.comp_def, decide_eq_true_eq, Nat.cast_inj]

open FloatLike Fl in
/-- The system of `_omega_matsolve_poisson` in exact arithmetic: the right-hand side is the divergence of the errors, and the
matrix acts as the pinned Laplacian. -/
theorem poissonSystem_exact (R : List (Row α)) (N ref : ℕ) (hR : ∀ k ∈ R, k.a < N ∧ k.b < N) (href : ref < N) :
    ∃ (D : ℕ → α) (L : ℕ → ℕ → α), poissonSystem (R.map toFl) N ref = .ok (fun i => .fin (D i), fun r c => .fin (L r c)) ∧
      (∀ r, D r = div R r) ∧ ∀ (x : ℕ → α), ∀ r < N, ∑ c ∈ range N, L r c * x c = pinned R ref x r := by
  obtain ⟨ea, h1, h1'⟩ := aggsum_rows R N (fun k => k.a) (fun k hk => (hR k hk).1) (fun k => k.e)
  obtain ⟨eb, h2, h2'⟩ := aggsum_rows R N (fun k => k.b) (fun k hk => (hR k hk).2) (fun k => k.e)
  obtain ⟨wa, h3, h3'⟩ := aggsum_rows R N (fun k => k.a) (fun k hk => (hR k hk).1) (fun k => k.w)
  obtain ⟨wb, h4, h4'⟩ := aggsum_rows R N (fun k => k.b) (fun k hk => (hR k hk).2) (fun k => k.w)
  let trip : List (ℕ × ℕ × α) := R.map (fun k => (k.a, k.b, -k.w)) ++ R.map (fun k => (k.b, k.a, -k.w)) ++
    (List.range N).map (fun i => (i, i, (R.map fun k => if k.a = i then k.w else 0).sum + (R.map fun k => if k.b = i then k.w else 0).sum))
  let ent : ℕ → ℕ → α := fun r c => ((trip.filter fun x => decide (x.1 = r ∧ x.2.1 = c)).map fun x => x.2.2).sum
  have ht : ∀ x ∈ trip, x.2.1 < N := by
    intro x hx
    simp only [trip, List.mem_append, List.mem_map, List.mem_range] at hx
    rcases hx with (⟨k, hk, rfl⟩ | ⟨k, hk, rfl⟩) | ⟨i, hi, rfl⟩
    · exact (hR k hk).2
    · exact (hR k hk).1
    · exact hi
  refine ⟨fun i => (R.map fun k => if k.a = i then k.e else 0).sum - (R.map fun k => if k.b = i then k.e else 0).sum,
    fun r c => if r = ref ∧ c = ref then ent r c + 1 else ent r c, ?_, ?_, ?_⟩
  · unfold poissonSystem
    simp only [List.map_map, Function.comp_def, toFl]
    rw [h1, h2, h3, h4]
    dsimp only
    have he : (R.map (fun k => (k.a, k.b, -(Fl.fin k.w))) ++ R.map (fun k => (k.b, k.a, -(Fl.fin k.w))) ++
        (List.range N).map (fun i => (i, i, wa i + wb i))) = trip.map fun x => (x.1, x.2.1, Fl.fin x.2.2) := by
      simp only [trip, List.map_append, List.map_map, Function.comp_def, h3', h4', fin_add, fin_neg]
    rw [he]
    simp only [h1', h2', fin_sub, entry_fin, lit_eq, Rat.cast_one, fin_add]
    congr 2
    funext r c
    split_ifs <;> rfl
  · intro r
    exact (div_eq R r).symm
  · intro x r hr
    have e : ∀ c, (if r = ref ∧ c = ref then ent r c + 1 else ent r c) * x c =
        ent r c * x c + (if ref = c then (if r = ref then x c else 0) else 0) := by
      intro c
      by_cases hc : c = ref
      · by_cases hr : r = ref
        · rw [if_pos ⟨hr, hc⟩, if_pos hc.symm, if_pos hr]; ring
        · rw [if_neg (fun h => hr h.1), if_pos hc.symm, if_neg hr, add_zero]
      · rw [if_neg (fun h => hc h.2), if_neg (fun h => hc h.symm), add_zero]
    simp only [e, Finset.sum_add_distrib]
    rw [sum_pick N ref href fun c => if r = ref then x c else 0]
    unfold pinned
    congr 1
    show ∑ c ∈ range N, ((trip.filter fun x => decide (x.1 = r ∧ x.2.1 = c)).map fun x => x.2.2).sum * x c = _
    rw [entry_apply trip ht]
    simp only [trip, List.map_append, List.map_map, List.sum_append, Function.comp_def, range_sum]
    have e3 : ∀ f : ℕ → α, ∑ i ∈ range N, (if i = r then f i * x i else 0) = f r * x r := by
      intro f
      have : ∀ i, (if i = r then f i * x i else 0) = (if r = i then f i * x i else 0) := fun i => by simp only [eq_comm]
      simp only [this]
      exact sum_pick N r hr fun i => f i * x i
    rw [e3 fun i => (R.map fun k => if k.a = i then k.w else 0).sum + (R.map fun k => if k.b = i then k.w else 0).sum]
    clear h1 h1' h2 h2' h3 h3' h4 h4' e ht e3 ent trip hR
    induction R with
    | nil => simp [lap]
    | cons k R ih =>
      rw [lap_cons, ← ih]
      simp only [List.map_cons, List.sum_cons]
      split_ifs with ha hb hb <;> (try rw [ha]) <;> (try rw [hb]) <;> ring

end OmegaMat
