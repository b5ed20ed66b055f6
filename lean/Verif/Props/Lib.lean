import Verif.Model.Lib
import Mathlib.Algebra.BigOperators.Group.Finset.Basic
import Mathlib.Algebra.BigOperators.Ring.Finset
import Mathlib.Data.List.InsertIdx
import Mathlib.Data.List.Nodup
import Mathlib.Tactic.FieldSimp
import Mathlib.Tactic.LinearCombination

/-! # Properties of `/repo/neutralocean/lib.py` and `/repo/neutralocean/grid/tools.py` -/

namespace Lib
open FloatLike

set_option linter.unusedSectionVars false

/-! ## C56: `find_first_nan` -/

/-- Specification: position of a list of indices in C order. -/
def ravel : List ℕ → List ℕ → ℕ
  | n :: s, i :: m => i * s.prod + ravel s m
  | _, _ => 0

/-- Specification: valid indices for a shape. -/
def Valid (shape m : List ℕ) : Prop := List.Forall₂ (fun n i => i < n) shape m

theorem ravel_lt {s m : List ℕ} (h : Valid s m) : ravel s m < s.prod := by
  unfold Valid at h
  induction h with
  | nil => simp [ravel]
  | @cons n i s m hi _ ih =>
    rw [ravel, List.prod_cons]
    calc i * s.prod + ravel s m < i * s.prod + s.prod := by omega
      _ = (i + 1) * s.prod := by ring
      _ ≤ n * s.prod := Nat.mul_le_mul_right _ hi

theorem ravel_append {s m s' m' : List ℕ} (h : Valid s m) :
    ravel (s ++ s') (m ++ m') = ravel s m * s'.prod + ravel s' m' := by
  unfold Valid at h
  induction h with
  | nil => simp [ravel]
  | @cons n i s m hi _ ih =>
    simp only [List.cons_append, ravel, ih, List.prod_append]
    ring

theorem firstNan_spec {F : Type*} [FloatLike F] (a : ℕ → F) (J : ℕ) : ∀ n j, j + n = J →
    j ≤ firstNan a J n j ∧ firstNan a J n j ≤ J ∧ (∀ i, j ≤ i → i < firstNan a J n j → isNaN (a i) = false) ∧
    (firstNan a J n j < J → isNaN (a (firstNan a J n j)) = true) := by
  intro n
  induction n with
  | zero => intro j h; simp only [firstNan]; exact ⟨by omega, le_refl _, by intro i; omega, by omega⟩
  | succ n ih =>
    intro j h
    rw [firstNan]
    rcases Bool.eq_false_or_eq_true (isNaN (a j)) with hn | hn
    · rw [if_pos hn]; exact ⟨le_refl _, by omega, by intro i; omega, fun _ => hn⟩
    · rw [if_neg (by simp [hn])]
      obtain ⟨h1, h2, h3, h4⟩ := ih (j + 1) (by omega)
      refine ⟨by omega, h2, ?_, h4⟩
      intro i hi hi'
      rcases Nat.lt_or_ge j i with h' | h'
      · exact h3 i (by omega) hi'
      · obtain rfl : i = j := by omega
        exact hn

/-- **C56.** `find_first_nan` along any axis (also negative) of an array of any dimension: at each position `(m1, m3)` of the
other axes the result is the index of the first NaN along the axis; the length of the axis if there is none (and so 0 if all
are NaN; the summary line of the documentation states the two cases the wrong way round, its example states them rightly). -/
theorem findFirstNan_spec {F : Type*} [FloatLike F] (s1 s3 : List ℕ) (n : ℕ) (f : ℕ → F) (axis : ℤ)
    (hax : axis = s1.length ∨ axis = (s1.length : ℤ) - (s1 ++ n :: s3).length) (m1 m3 : List ℕ)
    (h1 : Valid s1 m1) (h3 : Valid s3 m3) :
    let r := findFirstNan (s1 ++ n :: s3) f axis
    r.1 = s1 ++ s3 ∧
    ∃ j, r.2 (ravel r.1 (m1 ++ m3)) = j ∧ j ≤ n ∧
      (∀ i < j, isNaN (f (ravel (s1 ++ n :: s3) (m1 ++ i :: m3))) = false) ∧
      (j < n → isNaN (f (ravel (s1 ++ n :: s3) (m1 ++ j :: m3))) = true) := by
  have hlen : (s1 ++ n :: s3).length = s1.length + s3.length + 1 := by simp; omega
  have hax' : (axis % ((s1 ++ n :: s3).length : ℤ)).toNat = s1.length := by
    have : axis % ((s1 ++ n :: s3).length : ℤ) = s1.length := by
      rcases hax with h | h
      · rw [h]; apply Int.emod_eq_of_lt <;> omega
      · rw [h, Int.sub_emod_right]; apply Int.emod_eq_of_lt <;> omega
    rw [this]; simp
  have ht : (s1 ++ n :: s3).take s1.length = s1 := by simp
  have hd : (s1 ++ n :: s3).drop (s1.length + 1) = s3 := by
    rw [← List.drop_drop]; simp
  have hg : (s1 ++ n :: s3).getD s1.length 0 = n := by simp [List.getD_eq_getElem?_getD]
  unfold findFirstNan
  simp only [hax', ht, hd, hg]
  refine ⟨trivial, _, rfl, ?_⟩
  have r3 := ravel_lt h3
  have e1 : ravel (s1 ++ s3) (m1 ++ m3) / s3.prod = ravel s1 m1 := by
    rw [ravel_append h1, Nat.mul_comm, Nat.mul_add_div (by omega), Nat.div_eq_of_lt r3, Nat.add_zero]
  have e2 : ravel (s1 ++ s3) (m1 ++ m3) % s3.prod = ravel s3 m3 := by
    rw [ravel_append h1, Nat.mul_comm, Nat.mul_add_mod, Nat.mod_eq_of_lt r3]
  rw [e1, e2]
  have e3 : ∀ j, (ravel s1 m1 * n + j) * s3.prod + ravel s3 m3 = ravel (s1 ++ n :: s3) (m1 ++ j :: m3) := by
    intro j
    rw [ravel_append h1, ravel, List.prod_cons]
    ring
  unfold findFirstNan3
  simp only [e3]
  obtain ⟨_, h2, h3, h4⟩ := firstNan_spec (fun j => f (ravel (s1 ++ n :: s3) (m1 ++ j :: m3))) n n 0 (by omega)
  exact ⟨h2, fun i hi => h3 i (by omega) hi, h4⟩

example : Valid [2, 3] [1, 2] := by unfold Valid; simp
example : (findFirstNan [2, 3] (fun i => if i = 1 ∨ 3 ≤ i then (Fl.nan : Fl ℚ) else .fin 1) (-1)).1 = [2] ∧
    (findFirstNan [2, 3] (fun i => if i = 1 ∨ 3 ≤ i then (Fl.nan : Fl ℚ) else .fin 1) (-1)).2 0 = 1 ∧
    (findFirstNan [2, 3] (fun i => if i = 1 ∨ 3 ≤ i then (Fl.nan : Fl ℚ) else .fin 1) (-1)).2 1 = 0 ∧
    (findFirstNan [2, 3] (fun i => if i = 1 ∨ 3 ≤ i then (Fl.nan : Fl ℚ) else .fin 1) 0).2 2 = 1 ∧
    (findFirstNan [2, 3] (fun _ => (.fin 1 : Fl ℚ)) 0).2 2 = 2 := by decide +kernel

/-! ## C56: `take_fill` -/

/-- **C56.** Entry `i` is `a[idx[i]]`, or the fill value if `idx[i] < 0`. -/
theorem takeFill_spec {F : Type*} [FloatLike F] (n : ℕ) (a : ℕ → F) (idx : List ℤ) (v : F) (h : ∀ i ∈ idx, i < (n : ℤ)) :
    ∃ b, takeFill n a idx v = .ok b ∧ b.length = idx.length ∧
      (∀ (i k : ℕ), idx[i]? = some (k : ℤ) → b[i]? = some (a k)) ∧
      (∀ (i : ℕ) (k : ℤ), idx[i]? = some k → k < 0 → b[i]? = some v) := by
  unfold takeFill
  rw [if_pos (by simpa using h)]
  refine ⟨_, rfl, by simp, ?_, ?_⟩
  · intro i k hk; simp [List.getElem?_map, hk]
  · intro i k hk hneg; simp [List.getElem?_map, hk, Int.not_le.2 hneg]

/-! ## C24: `aggsum`, `divergence` -/

theorem agg_fold {F : Type*} [FloatLike F] (l : List (ℤ × F)) (g : ℕ) : ∀ b : ℕ → F,
    (l.foldl (fun b x => if 0 ≤ x.1 then Function.update b x.1.toNat (b x.1.toNat + x.2) else b) b) g =
      ((l.filter fun x => x.1 = (g : ℤ)).map Prod.snd).foldl (· + ·) (b g) := by
  induction l with
  | nil => intro b; rfl
  | cons x l ih =>
    intro b
    rw [List.foldl_cons, ih, List.filter_cons]
    by_cases h0 : 0 ≤ x.1
    · rw [if_pos h0]
      by_cases hg : x.1 = (g : ℤ)
      · have : x.1.toNat = g := by omega
        simp [hg]
      · have : ¬ g = x.1.toNat := by omega
        simp [hg, Function.update_apply, this]
    · rw [if_neg h0]
      have hg : ¬ x.1 = (g : ℤ) := by omega
      simp [hg]

/-- **C24, with any rounding.** Group `g` of `aggsum` is the sum, in order and starting from 0, of the entries with label `g`;
negative labels are left out. -/
theorem aggsum_spec {F : Type*} [FloatLike F] (l : List (ℤ × F)) (n : ℕ) (h : ∀ x ∈ l, x.1 < (n : ℤ)) :
    ∃ b, aggsum l n = .ok b ∧
      ∀ g, b g = ((l.filter fun x => x.1 = (g : ℤ)).map Prod.snd).foldl (· + ·) (lit 0) := by
  unfold aggsum
  rw [if_pos (by simpa using h)]
  exact ⟨_, rfl, fun g => agg_fold l g _⟩

section exact
variable {α : Type*} [Field α] [LinearOrder α] [IsStrictOrderedRing α]
open Fl hiding nan

theorem foldl_fin (l : List α) (a : α) : (l.map Fl.fin).foldl (· + ·) (Fl.fin a) = .fin (a + l.sum) := by
  induction l generalizing a with
  | nil => simp
  | cons x l ih => simp only [List.map_cons, List.foldl_cons, fin_add, ih, List.sum_cons, add_assoc]

/-- **C24, exact arithmetic.** Group `g` is the sum of the entries with label `g`. -/
theorem aggsum_exact (l : List (ℤ × α)) (n : ℕ) (h : ∀ x ∈ l, x.1 < (n : ℤ)) :
    ∃ b, aggsum (l.map fun x => (x.1, Fl.fin x.2)) n = .ok b ∧
      ∀ g, b g = .fin ((l.filter fun x => x.1 = (g : ℤ)).map Prod.snd).sum := by
  obtain ⟨b, h1, h2⟩ := aggsum_spec (l.map fun x => (x.1, Fl.fin x.2)) n (by
    simp only [List.mem_map]
    rintro _ ⟨x, hx, rfl⟩
    exact h x hx)
  refine ⟨b, h1, fun g => ?_⟩
  rw [h2, List.filter_map, List.map_map, lit_eq, Rat.cast_zero]
  have := foldl_fin ((l.filter fun x => x.1 = (g : ℤ)).map Prod.snd) (0 : α)
  rw [zero_add, List.map_map] at this
  exact this

/-- Specification: net flux out of node `m`. -/
def outflow (l : List ((ℕ × ℕ) × α × α)) (m : ℕ) : α :=
  (l.map fun x => (if x.1.1 = m then x.2.1 * x.2.2 else 0) - (if x.1.2 = m then x.2.1 * x.2.2 else 0)).sum

theorem filter_sum {β : Type*} (l : List β) (p : β → Prop) [DecidablePred p] (f : β → α) :
    ((l.filter fun x => p x).map f).sum = (l.map fun x => if p x then f x else 0).sum := by
  induction l with
  | nil => rfl
  | cons x l ih =>
    by_cases h : p x <;> simp [h, ih]

/-- the number of nodes `divergence` works with -/
theorem numNodes_lt (l : List ((ℕ × ℕ) × α × α)) : ∀ m0 : ℕ,
    m0 ≤ l.foldl (fun m x => max m (max x.1.1 x.1.2)) m0 ∧
    ∀ x ∈ l, x.1.1 ≤ l.foldl (fun m x => max m (max x.1.1 x.1.2)) m0 ∧ x.1.2 ≤ l.foldl (fun m x => max m (max x.1.1 x.1.2)) m0 := by
  induction l with
  | nil => intro m0; simp
  | cons x l ih =>
    intro m0
    obtain ⟨h1, h2⟩ := ih (max m0 (max x.1.1 x.1.2))
    simp only [List.foldl_cons]
    refine ⟨by omega, ?_⟩
    intro y hy
    rcases List.mem_cons.1 hy with rfl | hy
    · exact ⟨le_trans (le_trans (le_max_left _ _) (le_max_right _ _)) h1,
        le_trans (le_trans (le_max_right _ _) (le_max_right _ _)) h1⟩
    · exact h2 y hy

/-- **C24.** `divergence` at a node is the net outflow (flux times interface length) divided by its area. -/
theorem divergence_spec (l : List ((ℕ × ℕ) × α × α)) (area : ℕ → α) (hl : l ≠ []) (ha : ∀ m, area m ≠ 0) :
    ∃ N d, divergence (l.map fun x => (x.1, Fl.fin x.2.1, Fl.fin x.2.2)) (fun m => .fin (area m)) = .ok (N, d) ∧
      (∀ x ∈ l, x.1.1 < N ∧ x.1.2 < N) ∧ ∀ m, d m = .fin (outflow l m / area m) := by
  set N := (l.foldl (fun m x => max m (max x.1.1 x.1.2)) 0) + 1 with hN
  have hx : ∀ x ∈ l, x.1.1 < N ∧ x.1.2 < N := by
    intro x hx
    have := (numNodes_lt l 0).2 x hx
    omega
  obtain ⟨A, a1, a2⟩ := aggsum_exact (l.map fun x => ((x.1.1 : ℤ), x.2.1 * x.2.2)) N (by
    simp only [List.mem_map]
    rintro _ ⟨x, h, rfl⟩
    have := (hx x h).1
    simp only; omega)
  obtain ⟨B, b1, b2⟩ := aggsum_exact (l.map fun x => ((x.1.2 : ℤ), x.2.1 * x.2.2)) N (by
    simp only [List.mem_map]
    rintro _ ⟨x, h, rfl⟩
    have := (hx x h).2
    simp only; omega)
  refine ⟨N, fun m => (A m - B m) / .fin (area m), ?_, hx, ?_⟩
  · obtain ⟨y, l', rfl⟩ := List.exists_cons_of_ne_nil hl
    unfold divergence
    simp only [List.map_cons]
    simp only [List.map_cons, List.map_map, Function.comp_def, List.foldl_cons, List.foldl_map, fin_mul] at a1 b1 hN ⊢
    rw [← hN, a1, b1]
  · intro m
    simp only [a2, b2, List.filter_map, List.map_map, fin_sub]
    rw [fin_div _ _ (ha m)]
    congr 2
    have e1 := filter_sum l (fun x => x.1.1 = m) (fun x => x.2.1 * x.2.2)
    have e2 := filter_sum l (fun x => x.1.2 = m) (fun x => x.2.1 * x.2.2)
    simp only [Function.comp_def, Nat.cast_inj]
    rw [e1, e2]
    unfold outflow
    clear hl a1 a2 b1 b2 e1 e2 hx hN N
    induction l with
    | nil => simp
    | cons x l ih =>
      simp only [List.map_cons, List.sum_cons] at ih ⊢
      linear_combination ih

/-- **C24.** The area weighted sum of the divergence over all nodes is zero, for every flux. -/
theorem divergence_sum (l : List ((ℕ × ℕ) × α × α)) (area : ℕ → α) (hl : l ≠ []) (ha : ∀ m, area m ≠ 0) :
    ∃ (N : ℕ) (d : ℕ → Fl α) (v : ℕ → α), divergence (l.map fun x => (x.1, Fl.fin x.2.1, Fl.fin x.2.2)) (fun m => .fin (area m)) = .ok (N, d) ∧
      (∀ m, d m = .fin (v m)) ∧ ∑ m ∈ Finset.range N, area m * v m = 0 := by
  obtain ⟨N, d, h1, h2, h3⟩ := divergence_spec l area hl ha
  refine ⟨N, d, fun m => outflow l m / area m, h1, h3, ?_⟩
  have e1 : ∀ m ∈ Finset.range N, area m * (outflow l m / area m) = outflow l m := by
    intro m _
    have := ha m
    field_simp
  rw [Finset.sum_congr rfl e1]
  clear h1 h3 e1 hl
  induction l with
  | nil => exact Finset.sum_eq_zero fun m _ => rfl
  | cons x l ih =>
    have ih := ih (fun y hy => h2 y (by simp [hy]))
    obtain ⟨h4, h5⟩ := h2 x (by simp)
    unfold outflow at ih ⊢
    simp only [List.map_cons, List.sum_cons]
    rw [Finset.sum_add_distrib, ih, add_zero, Finset.sum_sub_distrib, Finset.sum_ite_eq, Finset.sum_ite_eq]
    simp [h4, h5]

end exact

example : (match divergence ([((0, 1), (3 : ℚ), 2), ((2, 1), 1, 1)].map fun x => (x.1, Fl.fin x.2.1, Fl.fin x.2.2))
    (fun _ => .fin 2) with | .ok (N, d) => some (N, d 0, d 1, d 2) | _ => none) =
    some (3, .fin 3, .fin (-7/2), .fin (1/2)) := by decide +kernel

/-! ## C56, C57: `val_at` -/

/-- **C56, C57, partial.** For an array `k` of valid level numbers (negative ones down to `-nk`), and no horizontal dimension
of length 1, `val_at` gives the value at level `k` of each cast, NaN where `k` is negative, and leaves `T` as it was.
Missing: horizontal dimensions of length 1 (`valAt_length_one_false`), negative `int`s (`valAt_pure_false`). -/
theorem valAt_spec_partial {F : Type*} [FloatLike F] (h : List ℕ) (nk : ℕ) (T : ℕ → ℕ → F) (k : ℕ → ℤ) (h0 : h ≠ [])
    (h1 : 1 ∉ h) (hk : ∀ c < h.prod, -(nk : ℤ) ≤ k c ∧ k c < nk) :
    ∃ r, valAt h nk T (.arr h k) = .ok (r, T) ∧
      ∀ c < h.prod, (∀ l : ℕ, k c = l → r c = T c l) ∧ (k c < 0 → r c = nan) := by
  have hs : ∀ c < h.prod, (npIdx nk (k c)).isSome = true := by
    intro c hc
    have := hk c hc
    unfold npIdx
    split_ifs <;> first | rfl | omega
  have hf : h.filter (· ≠ 1) = h := by
    rw [List.filter_eq_self]
    intro x hx
    simp only [decide_not, Bool.not_eq_eq_eq_not, Bool.not_true, decide_eq_false_iff_not]
    intro h'; exact h1 (h' ▸ hx)
  unfold valAt
  dsimp only
  rw [if_neg h0, if_pos rfl, if_neg (by simp), if_pos (by simpa using hs), hf, if_neg (by omega)]
  refine ⟨_, rfl, ?_⟩
  intro c hc
  have := hk c hc
  constructor
  · intro l hl
    simp only [hl, npIdx]
    rw [if_neg (by omega), if_pos (by omega), if_pos (by omega)]
    simp
  · intro hneg
    simp [hneg]

/-- **C56.** For a 1D `T` and an array `k` of any shape: `T[k]`, NaN where `k` is negative; `T` unchanged. -/
theorem valAt_1d {F : Type*} [FloatLike F] (sh : List ℕ) (nk : ℕ) (T : ℕ → ℕ → F) (k : ℕ → ℤ)
    (hk : ∀ c < sh.prod, -(nk : ℤ) ≤ k c ∧ k c < nk) :
    ∃ r, valAt [] nk T (.arr sh k) = .ok (r, T) ∧
      ∀ c < sh.prod, (∀ l : ℕ, k c = l → r c = T 0 l) ∧ (k c < 0 → r c = nan) := by
  have hs : ∀ c < sh.prod, (npIdx nk (k c)).isSome = true := by
    intro c hc
    have := hk c hc
    unfold npIdx
    split_ifs <;> first | rfl | omega
  unfold valAt
  dsimp only
  rw [if_pos rfl, if_pos (by simpa using hs)]
  refine ⟨_, rfl, ?_⟩
  intro c hc
  have := hk c hc
  constructor
  · intro l hl
    simp only [hl, npIdx]
    rw [if_neg (by omega), if_pos (by omega), if_pos (by omega)]
    simp
  · intro hneg
    simp [hneg]

/-- **C56.** For a nonnegative `int` level: that level of every cast; `T` unchanged. -/
theorem valAt_int {F : Type*} [FloatLike F] (h : List ℕ) (nk : ℕ) (T : ℕ → ℕ → F) (k : ℕ) (hk : k < nk) :
    valAt h nk T (.int k) = .ok (fun c => T c k, T) := by
  unfold valAt npIdx
  simp [hk]

/-- **C57 is false:** a negative `int` overwrites a whole level of the caller's array with NaN. -/
theorem valAt_pure_false {F : Type*} [FloatLike F] (h : List ℕ) (nk : ℕ) (T : ℕ → ℕ → F) (k : ℤ) (hk : k < 0) (hk' : -(nk : ℤ) ≤ k) :
    ∃ r T', valAt h nk T (.int k) = .ok (r, T') ∧ ∀ c, T' c (nk - k.natAbs) = nan := by
  unfold valAt npIdx
  dsimp only
  rw [if_neg (by omega), if_pos (by omega)]
  simp only [hk, if_true]
  refine ⟨_, _, rfl, fun c => ?_⟩
  rw [if_pos (by omega)]

/-- **C56 is false with a horizontal dimension of length 1:** `val_at` raises for every such array, since `squeeze` removes
the dimension from the values but not from the mask. -/
theorem valAt_length_one_false {F : Type*} [FloatLike F] (h : List ℕ) (nk : ℕ) (T : ℕ → ℕ → F) (k : ℕ → ℤ) (h1 : 1 ∈ h) :
    valAt h nk T (.arr h k) = .indexError := by
  have h0 : h ≠ [] := by rintro rfl; simp at h1
  have hf : (h.filter (· ≠ 1)).length < h.length := by
    rw [List.length_filter_lt_length_iff_exists]
    exact ⟨1, h1, by simp⟩
  unfold valAt
  dsimp only
  rw [if_neg h0, if_pos rfl, if_neg (by simp)]
  split_ifs <;> rfl

example : ([2, 3] : List ℕ) ≠ [] ∧ 1 ∉ ([2, 3] : List ℕ) ∧ ∀ c < ([2, 3] : List ℕ).prod, -((4 : ℕ) : ℤ) ≤ (c : ℤ) - 3 ∧ (c : ℤ) - 3 < (4 : ℕ) := by
  decide

/-! ## C70: `_process_casts` -/

/-- **C70.** Dimension numbers from the end, from the start and names mean the same axis. -/
theorem processVertDim_spec (ds : List String) (v : ℕ) (hv : v < ds.length) (hnd : ds.Nodup) :
    processVertDim (some ds) ds.length (.name ds[v]) = .ok v ∧
    processVertDim (some ds) ds.length (.int v) = .ok v ∧
    processVertDim (some ds) ds.length (.int ((v : ℤ) - ds.length)) = .ok v := by
  refine ⟨?_, ?_, ?_⟩
  · unfold processVertDim
    simp only [List.getElem_mem, if_true, List.Nodup.idxOf_getElem hnd, Nat.mod_eq_of_lt hv]
  · unfold processVertDim
    simp only
    rw [Int.emod_eq_of_lt (by omega) (by omega)]; simp
  · unfold processVertDim
    simp only
    rw [Int.sub_emod_right, Int.emod_eq_of_lt (by omega) (by omega)]; simp

/-- Finding: a dimension number that does not exist is silently taken modulo the number of dimensions. -/
theorem processVertDim_out_of_range : processVertDim (some ["lat", "lon", "z"]) 3 (.int 5) = .ok 2 := by decide

/-- **C70.** After `_process_casts`, level `k` of the cast at horizontal position `m` is the input at `m` with `k` inserted at
the vertical axis, whichever axis that is. -/
theorem contiguousCasts_spec {F : Type*} [FloatLike F] (S : Nd F) (v : ℕ) (hv : v < S.shape.length) (m : List ℕ) (k : ℕ)
    (hm : m.length + 1 = S.shape.length) :
    (contiguousCasts S v).get (m ++ [k]) = S.get (m.insertIdx v k) ∧
    (contiguousCasts S v).shape = S.shape.eraseIdx v ++ [S.shape.getD v 0] := by
  unfold contiguousCasts
  split_ifs with h
  · refine ⟨?_, rfl⟩
    simp
  · have hv' : v = m.length := by
      by_contra hne
      exact h ⟨by omega, by omega⟩
    subst hv'
    refine ⟨by simp, ?_⟩
    conv_lhs => rw [← List.take_append_drop m.length S.shape]
    rw [List.eraseIdx_eq_take_drop_succ, List.drop_eq_nil_of_le (i := m.length + 1) (by omega), List.append_nil]
    congr 1
    rw [List.drop_eq_getElem_cons hv, List.drop_eq_nil_of_le (by omega)]
    simp [List.getD_eq_getElem?_getD, hv]

/-- **C70.** The whole of `_process_casts`: all three arrays are rearranged alike, and a `P` given as one vector is the
pressure of level `k` on every cast. -/
theorem processCasts_spec {F : Type*} [FloatLike F] (dims : Option (List String)) (S T : Nd F) (d : Dim) (v : ℕ)
    (hv : v < S.shape.length) (hd : processVertDim dims S.shape.length d = .ok v) (hT : T.shape.length = S.shape.length) :
    (∀ (size : ℕ) (P : ℕ → F), size = S.shape.getD v 0 →
      ∃ S' T' P', processCasts dims S T (.small size P) d = .ok (S', T', P') ∧
        ∀ (m : List ℕ) (k : ℕ), m.length + 1 = S.shape.length →
          S'.get (m ++ [k]) = S.get (m.insertIdx v k) ∧ T'.get (m ++ [k]) = T.get (m.insertIdx v k) ∧
          P'.get (m ++ [k]) = P k) ∧
    (∀ P : Nd F, P.shape.length = S.shape.length →
      ∃ S' T' P', processCasts dims S T (.full P) d = .ok (S', T', P') ∧
        ∀ (m : List ℕ) (k : ℕ), m.length + 1 = S.shape.length →
          S'.get (m ++ [k]) = S.get (m.insertIdx v k) ∧ T'.get (m ++ [k]) = T.get (m.insertIdx v k) ∧
          P'.get (m ++ [k]) = P.get (m.insertIdx v k)) := by
  constructor
  · intro size P hs
    unfold processCasts processP
    simp only [hd, hs, if_true]
    refine ⟨_, _, _, rfl, ?_⟩
    intro m k hm
    refine ⟨(contiguousCasts_spec S v hv m k hm).1, (contiguousCasts_spec T v (by omega) m k (by omega)).1, ?_⟩
    rw [(contiguousCasts_spec (⟨S.shape, fun i => P (i.getD v 0)⟩ : Nd F) v hv m k hm).1]
    simp only
    congr 1
    rw [List.getD_eq_getElem?_getD, List.getElem?_insertIdx_self, if_pos (by omega)]
    rfl
  · intro P hP
    unfold processCasts processP
    simp only [hd]
    refine ⟨_, _, _, rfl, ?_⟩
    intro m k hm
    exact ⟨(contiguousCasts_spec S v hv m k hm).1, (contiguousCasts_spec T v (by omega) m k (by omega)).1,
      (contiguousCasts_spec P v (by omega) m k (by omega)).1⟩

example : processVertDim (some ["z", "lat", "lon"]) 3 (.name "z") = .ok 0 := by decide
example : (contiguousCasts (⟨[5, 2, 3], fun i => (.fin (i.getD 0 0 * 100 + i.getD 1 0 * 10 + i.getD 2 0 : ℕ) : Fl ℚ)⟩) 0).get [1, 2, 4] =
    .fin 412 := by decide +kernel

/-! ## C71: `_process_pin_cast` -/

theorem searchsorted_exact (xs : List ℚ) (i : ℕ) (hs : xs.Pairwise (· < ·)) (hi : i < xs.length) :
    searchsorted xs xs[i] = i := by
  unfold searchsorted
  induction xs generalizing i with
  | nil => simp at hi
  | cons x xs ih =>
    rw [List.pairwise_cons] at hs
    cases i with
    | zero => simp
    | succ i =>
      have hi' : i < xs.length := by simpa using hi
      have hx : x < xs[i] := hs.1 _ (List.getElem_mem _)
      simp [hx, ih i hs.2 hi']

/-- **C71, partial.** If the dictionary lists the horizontal dimensions in the order of the array, coordinates are increasing
and the values are coordinates of a cast, the indices of that cast are returned.  Missing: other orders
(`processPinCast_order_false`), values between coordinates (`processPinCast_nearest_false`). -/
theorem processPinCast_partial (coord : String → Option (List ℚ)) (l : List (String × List ℚ × ℕ))
    (hc : ∀ x ∈ l, coord x.1 = some x.2.1) (hs : ∀ x ∈ l, x.2.1.Pairwise (· < ·)) (hi : ∀ x ∈ l, x.2.2 < x.2.1.length) :
    processPinCast coord (.dict (l.map fun x => (x.1, x.2.1.getD x.2.2 0))) = .ok (l.map fun x => (x.2.2 : ℤ)) := by
  unfold processPinCast
  dsimp only
  rw [if_pos]
  · congr 1
    rw [List.map_map]
    apply List.map_congr_left
    intro x hx
    have h1 := hi x hx
    simp only [Function.comp, hc x hx, Option.getD_some, List.getD_eq_getElem?_getD, List.getElem?_eq_getElem h1]
    rw [searchsorted_exact _ _ (hs x hx) h1]
  · simp only [List.all_map, List.all_eq_true]
    intro x hx
    simp [hc x hx]

/-- an array with two dimensions -/
def exCoord (s : String) : Option (List ℚ) :=
  if s = "lat" then some [10, 20] else if s = "lon" then some [100, 110, 120] else none

/-- **C71 is false as documented** ("suitable for `S.sel(pin_cast)`"): selecting by coordinates does not depend on the order of
the entries, but here the indices come in the order of the dictionary, so another cast is selected. -/
theorem processPinCast_order_false :
    processPinCast exCoord (.dict [("lat", 10), ("lon", 110)]) = .ok [0, 1] ∧
    processPinCast exCoord (.dict [("lon", 110), ("lat", 10)]) = .ok [1, 0] := by decide +kernel

/-- Values between coordinates go to the next higher one, and beyond the last to a cast that does not exist. -/
theorem processPinCast_nearest_false :
    processPinCast exCoord (.dict [("lat", 101/10), ("lon", 130)]) = .ok [1, 3] := by decide +kernel

/-! ## C72: `_process_wrap` -/

/-- **C72.** Periodic dimensions given by name: each of the two dimensions is periodic iff it is named; a single string is one
name; two bools are returned as they are. -/
theorem processWrap_spec (d1 d2 : String) (diags : Bool) (ws : List String) (s : String) (b1 b2 : Bool) (dims : Option (List String)) :
    processWrap (some [d1, d2]) diags (.strs ws) = .ok (some [decide (d1 ∈ ws), decide (d2 ∈ ws)]) ∧
    processWrap (some [d1, d2]) diags (.str s) = .ok (some [decide (d1 = s), decide (d2 = s)]) ∧
    processWrap dims diags (.bools [b1, b2]) = .ok (some [b1, b2]) := by
  refine ⟨rfl, ?_, rfl⟩
  simp [processWrap]

/-- **C72.** Whatever is returned is `None` (only without diagnostics) or has two entries. -/
theorem processWrap_two (dims : Option (List String)) (diags : Bool) (w : Wrap) (r : Option (List Bool))
    (h : processWrap dims diags w = .ok r) : (r = none ∧ diags = false) ∨ ∃ b1 b2, r = some [b1, b2] := by
  have two : ∀ l : List Bool, l.length = 2 → ∃ b1 b2, l = [b1, b2] := by
    intro l hl
    match l, hl with
    | [a, b], _ => exact ⟨a, b, rfl⟩
  have key : ∀ l : List Bool, (if l.length = 2 then Res.ok (some l) else Res.typeError) = Res.ok r →
      ∃ b1 b2, r = some [b1, b2] := by
    intro l hl
    split_ifs at hl with h2
    obtain ⟨b1, b2, rfl⟩ := two l h2
    exact ⟨b1, b2, (Res.ok.inj hl).symm⟩
  unfold processWrap at h
  cases w with
  | none => cases diags <;> simp at h; exact Or.inl ⟨h.symm, rfl⟩
  | str s => cases dims with
    | none => simp at h
    | some ds => exact Or.inr (key _ h)
  | strs l => cases dims with
    | none => simp at h
    | some ds => exact Or.inr (key _ h)
  | bools l => cases l with
    | nil => cases dims with
      | none => simp at h
      | some ds => exact Or.inr (key _ h)
    | cons b l => exact Or.inr (key _ h)

end Lib
