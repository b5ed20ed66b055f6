import Verif.Model.Grid
import Mathlib.Data.List.Nodup
import Mathlib.Tactic.Ring

/-! # Helper lemmas: arrays in C order -/

namespace Grid

theorem flat_succ {A : Type*} (n m : ℕ) (f : ℕ → ℕ → A) : flat (n + 1) m f = flat n m f ++ (List.range m).map (f n) := by
  unfold flat
  rw [List.range_succ, List.flatMap_append]
  simp

theorem flat_length {A : Type*} (n m : ℕ) (f : ℕ → ℕ → A) : (flat n m f).length = n * m := by
  induction n with
  | zero => simp [flat]
  | succ n ih => rw [flat_succ, List.length_append, ih]; simp; ring

theorem flat_get {A : Type*} (n m : ℕ) (f : ℕ → ℕ → A) (i j : ℕ) (hi : i < n) (hj : j < m) :
    (flat n m f)[i * m + j]? = some (f i j) := by
  induction n with
  | zero => omega
  | succ n ih =>
    rw [flat_succ]
    rcases Nat.lt_or_ge i n with h | h
    · have : i * m + j < (flat n m f).length := by
        rw [flat_length]
        calc i * m + j < i * m + m := by omega
          _ = (i + 1) * m := by ring
          _ ≤ n * m := Nat.mul_le_mul_right _ h
      rw [List.getElem?_append_left this]
      exact ih h
    · obtain rfl : i = n := by omega
      rw [List.getElem?_append_right (by rw [flat_length]; omega), flat_length]
      simp [hj]

theorem flat_zip {A B : Type*} (n m : ℕ) (f : ℕ → ℕ → A) (g : ℕ → ℕ → B) :
    (flat n m f).zip (flat n m g) = flat n m fun i j => (f i j, g i j) := by
  induction n with
  | zero => rfl
  | succ n ih =>
    rw [flat_succ, flat_succ, flat_succ, List.zip_append (by rw [flat_length, flat_length]), ih]
    congr 1
    rw [List.zip_map']

theorem mem_flat {A : Type*} (n m : ℕ) (f : ℕ → ℕ → A) (x : A) : x ∈ flat n m f ↔ ∃ i < n, ∃ j < m, f i j = x := by
  unfold flat
  simp only [List.mem_flatMap, List.mem_range, List.mem_map]

theorem flat_nodup {A : Type*} (n m : ℕ) (f : ℕ → ℕ → A)
    (h : ∀ i < n, ∀ j < m, ∀ i' < n, ∀ j' < m, f i j = f i' j' → i = i' ∧ j = j') : (flat n m f).Nodup := by
  induction n with
  | zero => simp [flat]
  | succ n ih =>
    rw [flat_succ, List.nodup_append]
    refine ⟨ih fun i hi j hj i' hi' j' hj' => h i (by omega) j hj i' (by omega) j' hj', ?_, ?_⟩
    · apply List.Nodup.map_on _ List.nodup_range
      intro j hj j' hj' e
      exact (h n (by omega) j (List.mem_range.1 hj) n (by omega) j' (List.mem_range.1 hj') e).2
    · intro x hx y hy e
      subst e
      obtain ⟨i, hi, j, hj, rfl⟩ := (mem_flat ..).1 hx
      obtain ⟨j', hj', e⟩ := List.mem_map.1 hy
      have := (h n (by omega) j' (List.mem_range.1 hj') i (by omega) j hj e).1
      omega

/-- numbering of cells in C order is one to one -/
theorem idx_inj {n i j i' j' : ℕ} (hj : j < n) (hj' : j' < n) (h : i * n + j = i' * n + j') : i = i' ∧ j = j' := by
  have hn : 0 < n := by omega
  have e1 : (i * n + j) / n = i := by
    rw [Nat.mul_comm, Nat.mul_add_div hn, Nat.div_eq_of_lt hj, Nat.add_zero]
  have e2 : (i' * n + j') / n = i' := by
    rw [Nat.mul_comm, Nat.mul_add_div hn, Nat.div_eq_of_lt hj', Nat.add_zero]
  have : i = i' := by rw [← e1, ← e2, h]
  subst this
  exact ⟨rfl, by omega⟩

end Grid
