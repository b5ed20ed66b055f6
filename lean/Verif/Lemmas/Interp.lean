import Verif.Model.Interp

set_option linter.unusedSectionVars false

namespace Interp
open FloatLike
open Fl hiding nan

section generic
variable {F : Type*} [FloatLike F]

theorem firstFrom_le (p : ℕ → Bool) (lo n : ℕ) : firstFrom p lo n ≤ n := by
  unfold firstFrom
  cases h : (List.range' lo (n - lo)).find? p with
  | none => simp
  | some r =>
    have hm := List.mem_of_find?_eq_some h
    rw [List.mem_range'_1] at hm
    simp; omega

theorem firstFrom_before {p : ℕ → Bool} {lo n i : ℕ} (h1 : lo ≤ i) (h2 : i < firstFrom p lo n) :
    p i = false := by
  have hle := firstFrom_le p lo n
  unfold firstFrom at h2 hle
  cases h : (List.range' lo (n - lo)).find? p with
  | none =>
    rw [h] at h2
    simp at h2
    rw [List.find?_eq_none] at h
    have := h i (by rw [List.mem_range'_1]; omega)
    simpa using this
  | some r =>
    rw [h] at h2
    simp at h2
    rw [List.find?_range'_eq_some] at h
    have := h.2.2 i h1 h2
    simpa using this

theorem firstFrom_at {p : ℕ → Bool} {lo n : ℕ} (h : firstFrom p lo n < n) :
    lo ≤ firstFrom p lo n ∧ p (firstFrom p lo n) = true := by
  unfold firstFrom at h ⊢
  cases hf : (List.range' lo (n - lo)).find? p with
  | none => rw [hf] at h; simp at h
  | some r =>
    have hm := List.mem_of_find?_eq_some hf
    rw [List.mem_range'_1] at hm
    have := List.find?_some hf
    simp; exact ⟨hm.1, this⟩

theorem firstFrom_eq {p : ℕ → Bool} {lo n r : ℕ} (hr : r ≤ n) (hb : ∀ i, lo ≤ i → i < r → p i = false)
    (ha : r < n → lo ≤ r ∧ p r = true) : firstFrom p lo n = r := by
  have h1 := firstFrom_le p lo n
  rcases lt_trichotomy (firstFrom p lo n) r with h | h | h
  · have h3 := firstFrom_at (lt_of_lt_of_le h hr)
    have := hb _ h3.1 h
    rw [h3.2] at this; cases this
  · exact h
  · have h3 := ha (lt_of_lt_of_le h h1)
    have := firstFrom_before h3.1 h
    rw [h3.2] at this; cases this

theorem bsearch_le (a : ℕ → F) (x : F) (fuel : ℕ) : ∀ lo hi, lo ≤ hi → bsearch a x fuel lo hi ≤ hi ∧
    lo ≤ bsearch a x fuel lo hi := by
  induction fuel with
  | zero => intro lo hi h; exact ⟨h, le_refl _⟩
  | succ n ih =>
    intro lo hi h
    rw [bsearch]
    by_cases h1 : lo < hi
    swap
    · rw [if_neg h1]; omega
    rw [if_pos h1]
    simp only
    split_ifs with h2
    · have := ih (lo + (hi - lo) / 2 + 1) hi (by omega)
      omega
    · have := ih lo (lo + (hi - lo) / 2) (by omega)
      omega

/-- If the entry before position `hi` is not below `x`, the search does not return `hi`. -/
theorem bsearch_lt (a : ℕ → F) (x : F) (fuel : ℕ) : ∀ lo hi, lo < hi → hi - lo ≤ fuel →
    lt (a (hi - 1)) x = false → bsearch a x fuel lo hi < hi := by
  induction fuel with
  | zero => intro lo hi h hf _; omega
  | succ n ih =>
    intro lo hi h hf ha
    rw [bsearch, if_pos h]
    simp only
    split_ifs with h2
    · by_cases h3 : lo + (hi - lo) / 2 + 1 < hi
      · exact ih _ _ h3 (by omega) ha
      · exfalso
        have : lo + (hi - lo) / 2 = hi - 1 := by omega
        rw [this, ha] at h2; cases h2
    · have := (bsearch_le a x n lo (lo + (hi - lo) / 2) (by omega)).1
      omega

/-- C09, rounding independent: when the range test passes, the piece index is in `[k, K-2]`. -/
theorem pieceIndex_range' (X : Arr F) (k K : ℕ) (x : F) (h : outside X k K x = false) :
    k ≤ pieceIndex X k K x ∧ pieceIndex X k K x + 2 ≤ K := by
  unfold outside at h
  simp only [Bool.or_eq_false_iff, decide_eq_false_iff_not] at h
  obtain ⟨⟨⟨h1, h2⟩, h3⟩, h4⟩ := h
  refine ⟨le_max_left _ _, ?_⟩
  unfold pieceIndex searchsorted
  have hs : (X.slice k K).size = K - k := rfl
  have : bsearch (X.slice k K).get x (X.slice k K).size 0 (X.slice k K).size < K - k := by
    rw [hs]
    apply bsearch_lt _ _ _ _ _ (by omega) (by omega)
    show lt (X.get (k + (K - k - 1))) x = false
    rw [show k + (K - k - 1) = K - 1 by omega]; exact h4
  omega

end generic

section exact
variable {α : Type*} [Field α] [LinearOrder α] [IsStrictOrderedRing α]

/-- On sorted finite data binary search finds the number of entries below `x`. -/
theorem bsearch_sorted {a : ℕ → α} {x : α} (fuel : ℕ) : ∀ lo hi, lo ≤ hi → hi - lo ≤ fuel →
    (∀ i j, lo ≤ i → i ≤ j → j < hi → a i ≤ a j) →
    (∀ i, lo ≤ i → i < bsearch (fun i => Fl.fin (a i)) (Fl.fin x) fuel lo hi → a i < x) ∧
    (∀ i, bsearch (fun i => Fl.fin (a i)) (Fl.fin x) fuel lo hi ≤ i → i < hi → x ≤ a i) := by
  induction fuel with
  | zero => intro lo hi h hf hs; simp only [bsearch]; exact ⟨fun i _ _ => by omega, fun i _ _ => by omega⟩
  | succ n ih =>
    intro lo hi h hf hs
    rw [bsearch]
    by_cases h1 : lo < hi
    · rw [if_pos h1]
      simp only [lt_fin]
      set mid := lo + (hi - lo) / 2 with hmid
      by_cases h2 : a mid < x
      · rw [if_pos (by simpa using h2)]
        obtain ⟨e1, e2⟩ := ih (mid + 1) hi (by omega) (by omega) (fun i j h3 h4 h5 => hs i j (by omega) h4 h5)
        refine ⟨fun i h3 h4 => ?_, e2⟩
        by_cases h5 : mid + 1 ≤ i
        · exact e1 i h5 h4
        · exact lt_of_le_of_lt (hs i mid h3 (by omega) (by omega)) h2
      · rw [if_neg (by simpa using h2)]
        obtain ⟨e1, e2⟩ := ih lo mid (by omega) (by omega) (fun i j h3 h4 h5 => hs i j h3 h4 (by omega))
        refine ⟨e1, fun i h3 h4 => ?_⟩
        by_cases h5 : i < mid
        · exact e2 i h3 h5
        · exact le_trans (not_lt.mp h2) (hs mid i (by omega) (by omega) h4)
    · rw [if_neg h1]
      exact ⟨fun i _ _ => by omega, fun i _ _ => by omega⟩

theorem bsearch_congr {F : Type*} [FloatLike F] {a b : ℕ → F} {x : F} (fuel : ℕ) : ∀ lo hi,
    (∀ i, lo ≤ i → i < hi → a i = b i) → bsearch a x fuel lo hi = bsearch b x fuel lo hi := by
  induction fuel with
  | zero => intros; rfl
  | succ n ih =>
    intro lo hi h
    rw [bsearch, bsearch]
    split_ifs with h1
    · simp only
      rw [h (lo + (hi - lo) / 2) (by omega) (by omega)]
      split_ifs
      · exact ih _ _ (fun i h2 h3 => h i (by omega) h3)
      · exact ih _ _ (fun i h2 h3 => h i h2 (by omega))
    · rfl

end exact

end Interp
