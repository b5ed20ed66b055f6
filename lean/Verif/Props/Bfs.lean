import Verif.Lemmas.Bfs

/-! # Properties of `bfs.py`: the plain search (C25, C26) -/

namespace Bfs
set_option linter.unusedSectionVars false

/-! ## Specification -/

/-- `Walk G good root k v`: there is a walk of `k` edges from `root` to `v`, all of whose nodes are good. -/
inductive Walk (G : Csr) (good : ℕ → Bool) (root : ℕ) : ℕ → ℕ → Prop
  | root : good root = true → Walk G good root 0 root
  | step {k m n} : Walk G good root k m → n ∈ G.nbrs m → good n = true → Walk G good root (k + 1) n

/-- `v` can be reached from `root` through good nodes. -/
def Reach (G : Csr) (good : ℕ → Bool) (root v : ℕ) : Prop := ∃ k, Walk G good root k v

theorem Walk.good {G : Csr} {good : ℕ → Bool} {root k v : ℕ} (h : Walk G good root k v) : good v = true := by
  cases h <;> assumption

/-- All edges of the graph stay inside `0 .. N-1`. -/
def InRange (G : Csr) (N : ℕ) : Prop := ∀ m, m < N → ∀ n ∈ G.nbrs m, n < N

theorem Inv.walk {G : Csr} {N root : ℕ} {good0 : ℕ → Bool} {hd : ℕ} {st : St} (I : Inv G N root good0 hd st) :
    ∀ (i v : ℕ), st.q[i]? = some v → Reach G good0 root v := by
  intro i
  induction i using Nat.strong_induction_on with
  | _ i ih =>
    intro v hv
    rcases Nat.eq_zero_or_pos i with rfl | hi
    · rw [I.first] at hv
      obtain rfl := Option.some.inj hv
      exact ⟨0, .root (I.good_q _ (List.mem_of_getElem? I.first)).1⟩
    · obtain ⟨l, m, _, h2, h3, h4⟩ := I.parent i v hi hv
      obtain ⟨k, w⟩ := ih l h2 m h3
      exact ⟨k + 1, .step w h4 (I.good_q _ (List.mem_of_getElem? hv)).1⟩

theorem Inv.complete {G : Csr} {N root : ℕ} {good0 : ℕ → Bool} {st : St} (I : Inv G N root good0 st.q.length st)
    {k v : ℕ} (w : Walk G good0 root k v) : v ∈ st.q := by
  induction w with
  | root _ => exact List.mem_of_getElem? I.first
  | step w hn hg ih =>
    obtain ⟨i, hi, rfl⟩ := List.mem_iff_getElem.1 ih
    exact I.closed i _ hi (List.getElem?_eq_getElem hi) _ hn hg

/-! ## C25 -/

/-- **C25.** For every graph on `0 .. N-1`, every root and every mask, the search ends after at most `N + 1` passes and returns
exactly the nodes that can be reached from the root through good nodes, each once, the root first; the list fits in
an array of length `N`; and afterwards `good` is false exactly on the component and otherwise unchanged.
If the root is not good the list is empty and `good` is unchanged. -/
theorem bfs_component (G : Csr) (N root : ℕ) (good : ℕ → Bool) (hG : InRange G N) (hr : root < N) (fuel : ℕ)
    (hf : N < fuel) :
    ∃ r, bfs G root good fuel = some r ∧ r.q.Nodup ∧ r.q.length ≤ N ∧
      (∀ v, v ∈ r.q ↔ Reach G good root v) ∧
      (good root = true → r.q.head? = some root) ∧ (good root = false → r.q = []) ∧
      (∀ v, r.good v = true ↔ good v = true ∧ ¬ Reach G good root v) := by
  rcases Bool.eq_false_or_eq_true (good root) with hg | hg
  · obtain ⟨r, h1, I⟩ := loop_spec (root := root) (good0 := good) hG fuel 0 _ (Inv.init hr hg) (by omega)
    have hmem : ∀ v, v ∈ r.q ↔ Reach G good root v := by
      intro v
      constructor
      · intro hv
        obtain ⟨i, hi, rfl⟩ := List.mem_iff_getElem.1 hv
        exact I.walk i _ (List.getElem?_eq_getElem hi)
      · rintro ⟨k, w⟩
        exact I.complete w
    refine ⟨r, by simp [bfs, hg, h1], I.nodup, length_le_of_nodup I.nodup (fun v hv => (I.good_q v hv).2), hmem,
      fun _ => ?_, fun h => ?_, ?_⟩
    · rw [List.head?_eq_getElem?]; exact I.first
    · rw [hg] at h; exact absurd h (by simp)
    · intro v
      rw [I.good, ← hmem]
      simp
  · have no : ∀ v, ¬ Reach G good root v := by
      rintro v ⟨k, w⟩
      induction w with
      | root h => rw [hg] at h; exact absurd h (by simp)
      | step _ _ _ ih => exact ih
    refine ⟨⟨[], good⟩, by simp [bfs, hg], by simp, by simp, ?_, fun h => ?_, fun _ => rfl, ?_⟩
    · intro v; simp [no v]
    · rw [hg] at h; exact absurd h (by simp)
    · intro v; simp [no v]

/-! ## C26 -/

theorem Inv.sorted {G : Csr} {N root : ℕ} {good0 : ℕ → Bool} {st : St} (I : Inv G N root good0 st.q.length st) :
    ∀ (k i j u v : ℕ), i ≤ j → st.q[i]? = some u → st.q[j]? = some v → Walk G good0 root k v →
      ∃ k', k' ≤ k ∧ Walk G good0 root k' u := by
  intro k
  induction k with
  | zero =>
    intro i j u v hij hu hv w
    cases w with
    | root hg =>
      have hj : j = 0 := by
        have h1 := List.getElem?_eq_some_iff.1 hv
        have h2 := List.getElem?_eq_some_iff.1 I.first
        exact (List.Nodup.getElem_inj_iff I.nodup).1 (h1.2.trans h2.2.symm)
      have hi : i = 0 := by omega
      subst hj hi
      rw [hu] at hv
      obtain rfl := Option.some.inj hv
      exact ⟨0, le_refl _, .root hg⟩
  | succ k ih =>
    intro i j u v hij hu hv w
    cases w with
    | @step _ m _ w hn hg =>
      rcases Nat.eq_zero_or_pos i with rfl | hi
      · rw [I.first] at hu
        obtain rfl := Option.some.inj hu
        exact ⟨0, by omega, .root (I.good_q _ (List.mem_of_getElem? I.first)).1⟩
      · obtain ⟨l, hl, e⟩ := List.mem_iff_getElem.1 (I.complete w)
        have hlm : st.q[l]? = some m := by rw [List.getElem?_eq_getElem hl, e]
        obtain ⟨l', m', a, _, c, d⟩ := I.fifo i j u v hi hij hu hv l m hl hlm hn
        obtain ⟨k', hk, w'⟩ := ih l' l m' m a c hlm w
        exact ⟨k' + 1, by omega, .step w' d (I.good_q _ (List.mem_of_getElem? hu)).1⟩

/-- **C26.** The nodes are returned in order of nondecreasing graph distance from the root: if `u` is listed before `v`,
then every walk from the root to `v` through good nodes is at least as long as some walk to `u`. -/
theorem bfs_order (G : Csr) (N root : ℕ) (good : ℕ → Bool) (hG : InRange G N) (hr : root < N) (fuel : ℕ)
    (r : St) (h : bfs G root good fuel = some r) (hf : N < fuel) :
    r.q.Pairwise fun u v => ∀ k, Walk G good root k v → ∃ k', k' ≤ k ∧ Walk G good root k' u := by
  rcases Bool.eq_false_or_eq_true (good root) with hg | hg
  · obtain ⟨r', h1, I⟩ := loop_spec (root := root) (good0 := good) hG fuel 0 _ (Inv.init hr hg) (by omega)
    have : bfs G root good fuel = some r' := by simp [bfs, hg, h1]
    rw [h] at this
    obtain rfl := Option.some.inj this
    rw [List.pairwise_iff_getElem]
    intro i j hi hj hij k w
    exact I.sorted k i j _ _ hij.le (List.getElem?_eq_getElem hi) (List.getElem?_eq_getElem hj) w
  · simp only [bfs, hg, Bool.false_eq_true, if_false, Option.some.injEq] at h
    subst h
    simp

/-! ## Non-vacuity -/

/-- The cycle 0-1-2-3-0 with a separate node 4. -/
def exCsr : Csr where
  indptr i := if i < 5 then 2 * i else 8
  indices i := [1, 3, 0, 2, 1, 3, 2, 0].getD i 0

example : InRange exCsr 5 := by unfold InRange; decide
example : (bfs exCsr 0 (fun n => n ≠ 2) 6).map (·.q) = some [0, 1, 3] := by decide
example : (bfs exCsr 1 (fun n => n ≠ 2) 6).map (·.q) = some [1, 0, 3] := by decide

end Bfs
