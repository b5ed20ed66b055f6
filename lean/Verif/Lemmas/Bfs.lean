import Verif.Model.Bfs
import Mathlib.Data.List.Nodup
import Mathlib.Data.List.Perm.Basic
import Mathlib.Data.List.Range
import Mathlib.Data.Finset.Card
import Mathlib.Data.Finset.Range
import Mathlib.Logic.Relation

/-! # Helper lemmas: breadth-first search -/

namespace Bfs
set_option linter.unusedSectionVars false

/-- A duplicate-free list of numbers below `N` has at most `N` entries. -/
theorem length_le_of_nodup {l : List ℕ} {N : ℕ} (h : l.Nodup) (hN : ∀ v ∈ l, v < N) : l.length ≤ N := by
  classical
  have h1 : l.toFinset ⊆ Finset.range N := by
    intro v hv
    exact Finset.mem_range.2 (hN v (List.mem_toFinset.1 hv))
  have h2 := Finset.card_le_card h1
  rwa [List.toFinset_card_of_nodup h, Finset.card_range] at h2

/-! ## `visit` folded over the neighbours -/

theorem visit_fold (l : List ℕ) : ∀ st : St, (∀ v ∈ st.q, st.good v = false) → st.q.Nodup →
    let st' := l.foldl visit st
    (∃ e, st'.q = st.q ++ e ∧ ∀ v, v ∈ e ↔ v ∈ l ∧ st.good v = true) ∧ st'.q.Nodup ∧
      (∀ v, st'.good v = (st.good v && decide (v ∉ l))) ∧ (∀ v ∈ st'.q, st'.good v = false) := by
  induction l with
  | nil =>
    intro st hg hn
    refine ⟨⟨[], by simp⟩, hn, ?_, hg⟩
    intro v; simp
  | cons n l ih =>
    intro st hg hn
    simp only [List.foldl_cons]
    by_cases hgn : st.good n = true
    · have e1 : visit st n = ⟨st.q ++ [n], Function.update st.good n false⟩ := by simp [visit, hgn]
      rw [e1]
      have hnq : n ∉ st.q := fun h => by have := hg n h; rw [hgn] at this; exact absurd this (by simp)
      obtain ⟨⟨e, h1, h2⟩, h3, h4, h5⟩ := ih ⟨st.q ++ [n], Function.update st.good n false⟩
        (by
          intro v hv
          simp only [List.mem_append, List.mem_singleton] at hv
          by_cases hvn : v = n
          · subst hvn; simp
          · show Function.update st.good n false v = false
            rw [Function.update_of_ne hvn]; exact hg v (by tauto))
        (by
          rw [List.nodup_append]
          refine ⟨hn, by simp, ?_⟩
          intro a ha b hb
          rw [List.mem_singleton] at hb
          subst hb
          rintro rfl
          exact hnq ha)
      refine ⟨⟨n :: e, ?_, ?_⟩, h3, ?_, h5⟩
      · rw [h1]; simp
      · intro v
        rw [List.mem_cons, List.mem_cons, h2]
        by_cases hvn : v = n
        · subst hvn; simp [hgn]
        · simp [hvn]
      · intro v
        rw [h4]
        by_cases hvn : v = n
        · subst hvn; simp
        · simp [hvn]
    · have e1 : visit st n = st := by simp [visit, hgn]
      rw [e1]
      obtain ⟨⟨e, h1, h2⟩, h3, h4, h5⟩ := ih st hg hn
      refine ⟨⟨e, h1, ?_⟩, h3, ?_, h5⟩
      · intro v
        rw [h2, List.mem_cons]
        by_cases hvn : v = n
        · subst hvn; simp [hgn]
        · simp [hvn]
      · intro v
        rw [h4]
        by_cases hvn : v = n
        · subst hvn; simp [hgn]
        · simp [hvn]

/-- Loop invariant of `bfs`. -/
structure Inv (G : Csr) (N root : ℕ) (good0 : ℕ → Bool) (hd : ℕ) (st : St) : Prop where
  first : st.q[0]? = some root
  nodup : st.q.Nodup
  good_q : ∀ v ∈ st.q, good0 v = true ∧ v < N
  good : ∀ v, st.good v = (good0 v && decide (v ∉ st.q))
  hd_le : hd ≤ st.q.length
  closed : ∀ i m, i < hd → st.q[i]? = some m → ∀ n ∈ G.nbrs m, good0 n = true → n ∈ st.q
  parent : ∀ i v, 0 < i → st.q[i]? = some v → ∃ l m, l < hd ∧ l < i ∧ st.q[l]? = some m ∧ v ∈ G.nbrs m
  fifo : ∀ i j u v, 0 < i → i ≤ j → st.q[i]? = some u → st.q[j]? = some v →
    ∀ l m, l < hd → st.q[l]? = some m → v ∈ G.nbrs m →
      ∃ l' m', l' ≤ l ∧ l' < hd ∧ st.q[l']? = some m' ∧ u ∈ G.nbrs m'

theorem Inv.init {G : Csr} {N root : ℕ} {good0 : ℕ → Bool} (hr : root < N) (hg : good0 root = true) :
    Inv G N root good0 0 ⟨[root], Function.update good0 root false⟩ where
  first := (rfl)
  nodup := by simp
  good_q := by simp [hr, hg]
  good := by
    intro v
    by_cases h : v = root
    · subst h; simp
    · simp [h]
  hd_le := by simp
  closed := by intro i m hi; omega
  parent := by
    intro i v hi hv
    rw [List.getElem?_eq_none (by simp; omega)] at hv
    exact absurd hv (by simp)
  fifo := by intro i j u v _ _ _ _ l m hl; omega

theorem Inv.step {G : Csr} {N root : ℕ} {good0 : ℕ → Bool} {hd : ℕ} {st : St}
    (hG : ∀ m, m < N → ∀ n ∈ G.nbrs m, n < N)
    (I : Inv G N root good0 hd st) (h : hd < st.q.length) :
    Inv G N root good0 (hd + 1) ((G.nbrs st.q[hd]).foldl visit st) := by
  have hgq : ∀ v ∈ st.q, st.good v = false := by intro v hv; rw [I.good]; simp [hv]
  obtain ⟨⟨e, h1, h2⟩, h3, h4, h5⟩ := visit_fold (G.nbrs st.q[hd]) st hgq I.nodup
  set st' := (G.nbrs st.q[hd]).foldl visit st with hst
  have hm : st.q[hd]? = some st.q[hd] := List.getElem?_eq_getElem h
  have hmN := (I.good_q _ (List.getElem_mem h)).2
  have he : ∀ v ∈ e, good0 v = true ∧ v ∉ st.q ∧ v ∈ G.nbrs st.q[hd] := by
    intro v hv
    obtain ⟨a, b⟩ := (h2 v).1 hv
    rw [I.good] at b
    simp only [Bool.and_eq_true, decide_eq_true_eq] at b
    exact ⟨b.1, b.2, a⟩
  have old : ∀ i v, i < st.q.length → (st'.q[i]? = some v ↔ st.q[i]? = some v) := by
    intro i v hi
    rw [h1, List.getElem?_append_left hi]
  have new : ∀ i v, st.q.length ≤ i → st'.q[i]? = some v → v ∈ e := by
    intro i v hi hv
    rw [h1, List.getElem?_append_right hi] at hv
    exact List.mem_of_getElem? hv
  have lt_of : ∀ i v, st.q[i]? = some v → i < st.q.length := fun i v hv => (List.getElem?_eq_some_iff.1 hv).1
  refine ⟨?_, h3, ?_, ?_, ?_, ?_, ?_, ?_⟩
  · rw [old 0 root (lt_of 0 _ I.first)]; exact I.first
  · intro v hv
    rw [h1, List.mem_append] at hv
    rcases hv with hv | hv
    · exact I.good_q v hv
    · exact ⟨(he v hv).1, hG _ hmN v (he v hv).2.2⟩
  · intro v
    rw [h4, I.good, h1]
    have hv := h2 v
    rw [I.good] at hv
    by_cases a : good0 v = true <;> by_cases b : v ∈ st.q <;> by_cases c : v ∈ G.nbrs st.q[hd] <;> simp_all
  · rw [h1, List.length_append]; omega
  · intro i m hi hm' n hn hgn
    rw [old i m (by omega)] at hm'
    by_cases hih : i = hd
    · subst hih
      rw [hm] at hm'
      obtain rfl := Option.some.inj hm'
      rw [h1, List.mem_append]
      by_cases hq : n ∈ st.q
      · exact Or.inl hq
      · right
        rw [h2, I.good]
        simp [hn, hgn, hq]
    · rw [h1, List.mem_append]
      exact Or.inl (I.closed i m (by omega) hm' n hn hgn)
  · intro i v hi hv
    by_cases hil : i < st.q.length
    · rw [old i v hil] at hv
      obtain ⟨l, m, a, b, c, d⟩ := I.parent i v hi hv
      exact ⟨l, m, by omega, b, (old l m (by omega)).2 c, d⟩
    · have := new i v (by omega) hv
      exact ⟨hd, st.q[hd], by omega, by omega, (old hd _ h).2 hm, (he v this).2.2⟩
  · intro i j u v hi hij hu hv l m hl hlm hvm
    rw [old l m (by omega)] at hlm
    -- `u` has some parent at most `hd`
    have par : ∃ l' m', l' ≤ hd ∧ l' < hd + 1 ∧ st'.q[l']? = some m' ∧ u ∈ G.nbrs m' := by
      by_cases hil : i < st.q.length
      · rw [old i u hil] at hu
        obtain ⟨l, m, a, b, c, d⟩ := I.parent i u hi hu
        exact ⟨l, m, by omega, by omega, (old l m (by omega)).2 c, d⟩
      · exact ⟨hd, st.q[hd], le_refl _, by omega, (old hd _ h).2 hm, (he u (new i u (by omega) hu)).2.2⟩
    by_cases hlh : l = hd
    · subst hlh; exact par
    · have hl' : l < hd := by omega
      by_cases hjl : j < st.q.length
      · rw [old i u (by omega)] at hu
        rw [old j v hjl] at hv
        obtain ⟨l', m', a, b, c, d⟩ := I.fifo i j u v hi hij hu hv l m hl' hlm hvm
        exact ⟨l', m', a, by omega, (old l' m' (by omega)).2 c, d⟩
      · have := he v (new j v (by omega) hv)
        exact absurd (I.closed l m hl' hlm v hvm this.1) this.2.1

/-- The loop ends, and the invariant holds with everything processed. -/
theorem loop_spec {G : Csr} {N root : ℕ} {good0 : ℕ → Bool} (hG : ∀ m, m < N → ∀ n ∈ G.nbrs m, n < N) :
    ∀ fuel hd st, Inv G N root good0 hd st → N < fuel + hd →
      ∃ r, loop G fuel hd st = some r ∧ Inv G N root good0 r.q.length r := by
  intro fuel
  induction fuel with
  | zero =>
    intro hd st I hf
    have := length_le_of_nodup I.nodup (fun v hv => (I.good_q v hv).2)
    have := I.hd_le
    omega
  | succ fuel ih =>
    intro hd st I hf
    rw [loop]
    by_cases h : hd < st.q.length
    · rw [dif_pos h]
      exact ih (hd + 1) _ (I.step hG h) (by omega)
    · rw [dif_neg h]
      have := I.hd_le
      have e : hd = st.q.length := by omega
      exact ⟨st, rfl, e ▸ I⟩

end Bfs
