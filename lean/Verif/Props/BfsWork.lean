import Verif.Props.BfsWet

/-! # How much work the wetting search does (C134) -/

namespace Bfs
open FloatLike
variable {F : Type*} [FloatLike F] {G : Csr} {O : Ocean F}

/-- Specification: the neutral links from `m` to each of its neighbours, for each `m` of the list in turn. -/
def links (G : Csr) (q : List ℕ) : List (ℕ × ℕ) := q.flatMap fun m => (G.nbrs m).map fun n => (m, n)

/-- What a pass over neighbours `l` of `m` does to the queue and to the list of calculations. -/
structure Pass (O : Ocean F) (m : ℕ) (l : List ℕ) (st st' : WSt F) : Prop where
  queue : ∃ l', st'.q = st.q ++ l'
  calls : ∃ l', st'.calls = st.calls ++ l' ∧ l'.Sublist (l.map fun n => (m, n)) ∧ ∀ c ∈ l', st.dry c.2 = true ∧ O.data c.2 = true
  dry : ∀ n, st'.dry n = true → st.dry n = true

theorem visitW_pass (m : ℕ) (st : WSt F) (n : ℕ) : Pass O m [n] st (visitW O m st n) := by
  unfold visitW
  dsimp only
  have hu : ∀ (f : ℕ → Bool) v, Function.update f n false v = true → f v = true := by
    intro f v h
    by_cases hv : v = n
    · subst hv; simp at h
    · rwa [Function.update_of_ne hv] at h
  split_ifs with h1 h2 h3 h4
  · exact ⟨⟨_, rfl⟩, ⟨[], by simp, by simp, by simp⟩, fun _ h => h⟩
  · exact ⟨⟨_, rfl⟩, ⟨_, rfl, List.Sublist.refl _, by simpa using ⟨h2, h3⟩⟩, hu _⟩
  · exact ⟨⟨[], by simp⟩, ⟨_, rfl, List.Sublist.refl _, by simpa using ⟨h2, h3⟩⟩, fun _ h => h⟩
  · exact ⟨⟨[], by simp⟩, ⟨[], by simp, by simp, by simp⟩, hu _⟩
  · exact ⟨⟨[], by simp⟩, ⟨[], by simp, by simp, by simp⟩, fun _ h => h⟩

theorem foldW_pass (m : ℕ) (l : List ℕ) : ∀ st : WSt F, Pass O m l st (l.foldl (visitW O m) st) := by
  induction l with
  | nil => intro st; exact ⟨⟨[], by simp⟩, ⟨[], by simp, by simp, by simp⟩, fun _ h => h⟩
  | cons n l ih =>
    intro st
    obtain ⟨⟨q1, a1⟩, ⟨c1, b1, b2, b3⟩, d1⟩ := visitW_pass (O := O) m st n
    obtain ⟨⟨q2, a2⟩, ⟨c2, e1, e2, e3⟩, d2⟩ := ih (visitW O m st n)
    refine ⟨⟨q1 ++ q2, by rw [List.foldl_cons, a2, a1, List.append_assoc]⟩, ⟨c1 ++ c2, by rw [List.foldl_cons, e1, b1, List.append_assoc], ?_, ?_⟩,
      fun v h => d1 v (d2 v h)⟩
    · have := b2.append e2
      simpa using this
    · intro c hc
      rcases List.mem_append.1 hc with h | h
      · exact b3 c h
      · exact ⟨d1 _ (e3 c h).1, (e3 c h).2⟩

theorem loopW_calls : ∀ (fuel hd : ℕ) (st r : WSt F), loopW G O fuel hd st = some r → hd ≤ st.q.length →
    st.calls.Sublist (links G (st.q.take hd)) →
    (∃ l, r.q = st.q ++ l) ∧ r.calls.Sublist (links G r.q) ∧ (∃ l, r.calls = st.calls ++ l ∧ ∀ c ∈ l, st.dry c.2 = true ∧ O.data c.2 = true) := by
  intro fuel
  induction fuel with
  | zero => intro hd st r h; cases h
  | succ fuel ih =>
    intro hd st r h hle hs
    unfold loopW at h
    split_ifs at h with hlt
    · obtain ⟨⟨q1, a1⟩, ⟨c1, b1, b2, b3⟩, d1⟩ := foldW_pass (O := O) st.q[hd] (G.nbrs st.q[hd]) st
      have ht : ((G.nbrs st.q[hd]).foldl (visitW O st.q[hd]) st).q.take (hd + 1) = st.q.take hd ++ [st.q[hd]] := by
        rw [a1, List.take_append_of_le_length (by omega), List.take_succ_eq_append_getElem hlt]
      obtain ⟨⟨l, e1⟩, e2, ⟨l', e3, e4⟩⟩ := ih (hd + 1) _ r h (by rw [a1, List.length_append]; omega) (by
        rw [ht, b1]
        unfold links
        rw [List.flatMap_append]
        exact hs.append (by simpa using b2))
      refine ⟨⟨q1 ++ l, by rw [e1, a1, List.append_assoc]⟩, e2, ⟨c1 ++ l', by rw [e3, b1, List.append_assoc], ?_⟩⟩
      intro c hc
      rcases List.mem_append.1 hc with h | h
      · exact b3 c h
      · exact ⟨d1 _ (e4 c h).1, (e4 c h).2⟩
    · cases h
      rw [List.take_of_length_le (by omega)] at hs
      exact ⟨⟨[], by simp⟩, hs, ⟨[], by simp, by simp⟩⟩

/-- **C134.** The neutral tangent plane calculations of `bfs_conncomp1_wet`, in the order in which they are made, are among the links from each listed cast to
its neighbours, each made at most once and only to casts that were dry at the start and have two or more data. -/
theorem wet_calls (G : Csr) (O : Ocean F) (root : ℕ) (stp : ℕ → F × F × F) (fuel : ℕ) {r : WSt F} (h : bfsWet G O root stp fuel = some r) :
    r.calls.Sublist (links G r.q) ∧ ∀ c ∈ r.calls, wet stp c.2 = false ∧ O.data c.2 = true := by
  unfold bfsWet at h
  dsimp only at h
  split_ifs at h with hr
  · obtain ⟨-, h1, ⟨l, h2, h3⟩⟩ := loopW_calls _ _ _ _ h (by simp) (by simp)
    refine ⟨h1, fun c hc => ?_⟩
    rw [h2] at hc
    have := h3 c (by simpa using hc)
    exact ⟨by simpa [wet] using this.1, this.2⟩
  · cases h
    exact ⟨by simp, by simp⟩

/-- **C134.** With no cast listed twice among the neighbours of a cast, no link is calculated twice, and the number of calculations for a cast is at most the
number of listed casts next to it; in all there are at most as many as links. -/
theorem wet_work (G : Csr) (O : Ocean F) (N root : ℕ) (stp : ℕ → F × F × F) (hG : InRange G N) (hr : root < N) (fuel : ℕ) (hf : N < fuel)
    (hroot : wet stp root = true) (hn : ∀ m, m < N → (G.nbrs m).Nodup) :
    ∃ r, bfsWet G O root stp fuel = some r ∧ r.calls.Nodup ∧
      (∀ n, r.calls.countP (fun c => decide (c.2 = n)) ≤ r.q.countP (fun m => decide (n ∈ G.nbrs m))) ∧
      r.calls.length ≤ (r.q.map fun m => (G.nbrs m).length).sum := by
  obtain ⟨r, h1, -, W⟩ := bfsWet_spec G O N root stp hG hr fuel hf hroot
  obtain ⟨h2, -⟩ := wet_calls G O root stp fuel h1
  have hN : ∀ m ∈ r.q, (G.nbrs m).Nodup := fun m hm => by
    obtain ⟨k, hk⟩ := (W.component m).1 hm
    refine hn m ?_
    clear hm
    induction hk with
    | root _ => exact hr
    | step _ h _ ih => exact hG _ ih _ h
  have hnd : (links G r.q).Nodup := by
    unfold links
    rw [List.nodup_flatMap]
    refine ⟨fun m hm => (hN m hm).map fun a b h => by simpa using h, ?_⟩
    refine W.nodup.imp_of_mem fun {a c} _ _ hac => ?_
    simp only [Function.onFun, List.disjoint_left, List.mem_map, not_exists, not_and]
    rintro x ⟨u, -, rfl⟩ v - hv
    simp only [Prod.mk.injEq] at hv
    exact hac hv.1.symm
  refine ⟨r, h1, h2.nodup hnd, fun n => ?_, ?_⟩
  · refine (h2.countP_le).trans ?_
    have : ∀ q : List ℕ, (∀ m ∈ q, (G.nbrs m).Nodup) →
        (links G q).countP (fun c => decide (c.2 = n)) = q.countP (fun m => decide (n ∈ G.nbrs m)) := by
      intro q
      induction q with
      | nil => intro _; rfl
      | cons m q ih =>
        intro hq
        have : links G (m :: q) = (G.nbrs m).map (fun n => (m, n)) ++ links G q := by simp [links]
        rw [this, List.countP_append, ih fun m hm => hq m (List.mem_cons_of_mem _ hm), List.countP_cons, List.countP_map, add_comm]
        congr 1
        have hc : ((fun c : ℕ × ℕ => decide (c.2 = n)) ∘ fun n => (m, n)) = fun x => x == n := by
          funext x; simp [Function.comp]; rfl
        rw [hc, ← List.count, List.Nodup.count (hq m (by simp))]
        simp
    exact (this _ hN).le
  · refine h2.length_le.trans ?_
    unfold links
    simp [List.length_flatMap]

/-- Three calculations at most for the triangle with one dry cast: two are made. -/
example : (∀ m, m < 3 → (triCsr.nbrs m).Nodup) ∧ InRange triCsr 3 ∧ wet triStp 0 = true ∧
    (bfsWet triCsr triOcean 0 triStp 4).map (fun r => (r.calls, links triCsr r.q)) =
      some ([(0, 2), (1, 2)], [(0, 1), (0, 2), (1, 0), (1, 2)]) := by
  unfold InRange
  decide +kernel

end Bfs
