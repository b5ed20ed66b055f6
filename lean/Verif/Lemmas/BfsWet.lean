import Verif.Lemmas.Bfs

/-! # Helper lemmas: breadth-first search with wetting -/

namespace Bfs
open FloatLike
set_option linter.unusedSectionVars false
variable {F : Type*} [FloatLike F]

/-- `np.isfinite(p)` on a surface. -/
abbrev wet (stp : ℕ → F × F × F) (n : ℕ) : Bool := isFinite (stp n).2.2

/-- Loop invariant of `bfsWet`, apart from the processed nodes. -/
structure WInv (G : Csr) (O : Ocean F) (N root : ℕ) (stp0 : ℕ → F × F × F) (st : WSt F) : Prop where
  first : st.q[0]? = some root
  nodup : st.q.Nodup
  lt : ∀ v ∈ st.q, v < N
  good : ∀ v, st.good v = (wet stp0 v && decide (v ∉ st.q))
  dry : ∀ v, st.dry v = true → wet stp0 v = false ∧ v ∉ st.q
  undry : ∀ v, st.dry v = false → wet stp0 v = true ∨ v ∈ st.q ∨ O.data v = false
  old : ∀ v, wet stp0 v = true ∨ v ∉ st.q → st.stp v = stp0 v
  parent : ∀ (i v : ℕ), 0 < i → st.q[i]? = some v → ∃ l m, l < i ∧ st.q[l]? = some m ∧ v ∈ G.nbrs m
  new : ∀ (i v : ℕ), st.q[i]? = some v → wet stp0 v = false → O.data v = true ∧ accept O v (st.stp v).2.2 = true ∧
    ∃ l m, l < i ∧ st.q[l]? = some m ∧ v ∈ G.nbrs m ∧ st.stp v = O.ntp (st.stp m) v
  newly : st.newly = (st.q.filter fun v => !wet stp0 v).length

/-- `st'` extends `st`. -/
structure WExt (st st' : WSt F) : Prop where
  pre : ∃ e, st'.q = st.q ++ e
  keep : ∀ v ∈ st.q, st'.stp v = st.stp v

theorem WExt.rfl {st : WSt F} : WExt st st := ⟨⟨[], by simp⟩, fun _ _ => Eq.refl _⟩

theorem WExt.trans {a b c : WSt F} (h : WExt a b) (h' : WExt b c) : WExt a c := by
  obtain ⟨⟨e, h1⟩, h2⟩ := h
  obtain ⟨⟨e', h3⟩, h4⟩ := h'
  refine ⟨⟨e ++ e', by rw [h3, h1, List.append_assoc]⟩, fun v hv => ?_⟩
  rw [h4 v (by rw [h1]; simp [hv]), h2 v hv]

theorem WExt.mem {a b : WSt F} (h : WExt a b) {v : ℕ} (hv : v ∈ a.q) : v ∈ b.q := by
  obtain ⟨⟨e, h1⟩, _⟩ := h
  rw [h1]; simp [hv]

/-- Neighbour `n` of `m` has been dealt with: listed, or its link from `m` was tried and rejected, or it has no data. -/
def Done (O : Ocean F) (stp0 : ℕ → F × F × F) (st : WSt F) (m n : ℕ) : Prop :=
  n ∈ st.q ∨ (wet stp0 n = false ∧ (O.data n = false ∨ accept O n (O.ntp (st.stp m) n).2.2 = false))

theorem Done.mono {O : Ocean F} {stp0 : ℕ → F × F × F} {st st' : WSt F} {m n : ℕ} (h : Done O stp0 st m n)
    (hm : m ∈ st.q) (E : WExt st st') : Done O stp0 st' m n := by
  rcases h with h | h
  · exact Or.inl (E.mem h)
  · right; rw [E.keep m hm]; exact h

theorem visitW_step {G : Csr} {O : Ocean F} {N root : ℕ} {stp0 : ℕ → F × F × F} {st : WSt F} {m n : ℕ}
    (I : WInv G O N root stp0 st) (hm : m ∈ st.q) (hmn : n ∈ G.nbrs m) (hn : n < N) :
    WInv G O N root stp0 (visitW O m st n) ∧ WExt st (visitW O m st n) ∧ Done O stp0 (visitW O m st n) m n := by
  obtain ⟨lm, hlm, rfl⟩ := List.mem_iff_getElem.1 hm
  have hm? : st.q[lm]? = some st.q[lm] := List.getElem?_eq_getElem hlm
  unfold visitW
  have nodup_app : n ∉ st.q → (st.q ++ [n]).Nodup := by
    intro hnq
    rw [List.nodup_append]
    refine ⟨I.nodup, by simp, ?_⟩
    intro a ha b hb
    rw [List.mem_singleton] at hb
    subst hb
    rintro rfl
    exact hnq ha
  have get_app : ∀ (i v : ℕ), (st.q ++ [n])[i]? = some v → st.q[i]? = some v ∨ (i = st.q.length ∧ v = n) := by
    intro i v h
    by_cases hi : i < st.q.length
    · rw [List.getElem?_append_left hi] at h; exact Or.inl h
    · rw [List.getElem?_append_right (by omega)] at h
      have : i - st.q.length < 1 := by
        have := (List.getElem?_eq_some_iff.1 h).1
        simpa using this
      have e : i = st.q.length := by omega
      subst e
      simp at h
      exact Or.inr ⟨rfl, h.symm⟩
  have app_get : ∀ (i v : ℕ), st.q[i]? = some v → (st.q ++ [n])[i]? = some v := by
    intro i v h
    rw [List.getElem?_append_left (List.getElem?_eq_some_iff.1 h).1, h]
  by_cases hg : st.good n = true
  · rw [if_pos hg]
    have hg' := hg
    rw [I.good] at hg'
    simp only [Bool.and_eq_true, decide_eq_true_eq] at hg'
    obtain ⟨hw, hnq⟩ := hg'
    refine ⟨⟨app_get 0 _ I.first, nodup_app hnq, ?_, ?_, ?_, ?_, ?_, ?_, ?_, ?_⟩, ⟨⟨[n], rfl⟩, fun _ _ => rfl⟩, Or.inl (by simp)⟩
    · intro v hv
      simp only [List.mem_append, List.mem_singleton] at hv
      rcases hv with hv | rfl
      · exact I.lt v hv
      · exact hn
    · intro v
      simp only
      by_cases hvn : v = n
      · subst hvn; simp
      · simp [Function.update_of_ne hvn, I.good, hvn]
    · intro v hv
      have := I.dry v hv
      refine ⟨this.1, ?_⟩
      simp only [List.mem_append, List.mem_singleton, not_or]
      refine ⟨this.2, ?_⟩
      rintro rfl
      rw [hw] at this; exact absurd this.1 (by simp)
    · intro v hv
      rcases I.undry v hv with h | h | h
      · exact Or.inl h
      · right; left; simp [h]
      · exact Or.inr (Or.inr h)
    · intro v hv
      apply I.old v
      simp only [List.mem_append, List.mem_singleton, not_or] at hv
      tauto
    · intro i v hi hv
      rcases get_app i v hv with h | ⟨rfl, rfl⟩
      · obtain ⟨l, m, a, b, c⟩ := I.parent i v hi h
        exact ⟨l, m, a, app_get l m b, c⟩
      · exact ⟨lm, _, hlm, app_get _ _ hm?, hmn⟩
    · intro i v hv hwv
      rcases get_app i v hv with h | ⟨rfl, rfl⟩
      · obtain ⟨a, b, l, m, c, d, e⟩ := I.new i v h hwv
        exact ⟨a, b, l, m, c, app_get l m d, e⟩
      · rw [hw] at hwv; exact absurd hwv (by simp)
    · simp only [List.filter_append, List.length_append, I.newly]
      simp [hw]
  · rw [if_neg hg]
    by_cases hd : st.dry n = true
    · rw [if_pos hd]
      obtain ⟨hw, hnq⟩ := I.dry n hd
      by_cases hdat : O.data n = true
      · rw [if_pos hdat]
        simp only
        by_cases ha : accept O n (O.ntp (st.stp st.q[lm]) n).2.2 = true
        · rw [if_pos ha]
          have keep : ∀ v ∈ st.q, Function.update st.stp n (O.ntp (st.stp st.q[lm]) n) v = st.stp v := by
            intro v hv
            rw [Function.update_of_ne]
            rintro rfl
            exact hnq hv
          refine ⟨⟨app_get 0 _ I.first, nodup_app hnq, ?_, ?_, ?_, ?_, ?_, ?_, ?_, ?_⟩, ⟨⟨[n], rfl⟩, keep⟩, Or.inl (by simp)⟩
          · intro v hv
            simp only [List.mem_append, List.mem_singleton] at hv
            rcases hv with hv | rfl
            · exact I.lt v hv
            · exact hn
          · intro v
            simp only
            rw [I.good]
            by_cases hvn : v = n
            · subst hvn; simp [hw]
            · simp [hvn]
          · intro v hv
            by_cases hvn : v = n
            · subst hvn; simp at hv
            · simp only [Function.update_of_ne hvn] at hv
              have := I.dry v hv
              exact ⟨this.1, by simp [this.2, hvn]⟩
          · intro v hv
            by_cases hvn : v = n
            · subst hvn; right; left; simp
            · simp only [Function.update_of_ne hvn] at hv
              rcases I.undry v hv with h | h | h
              · exact Or.inl h
              · right; left; simp [h]
              · exact Or.inr (Or.inr h)
          · intro v hv
            simp only [List.mem_append, List.mem_singleton, not_or] at hv
            have hvn : v ≠ n := by
              rintro rfl
              rcases hv with h | h
              · rw [hw] at h; exact absurd h (by simp)
              · exact h.2 rfl
            simp only [Function.update_of_ne hvn]
            apply I.old v
            tauto
          · intro i v hi hv
            rcases get_app i v hv with h | ⟨rfl, rfl⟩
            · obtain ⟨l, m, a, b, c⟩ := I.parent i v hi h
              exact ⟨l, m, a, app_get l m b, c⟩
            · exact ⟨lm, _, hlm, app_get _ _ hm?, hmn⟩
          · intro i v hv hwv
            rcases get_app i v hv with h | ⟨rfl, rfl⟩
            · obtain ⟨a, b, l, m, c, d, e, f⟩ := I.new i v h hwv
              have h1 := keep v (List.mem_of_getElem? h)
              have h2 := keep m (List.mem_of_getElem? d)
              simp only
              rw [h1]
              exact ⟨a, b, l, m, c, app_get l m d, e, by rw [h2]; exact f⟩
            · simp only
              have h2 := keep _ hm
              refine ⟨hdat, ?_, lm, _, hlm, app_get _ _ hm?, hmn, ?_⟩
              · simpa using ha
              · rw [h2]; simp
          · simp only [List.filter_append, List.length_append, I.newly]
            simp [hw]
        · rw [if_neg ha]
          exact ⟨⟨I.first, I.nodup, I.lt, I.good, I.dry, I.undry, I.old, I.parent, I.new, I.newly⟩,
            ⟨⟨[], by simp⟩, fun _ _ => rfl⟩, Or.inr ⟨hw, Or.inr (by simpa using ha)⟩⟩
      · rw [if_neg hdat]
        refine ⟨⟨I.first, I.nodup, I.lt, I.good, ?_, ?_, I.old, I.parent, I.new, I.newly⟩,
          ⟨⟨[], by simp⟩, fun _ _ => rfl⟩, Or.inr ⟨hw, Or.inl (by simpa using hdat)⟩⟩
        · intro v hv
          by_cases hvn : v = n
          · subst hvn; simp at hv
          · simp only [Function.update_of_ne hvn] at hv
            exact I.dry v hv
        · intro v hv
          by_cases hvn : v = n
          · subst hvn; exact Or.inr (Or.inr (by simpa using hdat))
          · simp only [Function.update_of_ne hvn] at hv
            exact I.undry v hv
    · rw [if_neg hd]
      refine ⟨I, WExt.rfl, ?_⟩
      rw [I.good] at hg
      by_cases hnq : n ∈ st.q
      · exact Or.inl hnq
      · have hw : wet stp0 n = false := by
          cases h : wet stp0 n
          · rfl
          · simp [h, hnq] at hg
        rcases I.undry n (by simpa using hd) with h | h | h
        · rw [hw] at h; exact absurd h (by simp)
        · exact Or.inl h
        · exact Or.inr ⟨hw, Or.inl h⟩

theorem visitW_fold {G : Csr} {O : Ocean F} {N root : ℕ} {stp0 : ℕ → F × F × F} {m : ℕ} (l : List ℕ) :
    ∀ st : WSt F, WInv G O N root stp0 st → m ∈ st.q → (∀ n ∈ l, n ∈ G.nbrs m ∧ n < N) →
    WInv G O N root stp0 (l.foldl (visitW O m) st) ∧ WExt st (l.foldl (visitW O m) st) ∧
      ∀ n ∈ l, Done O stp0 (l.foldl (visitW O m) st) m n := by
  induction l with
  | nil => intro st I _ _; exact ⟨I, WExt.rfl, by simp⟩
  | cons n l ih =>
    intro st I hm hl
    obtain ⟨h1, h2, h3⟩ := visitW_step I hm (hl n (by simp)).1 (hl n (by simp)).2
    obtain ⟨i1, i2, i3⟩ := ih _ h1 (h2.mem hm) (fun n hn => hl n (by simp [hn]))
    rw [List.foldl_cons]
    refine ⟨i1, h2.trans i2, ?_⟩
    intro n' hn'
    rcases List.mem_cons.1 hn' with rfl | hn'
    · exact h3.mono (h2.mem hm) i2
    · exact i3 n' hn'

theorem loopW_spec {G : Csr} {O : Ocean F} {N root : ℕ} {stp0 : ℕ → F × F × F}
    (hG : ∀ m, m < N → ∀ n ∈ G.nbrs m, n < N) :
    ∀ fuel hd (st : WSt F), WInv G O N root stp0 st → hd ≤ st.q.length →
      (∀ (i m : ℕ), i < hd → st.q[i]? = some m → ∀ n ∈ G.nbrs m, Done O stp0 st m n) → N < fuel + hd →
      ∃ r, loopW G O fuel hd st = some r ∧ WInv G O N root stp0 r ∧ ∀ m ∈ r.q, ∀ n ∈ G.nbrs m, Done O stp0 r m n := by
  intro fuel
  induction fuel with
  | zero =>
    intro hd st I hl _ hf
    have := length_le_of_nodup I.nodup I.lt
    omega
  | succ fuel ih =>
    intro hd st I hl hD hf
    rw [loopW]
    by_cases h : hd < st.q.length
    · rw [dif_pos h]
      have hm := List.getElem_mem h
      obtain ⟨i1, i2, i3⟩ := visitW_fold (m := st.q[hd]) (G.nbrs st.q[hd]) st I hm
        (fun n hn => ⟨hn, hG _ (I.lt _ hm) n hn⟩)
      refine ih (hd + 1) _ i1 ?_ ?_ (by omega)
      · obtain ⟨⟨e, he⟩, _⟩ := i2
        rw [he, List.length_append]; omega
      · intro i m hi hm' n hn
        have hm'' : st.q[i]? = some m := by
          obtain ⟨⟨e, he⟩, _⟩ := i2
          rw [he, List.getElem?_append_left (by omega)] at hm'
          exact hm'
        by_cases hih : i = hd
        · subst hih
          rw [List.getElem?_eq_getElem h] at hm''
          obtain rfl := Option.some.inj hm''
          exact i3 n hn
        · exact (hD i m (by omega) hm'' n hn).mono (List.mem_of_getElem? hm'') i2
    · rw [dif_neg h]
      refine ⟨st, rfl, I, ?_⟩
      intro m hm n hn
      obtain ⟨i, hi, rfl⟩ := List.mem_iff_getElem.1 hm
      exact hD i _ (by omega) (List.getElem?_eq_getElem hi) n hn

theorem WInv.init {G : Csr} {O : Ocean F} {N root : ℕ} {stp0 : ℕ → F × F × F} (hr : root < N) (hg : wet stp0 root = true) :
    WInv G O N root stp0 ⟨[root], Function.update (wet stp0) root false, fun n => !wet stp0 n, stp0, 0, []⟩ where
  first := (rfl)
  nodup := by simp
  lt := by simp [hr]
  good := by
    intro v
    by_cases h : v = root
    · subst h; simp
    · simp [h]
  dry := by
    intro v hv
    simp only [Bool.not_eq_true'] at hv
    refine ⟨hv, ?_⟩
    simp only [List.mem_singleton]
    rintro rfl
    rw [hg] at hv; exact absurd hv (by simp)
  undry := by
    intro v hv
    left
    simpa using hv
  old := by intro v _; rfl
  parent := by
    intro i v hi hv
    rw [List.getElem?_eq_none (by simp; omega)] at hv
    exact absurd hv (by simp)
  new := by
    intro i v hv hw
    have := List.mem_of_getElem? hv
    simp only [List.mem_singleton] at this
    subst this
    rw [hg] at hw; exact absurd hw (by simp)
  newly := by simp [hg]

end Bfs
