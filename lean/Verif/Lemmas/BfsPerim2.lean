import Verif.Lemmas.BfsPerim

/-! # Helper lemmas: invariants of the two-list program -/

namespace Bfs
open FloatLike
set_option linter.unusedSectionVars false
variable {F : Type*} [FloatLike F]

/-! ## First phase -/

theorem visitL_fold (fin0 : ℕ → Bool) (l : List ℕ) : ∀ x : List ℕ × List ℕ,
    let y := l.foldl (visitL fin0) x
    x.1 <+: y.1 ∧ x.2 <+: y.2 ∧ (∀ n ∈ l, fin0 n = false → n ∈ y.2) ∧ (∀ v ∈ y.2, v ∈ x.2 ∨ v ∈ l) := by
  induction l with
  | nil => intro x; exact ⟨List.prefix_rfl, List.prefix_rfl, by simp, fun v h => Or.inl h⟩
  | cons n l ih =>
    intro x
    simp only [List.foldl_cons]
    obtain ⟨h1, h2, h3, h4⟩ := ih (visitL fin0 x n)
    have a : x.1 <+: (visitL fin0 x n).1 ∧ x.2 <+: (visitL fin0 x n).2 ∧
        (fin0 n = false → n ∈ (visitL fin0 x n).2) ∧ (∀ v ∈ (visitL fin0 x n).2, v ∈ x.2 ∨ v = n) := by
      unfold visitL
      split_ifs with i1 i2 i3
      · exact ⟨List.prefix_rfl, List.prefix_rfl, fun h => by rw [i1] at h; exact absurd h (by simp), fun v h => Or.inl h⟩
      · exact ⟨List.prefix_append _ _, List.prefix_rfl, fun h => by rw [i1] at h; exact absurd h (by simp), fun v h => Or.inl h⟩
      · exact ⟨List.prefix_rfl, List.prefix_rfl, fun _ => i3, fun v h => Or.inl h⟩
      · exact ⟨List.prefix_rfl, List.prefix_append _ _, fun _ => by simp, fun v h => by simpa using h⟩
    obtain ⟨a1, a2, a3, a4⟩ := a
    refine ⟨a1.trans h1, a2.trans h2, ?_, ?_⟩
    · intro m hm hf
      rcases List.mem_cons.1 hm with rfl | hm
      · exact h2.subset (a3 hf)
      · exact h3 m hm hf
    · intro v hv
      rcases h4 v hv with h | h
      · rcases a4 v h with h | rfl
        · exact Or.inl h
        · exact Or.inr (by simp)
      · exact Or.inr (by simp [h])

theorem visitL_visit (fin0 : ℕ → Bool) (l : List ℕ) : ∀ (x : List ℕ × List ℕ) (st : St), st.q = x.1 →
    (∀ v, st.good v = (fin0 v && decide (v ∉ x.1))) →
    (l.foldl visit st).q = (l.foldl (visitL fin0) x).1 ∧
      ∀ v, (l.foldl visit st).good v = (fin0 v && decide (v ∉ (l.foldl (visitL fin0) x).1)) := by
  induction l with
  | nil => intro x st h h'; exact ⟨h, h'⟩
  | cons n l ih =>
    intro x st h h'
    simp only [List.foldl_cons]
    apply ih
    · unfold visit visitL
      rw [h']
      rcases Bool.eq_false_or_eq_true (fin0 n) with hf | hf
      · by_cases hL : n ∈ x.1 <;> simp [hf, hL, h]
      · by_cases hR : n ∈ x.2 <;> simp [hf, hR, h]
    · intro v
      unfold visit visitL
      rw [h']
      rcases Bool.eq_false_or_eq_true (fin0 n) with hf | hf
      · by_cases hL : n ∈ x.1
        · simp [hf, hL, h']
        · by_cases hv : v = n
          · subst hv; simp [hf, hL]
          · simp [hf, hL, h', hv]
      · by_cases hR : n ∈ x.2 <;> simp [hf, hR, h']

/-- The perimeter list: dry neighbours of what has been processed. -/
structure PerInv (G : Csr) (fin0 : ℕ → Bool) (hd : ℕ) (x : List ℕ × List ℕ) : Prop where
  sound : ∀ v ∈ x.2, ∃ m ∈ x.1, v ∈ G.nbrs m
  closed : ∀ (i m : ℕ), i < hd → x.1[i]? = some m → ∀ n ∈ G.nbrs m, fin0 n = false → n ∈ x.2

theorem loopL_loop {G : Csr} {fin0 : ℕ → Bool} : ∀ fuel hd (x : List ℕ × List ℕ) (st : St), st.q = x.1 →
    (∀ v, st.good v = (fin0 v && decide (v ∉ x.1))) → PerInv G fin0 hd x →
    (loop G fuel hd st = none ∧ loopL G fin0 fuel hd x = none) ∨
    ∃ r y, loop G fuel hd st = some r ∧ loopL G fin0 fuel hd x = some y ∧ r.q = y.1 ∧ PerInv G fin0 y.1.length y := by
  intro fuel
  induction fuel with
  | zero => intro hd x st _ _ _; exact Or.inl ⟨rfl, rfl⟩
  | succ fuel ih =>
    intro hd x st h h' P
    rw [loop, loopL]
    obtain ⟨q, good⟩ := st
    simp only at h
    subst h
    by_cases hl : hd < x.1.length
    · rw [dif_pos hl, dif_pos hl]
      obtain ⟨e1, e2⟩ := visitL_visit fin0 (G.nbrs x.1[hd]) x ⟨x.1, good⟩ rfl h'
      obtain ⟨f1, f2, f3, f4⟩ := visitL_fold fin0 (G.nbrs x.1[hd]) x
      apply ih (hd + 1) _ _ e1 e2
      have get : ∀ (i m : ℕ), i < x.1.length → ((G.nbrs x.1[hd]).foldl (visitL fin0) x).1[i]? = some m → x.1[i]? = some m := by
        intro i m hi h
        obtain ⟨e, he⟩ := f1
        rw [← he, List.getElem?_append_left hi] at h
        exact h
      constructor
      · intro v hv
        rcases f4 v hv with h | h
        · obtain ⟨m, hm, hm'⟩ := P.sound v h
          exact ⟨m, f1.subset hm, hm'⟩
        · exact ⟨x.1[hd], f1.subset (List.getElem_mem hl), h⟩
      · intro i m hi hm n hn hf
        have := get i m (by omega) hm
        by_cases hih : i = hd
        · subst hih
          rw [List.getElem?_eq_getElem hl] at this
          obtain rfl := Option.some.inj this
          exact f3 n hn hf
        · exact f2.subset (P.closed i m (by omega) this n hn hf)
    · rw [dif_neg hl, dif_neg hl]
      right
      refine ⟨_, x, rfl, rfl, rfl, ⟨P.sound, ?_⟩⟩
      intro i m hi hm
      exact P.closed i m (by omega) hm

theorem searchL_bfs {G : Csr} {fin0 : ℕ → Bool} {root fuel : ℕ} {x : List ℕ × List ℕ} (hfu : 0 < fuel)
    (h : searchL G root fin0 fuel = some x) :
    ∃ r, bfs G root fin0 fuel = some r ∧ r.q = x.1 ∧ PerInv G fin0 x.1.length x := by
  unfold searchL at h
  unfold bfs
  rcases Bool.eq_false_or_eq_true (fin0 root) with hf | hf
  · rw [if_pos hf] at h ⊢
    have hg : ∀ v, Function.update fin0 root false v = (fin0 v && decide (v ∉ [root])) := by
      intro v
      by_cases hv : v = root
      · subst hv; simp
      · simp [hv]
    rcases loopL_loop (G := G) (fin0 := fin0) fuel 0 ([root], []) ⟨[root], Function.update fin0 root false⟩ rfl hg
      ⟨by simp, by intro i m hi; omega⟩ with ⟨_, h2⟩ | ⟨r, y, h1, h2, h3, h4⟩
    · rw [h] at h2; exact absurd h2 (by simp)
    · rw [h] at h2
      obtain rfl := Option.some.inj h2
      exact ⟨r, h1, h3, h4⟩
  · rw [if_neg (by rw [hf]; simp)] at h ⊢
    obtain ⟨f, rfl⟩ : ∃ f, fuel = f + 1 := ⟨fuel - 1, by omega⟩
    rw [loopL, dif_neg (by simp)] at h
    obtain rfl := Option.some.inj h
    exact ⟨_, rfl, rfl, by simp, by simp⟩

/-! ## Second phase -/

/-- neighbours of `m` from which a link is accepted -/
def linkers (O : Ocean F) (stp : ℕ → F × F × F) (m : ℕ) (nb : List ℕ) : List ℕ :=
  nb.filter fun n => wet stp n && accept O n (O.ntpP (stp n) m)

/-- sum of the pressures of the links from `ns` -/
def sumP (O : Ocean F) (stp : ℕ → F × F × F) (m : ℕ) (ns : List ℕ) : F :=
  ns.foldl (fun a n => a + O.ntpP (stp n) m) (lit 0)

theorem gather_eq (O : Ocean F) (stp : ℕ → F × F × F) (m : ℕ) (nb : List ℕ) :
    gather O stp m nb = (sumP O stp m (linkers O stp m nb), (linkers O stp m nb).length) := by
  have key : ∀ (nb : List ℕ) (acc : F × ℕ), nb.foldl (fun (acc : F × ℕ) n =>
      if isFinite (stp n).2.2 then
        let p := O.ntpP (stp n) m
        if accept O n p then (acc.1 + p, acc.2 + 1) else acc
      else acc) acc =
      ((linkers O stp m nb).foldl (fun a n => a + O.ntpP (stp n) m) acc.1, acc.2 + (linkers O stp m nb).length) := by
    intro nb
    induction nb with
    | nil => intro acc; simp [linkers]
    | cons n nb ih =>
      intro acc
      rw [List.foldl_cons, ih]
      rcases Bool.eq_false_or_eq_true (isFinite (stp n).2.2) with h | h
      · rcases Bool.eq_false_or_eq_true (accept O n (O.ntpP (stp n) m)) with h' | h'
        · have : linkers O stp m (n :: nb) = n :: linkers O stp m nb := by
            simp [linkers, wet, h, h']
          rw [this]
          simp [h, h']
          omega
        · have : linkers O stp m (n :: nb) = linkers O stp m nb := by
            simp [linkers, h']
          rw [this]
          simp [h, h']
      · have : linkers O stp m (n :: nb) = linkers O stp m nb := by
          simp [linkers, wet, h]
        rw [this]
        simp [h]
  have := key nb (lit 0, 0)
  unfold gather
  rw [this]
  simp [sumP]

theorem linkers_congr {O : Ocean F} {stp stp' : ℕ → F × F × F} {m : ℕ} {nb : List ℕ} (h : ∀ n ∈ nb, stp n = stp' n) :
    linkers O stp m nb = linkers O stp' m nb := by
  unfold linkers
  apply List.filter_congr
  intro n hn
  simp [wet, h n hn]

theorem sumP_congr {O : Ocean F} {stp stp' : ℕ → F × F × F} {m : ℕ} {ns : List ℕ} (h : ∀ n ∈ ns, stp n = stp' n) :
    sumP O stp m ns = sumP O stp' m ns := by
  unfold sumP
  have : ∀ (ns : List ℕ) (a : F), (∀ n ∈ ns, stp n = stp' n) →
      ns.foldl (fun a n => a + O.ntpP (stp n) m) a = ns.foldl (fun a n => a + O.ntpP (stp' n) m) a := by
    intro ns
    induction ns with
    | nil => intro a _; rfl
    | cons n ns ih =>
      intro a h
      simp only [List.foldl_cons]
      rw [h n (by simp)]
      exact ih _ (fun n hn => h n (by simp [hn]))
  exact this ns _ h

theorem mem_pushL_fold (fin0 : ℕ → Bool) (l : List ℕ) : ∀ R : List ℕ, R.Nodup → (∀ v ∈ R, fin0 v = false) →
    (l.foldl (pushL fin0) R).Nodup ∧ (∀ v ∈ l.foldl (pushL fin0) R, fin0 v = false) ∧
      ∀ v, v ∈ l.foldl (pushL fin0) R ↔ v ∈ R ∨ (v ∈ l ∧ fin0 v = false) := by
  induction l with
  | nil => intro R h h'; exact ⟨h, h', by simp⟩
  | cons n l ih =>
    intro R h h'
    simp only [List.foldl_cons]
    by_cases hf : fin0 n = true
    · rw [show pushL fin0 R n = R by simp [pushL, hf]]
      obtain ⟨a, b, c⟩ := ih R h h'
      refine ⟨a, b, fun v => ?_⟩
      rw [c, List.mem_cons]
      by_cases hv : v = n
      · subst hv; simp [hf]
      · simp [hv]
    · have hf' : fin0 n = false := by simpa using hf
      by_cases hR : n ∈ R
      · rw [show pushL fin0 R n = R by simp [pushL, hf', hR]]
        obtain ⟨a, b, c⟩ := ih R h h'
        refine ⟨a, b, fun v => ?_⟩
        rw [c, List.mem_cons]
        by_cases hv : v = n
        · subst hv; simp [hR]
        · simp [hv]
      · rw [show pushL fin0 R n = R ++ [n] by simp [pushL, hf', hR]]
        obtain ⟨a, b, c⟩ := ih (R ++ [n]) (nodup_snoc h hR) (by
          intro v hv
          simp only [List.mem_append, List.mem_singleton] at hv
          rcases hv with hv | rfl
          · exact h' v hv
          · exact hf')
        refine ⟨a, b, fun v => ?_⟩
        rw [c, List.mem_cons, List.mem_append, List.mem_singleton]
        by_cases hv : v = n
        · subst hv; simp [hf']
        · simp [hv]

/-- Invariant of the second phase; `W` lists the casts wetted so far, `j` perimeter casts have been processed. -/
structure QInv (N : ℕ) (G : Csr) (O : Ocean F) (fin0 : ℕ → Bool) (L : List ℕ) (stp1 : ℕ → F × F × F) (st : QSt F)
    (W : List ℕ) (j : ℕ) : Prop where
  ndW : W.Nodup
  subW : ∀ v ∈ W, v ∈ st.R.take j
  newly : st.newly = W.length
  old : ∀ v, v ∉ W → st.stp v = stp1 v
  ndR : st.R.Nodup
  memR : ∀ v ∈ st.R, fin0 v = false
  ltR : ∀ v ∈ st.R, v < N
  adj : ∀ v ∈ st.R, ∃ m, (m ∈ L ∨ m ∈ W) ∧ v ∈ G.nbrs m
  cover : ∀ m, (m ∈ L ∨ m ∈ W) → ∀ v ∈ G.nbrs m, fin0 v = false → v ∈ st.R
  new : ∀ (i v : ℕ), W[i]? = some v → O.data v = true ∧ ∃ ns : List ℕ, ns.Sublist (G.nbrs v) ∧ ns ≠ [] ∧
    (∀ n ∈ ns, (n ∈ L ∨ n ∈ W.take i) ∧ accept O n (O.ntpP (st.stp n) v) = true) ∧
    st.stp v = ((O.st v (sumP O st.stp v ns / lit ns.length)).1, (O.st v (sumP O st.stp v ns / lit ns.length)).2,
      sumP O st.stp v ns / lit ns.length)
  rej : ∀ v ∈ st.R.take j, v ∉ W → O.data v = true → ∀ n ∈ G.nbrs v, n ∈ L → accept O n (O.ntpP (stp1 n) v) = false

theorem QInv.step {N : ℕ} {G : Csr} {O : Ocean F} {fin0 : ℕ → Bool} {L : List ℕ} {stp1 : ℕ → F × F × F} {st : QSt F}
    {W : List ℕ} {j : ℕ} (hG : ∀ m, m < N → ∀ n ∈ G.nbrs m, n < N) (hL : ∀ v ∈ L, fin0 v = true) (h1 : ∀ v, wet stp1 v = decide (v ∈ L))
    (I : QInv N G O fin0 L stp1 st W j) (hj : j < st.R.length) :
    ∃ W', W <+: W' ∧ QInv N G O fin0 L stp1 (wetOneL G O fin0 st st.R[j]) W' (j + 1) := by
  set m := st.R[j] with hm
  have hmR : m ∈ st.R := List.getElem_mem hj
  have htake : st.R.take (j + 1) = st.R.take j ++ [m] := by rw [List.take_add_one, List.getElem?_eq_getElem hj]; rfl
  have hmt : m ∉ st.R.take j := by
    have := I.ndR
    rw [← List.take_append_drop (j + 1) st.R, htake] at this
    have := (List.nodup_append.1 this).1
    rw [List.nodup_append] at this
    intro h
    exact this.2.2 m h m (by simp) rfl
  have hmW : m ∉ W := fun h => hmt (I.subW m h)
  have hLW : ∀ v ∈ L, v ∉ W := fun v hv hw => by
    have := I.memR v ((List.take_subset _ _) (I.subW v hw))
    rw [hL v hv] at this; exact absurd this (by simp)
  have hmL : m ∉ L := fun h => by
    have := I.memR m hmR
    rw [hL m h] at this; exact absurd this (by simp)
  -- a cast that is wet now is in `L` or `W`
  have hwet : ∀ n, wet st.stp n = true → n ∈ L ∨ n ∈ W := by
    intro n hn
    by_cases hw : n ∈ W
    · exact Or.inr hw
    · left
      have : wet stp1 n = true := by
        show isFinite (stp1 n).2.2 = true
        rw [← I.old n hw]; exact hn
      rw [h1] at this
      simpa using this
  unfold wetOneL
  by_cases hd : O.data m = true
  · rw [if_pos hd]
    simp only
    rw [gather_eq]
    simp only
    set ns := linkers O st.stp m (G.nbrs m) with hns
    by_cases hz : ns.length ≠ 0
    · rw [if_pos hz]
      set p := sumP O st.stp m ns / lit (ns.length : ℚ) with hp
      obtain ⟨n1, n2, n3⟩ := mem_pushL_fold fin0 (G.nbrs m) st.R I.ndR I.memR
      have hpre := pushL_prefix fin0 (G.nbrs m) st.R
      have htk : ∀ i, i ≤ st.R.length → ((G.nbrs m).foldl (pushL fin0) st.R).take i = st.R.take i := by
        intro i hi
        obtain ⟨e, he⟩ := hpre
        rw [← he, List.take_append_of_le_length hi]
      have upd : ∀ v, v ≠ m → Function.update st.stp m ((O.st m p).1, (O.st m p).2, p) v = st.stp v :=
        fun v hv => Function.update_of_ne hv _ _
      have notm : ∀ n, n ∈ L ∨ n ∈ W → n ≠ m := by
        rintro n (h | h) rfl
        · exact hmL h
        · exact hmW h
      refine ⟨W ++ [m], List.prefix_append _ _, ?_⟩
      refine ⟨nodup_snoc I.ndW hmW, ?_, by simp [I.newly], ?_, n1, n2, ?_, ?_, ?_, ?_, ?_⟩
      · intro v hv
        simp only
        rw [htk _ (by omega), htake]
        simp only [List.mem_append, List.mem_singleton] at hv ⊢
        exact hv.imp (I.subW v) id
      · intro v hv
        simp only [List.mem_append, List.mem_singleton, not_or] at hv
        simp only
        rw [upd v hv.2]
        exact I.old v hv.1
      · intro v hv
        simp only at hv
        rcases (n3 v).1 hv with h | ⟨h, _⟩
        · exact I.ltR v h
        · exact hG m (I.ltR m hmR) v h
      · intro v hv
        simp only at hv
        rcases (n3 v).1 hv with h | ⟨h, _⟩
        · obtain ⟨m', a, b⟩ := I.adj v h
          exact ⟨m', a.imp id (fun h => by simp [h]), b⟩
        · exact ⟨m, Or.inr (by simp), h⟩
      · intro m' hm' v hv hf
        simp only
        rw [n3]
        simp only [List.mem_append, List.mem_singleton] at hm'
        rcases hm' with h | h | rfl
        · exact Or.inl (I.cover m' (Or.inl h) v hv hf)
        · exact Or.inl (I.cover m' (Or.inr h) v hv hf)
        · exact Or.inr ⟨hv, hf⟩
      · intro i v hi
        by_cases hiW : i < W.length
        · rw [List.getElem?_append_left hiW] at hi
          obtain ⟨a, ns', b, c, d, e⟩ := I.new i v hi
          have hvW : v ∈ W := List.mem_of_getElem? hi
          refine ⟨a, ns', b, c, ?_, ?_⟩
          · intro n hn
            obtain ⟨d1, d2⟩ := d n hn
            have hnm := notm n (d1.imp id (fun h => List.take_subset _ _ h))
            rw [List.take_append_of_le_length (by omega)]
            simp only
            rw [upd n hnm]
            exact ⟨d1, d2⟩
          · simp only
            rw [upd v (notm v (Or.inr hvW))]
            have : sumP O (Function.update st.stp m ((O.st m p).1, (O.st m p).2, p)) v ns' = sumP O st.stp v ns' := by
              apply sumP_congr
              intro n hn
              exact upd n (notm n ((d n hn).1.imp id (fun h => List.take_subset _ _ h)))
            rw [this]
            exact e
        · have hiW' : i = W.length := by
            have := (List.getElem?_eq_some_iff.1 hi).1
            simp only [List.length_append, List.length_cons, List.length_nil] at this
            omega
          subst hiW'
          simp at hi
          subst hi
          have hmem : ∀ n ∈ ns, (n ∈ L ∨ n ∈ W) ∧ accept O n (O.ntpP (st.stp n) m) = true := by
            intro n hn
            rw [hns] at hn
            unfold linkers at hn
            simp only [List.mem_filter, Bool.and_eq_true] at hn
            exact ⟨hwet n hn.2.1, hn.2.2⟩
          refine ⟨hd, ns, List.filter_sublist, fun h => hz (by rw [h]; rfl), ?_, ?_⟩
          · intro n hn
            obtain ⟨a, b⟩ := hmem n hn
            simp only [List.take_left']
            rw [upd n (notm n a)]
            exact ⟨a, b⟩
          · simp only
            have : sumP O (Function.update st.stp m ((O.st m p).1, (O.st m p).2, p)) m ns = sumP O st.stp m ns := by
              apply sumP_congr
              intro n hn
              exact upd n (notm n (hmem n hn).1)
            rw [this, ← hp]
            simp
      · intro v hv hvW hdv n hn hnL
        simp only at hv
        rw [htk _ (by omega), htake] at hv
        simp only [List.mem_append, List.mem_singleton, not_or] at hv hvW
        rcases hv with hv | rfl
        · exact I.rej v hv hvW.1 hdv n hn hnL
        · exact absurd rfl hvW.2
    · rw [if_neg hz]
      refine ⟨W, List.prefix_rfl, ?_⟩
      refine ⟨I.ndW, ?_, I.newly, I.old, I.ndR, I.memR, I.ltR, I.adj, I.cover, I.new, ?_⟩
      · intro v hv
        rw [htake]; simp [I.subW v hv]
      · intro v hv hvW hdv n hn hnL
        rw [htake] at hv
        simp only [List.mem_append, List.mem_singleton] at hv
        rcases hv with hv | rfl
        · exact I.rej v hv hvW hdv n hn hnL
        · have hz' : ns = [] := by simpa using hz
          by_contra hacc
          have : n ∈ ns := by
            rw [hns]
            unfold linkers
            simp only [List.mem_filter, Bool.and_eq_true]
            have e := I.old n (hLW n hnL)
            refine ⟨hn, ?_, ?_⟩
            · show isFinite (st.stp n).2.2 = true
              rw [e]
              show wet stp1 n = true
              rw [h1]; simpa using hnL
            · rw [e]; simpa using hacc
          rw [hz'] at this
          exact absurd this (by simp)
  · rw [if_neg hd]
    refine ⟨W, List.prefix_rfl, ?_⟩
    refine ⟨I.ndW, ?_, I.newly, I.old, I.ndR, I.memR, I.ltR, I.adj, I.cover, I.new, ?_⟩
    · intro v hv
      rw [htake]; simp [I.subW v hv]
    · intro v hv hvW hdv n hn hnL
      rw [htake] at hv
      simp only [List.mem_append, List.mem_singleton] at hv
      rcases hv with hv | rfl
      · exact I.rej v hv hvW hdv n hn hnL
      · exact absurd hdv hd

theorem QInv.fold {N : ℕ} {G : Csr} {O : Ocean F} {fin0 : ℕ → Bool} {L : List ℕ} {stp1 : ℕ → F × F × F}
    (hG : ∀ m, m < N → ∀ n ∈ G.nbrs m, n < N) (hL : ∀ v ∈ L, fin0 v = true) (h1 : ∀ v, wet stp1 v = decide (v ∈ L)) :
    ∀ (c j : ℕ) (st : QSt F) (W : List ℕ), QInv N G O fin0 L stp1 st W j → ∀ R0 : List ℕ, R0 <+: st.R → j + c = R0.length →
      ∃ W', W <+: W' ∧ QInv N G O fin0 L stp1 ((R0.drop j).foldl (wetOneL G O fin0) st) W' (j + c) := by
  intro c
  induction c with
  | zero =>
    intro j st W I R0 _ hd
    rw [List.drop_eq_nil_of_le (by omega)]
    exact ⟨W, List.prefix_rfl, I⟩
  | succ c ih =>
    intro j st W I R0 hp hd
    have hlt : j < R0.length := by omega
    have hlt' : j < st.R.length := lt_of_lt_of_le hlt hp.length_le
    have e : R0[j] = st.R[j] := hp.getElem hlt
    rw [List.drop_eq_getElem_cons hlt, List.foldl_cons, e]
    obtain ⟨W', hW, I'⟩ := I.step hG hL h1 hlt'
    obtain ⟨W'', hW', I''⟩ := ih (j + 1) _ W' I' R0 (hp.trans (wetOneL_prefix ..)) (by omega)
    exact ⟨W'', hW.trans hW', by rw [show j + (c + 1) = j + 1 + c by omega]; exact I''⟩

theorem QInv.loop {N : ℕ} {G : Csr} {O : Ocean F} {fin0 : ℕ → Bool} {L : List ℕ} {stp1 : ℕ → F × F × F}
    (hG : ∀ m, m < N → ∀ n ∈ G.nbrs m, n < N) (hL : ∀ v ∈ L, fin0 v = true) (h1 : ∀ v, wet stp1 v = decide (v ∈ L)) :
    ∀ (reps j : ℕ) (st : QSt F) (W : List ℕ), QInv N G O fin0 L stp1 st W j → j ≤ st.R.length →
      ∃ W' j', W <+: W' ∧ QInv N G O fin0 L stp1 (wetLoopL G O fin0 reps j st) W' j' ∧ j ≤ j' ∧
        (0 < reps → st.R.length ≤ j') ∧ (N < reps + j → (wetLoopL G O fin0 reps j st).R.length ≤ j') := by
  intro reps
  induction reps with
  | zero =>
    intro j st W I hj
    have := length_le_of_nodup I.ndR I.ltR
    exact ⟨W, j, List.prefix_rfl, I, le_refl _, by omega, by omega⟩
  | succ reps ih =>
    intro j st W I hj
    rw [wetLoopL]
    by_cases h : j < st.R.length
    · rw [if_pos h]
      obtain ⟨W', hW, I'⟩ := I.fold hG hL h1 (st.R.length - j) j st W st.R List.prefix_rfl (by omega)
      rw [show j + (st.R.length - j) = st.R.length by omega] at I'
      have hpre := wetOneL_fold_prefix G O fin0 (st.R.drop j) st
      obtain ⟨W'', j', hW', I'', hr, _, hr'⟩ := ih _ _ W' I' hpre.length_le
      exact ⟨W'', j', hW.trans hW', I'', by omega, fun _ => hr, fun hf => hr' (by omega)⟩
    · rw [if_neg h]
      exact ⟨W, j, List.prefix_rfl, I, le_refl _, fun _ => by omega, fun _ => by omega⟩

end Bfs
