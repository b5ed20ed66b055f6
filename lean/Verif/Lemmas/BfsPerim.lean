import Verif.Lemmas.BfsWet

/-! # Helper lemmas: the two-ended queue of `bfs_conncomp1_wet_perim` refines a program with two lists -/

namespace Bfs
open FloatLike
set_option linter.unusedSectionVars false
variable {F : Type*} [FloatLike F]

/-! ## The program with two lists -/

/-- Component list and perimeter list. -/
def visitL (fin0 : ℕ → Bool) (x : List ℕ × List ℕ) (n : ℕ) : List ℕ × List ℕ :=
  if fin0 n then (if n ∈ x.1 then x else (x.1 ++ [n], x.2)) else (if n ∈ x.2 then x else (x.1, x.2 ++ [n]))

def loopL (G : Csr) (fin0 : ℕ → Bool) : ℕ → ℕ → List ℕ × List ℕ → Option (List ℕ × List ℕ)
  | 0, _, _ => none
  | fuel + 1, hd, x =>
    if h : hd < x.1.length then loopL G fin0 fuel (hd + 1) ((G.nbrs x.1[hd]).foldl (visitL fin0) x) else some x

def searchL (G : Csr) (root : ℕ) (fin0 : ℕ → Bool) (fuel : ℕ) : Option (List ℕ × List ℕ) :=
  loopL G fin0 fuel 0 (if fin0 root then [root] else [], [])

structure QSt (F : Type*) where
  R : List ℕ
  stp : ℕ → F × F × F
  newly : ℕ

def pushL (fin0 : ℕ → Bool) (R : List ℕ) (n : ℕ) : List ℕ := if fin0 n then R else if n ∈ R then R else R ++ [n]

def wetOneL (G : Csr) (O : Ocean F) (fin0 : ℕ → Bool) (st : QSt F) (m : ℕ) : QSt F :=
  if O.data m then
    let acc := gather O st.stp m (G.nbrs m)
    if acc.2 ≠ 0 then
      let p := acc.1 / lit acc.2
      let r := O.st m p
      { R := (G.nbrs m).foldl (pushL fin0) st.R
        stp := Function.update st.stp m (r.1, r.2, p)
        newly := st.newly + 1 }
    else st
  else st

def wetLoopL (G : Csr) (O : Ocean F) (fin0 : ℕ → Bool) : ℕ → ℕ → QSt F → QSt F
  | 0, _, st => st
  | reps + 1, done, st =>
    if done < st.R.length then
      wetLoopL G O fin0 reps st.R.length ((st.R.drop done).foldl (wetOneL G O fin0) st)
    else st

def cutP (L : List ℕ) (stp : ℕ → F × F × F) : ℕ → F × F × F :=
  fun n => if n ∈ L then stp n else ((stp n).1, (stp n).2.1, nan)

def wetPerimL (G : Csr) (O : Ocean F) (root : ℕ) (stp : ℕ → F × F × F) (nrep fuel : ℕ) : Option (QSt F) :=
  match searchL G root (wet stp) fuel with
  | none => none
  | some x => some (wetLoopL G O (wet stp) nrep 0 ⟨x.2, cutP x.1 stp, 0⟩)

/-! ## Refinement -/

/-- The array state `a` holds the lists `L` (from the left) and `R` (from the right). -/
structure Abs (N : ℕ) (fin0 : ℕ → Bool) (a : ASt) (x : List ℕ × List ℕ) : Prop where
  cnt : a.cnt = x.1.length
  per : a.per = x.2.length
  left : ∀ (i : ℕ) (h : i < x.1.length), a.qu i = x.1[i]
  right : ∀ (i : ℕ) (h : i < x.2.length), a.qu (N - 1 - i) = x.2[i]
  ndL : x.1.Nodup
  ndR : x.2.Nodup
  memL : ∀ v ∈ x.1, fin0 v = true ∧ v < N
  memR : ∀ v ∈ x.2, fin0 v = false ∧ v < N
  wadj : ∀ v, a.wadj v = (fin0 v || decide (v ∈ x.2))

theorem Abs.room {N : ℕ} {fin0 : ℕ → Bool} {a : ASt} {x : List ℕ × List ℕ} (A : Abs N fin0 a x) :
    x.1.length + x.2.length ≤ N := by
  rw [← List.length_append]
  apply length_le_of_nodup
  · rw [List.nodup_append]
    refine ⟨A.ndL, A.ndR, ?_⟩
    rintro v hv w hw rfl
    have := (A.memL v hv).1
    rw [(A.memR v hw).1] at this
    exact absurd this (by simp)
  · intro v hv
    rcases List.mem_append.1 hv with h | h
    · exact (A.memL v h).2
    · exact (A.memR v h).2

theorem Abs.room_lt {N : ℕ} {fin0 : ℕ → Bool} {a : ASt} {x : List ℕ × List ℕ} (A : Abs N fin0 a x) {n : ℕ} (hn : n < N)
    (h1 : n ∉ x.1) (h2 : n ∉ x.2) : x.1.length + x.2.length < N := by
  have : (n :: (x.1 ++ x.2)).length ≤ N := by
    apply length_le_of_nodup
    · rw [List.nodup_cons, List.nodup_append]
      refine ⟨by simp [h1, h2], A.ndL, A.ndR, ?_⟩
      rintro v hv w hw rfl
      have := (A.memL v hv).1
      rw [(A.memR v hw).1] at this
      exact absurd this (by simp)
    · intro v hv
      rcases List.mem_cons.1 hv with rfl | hv
      · exact hn
      rcases List.mem_append.1 hv with h | h
      · exact (A.memL v h).2
      · exact (A.memR v h).2
  simp only [List.length_cons, List.length_append] at this
  omega

theorem nodup_snoc {l : List ℕ} {n : ℕ} (h : l.Nodup) (hn : n ∉ l) : (l ++ [n]).Nodup := by
  rw [List.nodup_append]
  refine ⟨h, by simp, ?_⟩
  intro a ha b hb
  rw [List.mem_singleton] at hb
  subst hb
  rintro rfl
  exact hn ha

theorem Abs.push {N : ℕ} {fin0 : ℕ → Bool} {a : ASt} {x : List ℕ × List ℕ} (A : Abs N fin0 a x) {n : ℕ} (hn : n < N)
    (h1 : fin0 n = false) (h2 : n ∉ x.2) : Abs N fin0 (pushPer N a n) (x.1, x.2 ++ [n]) := by
  have hL : n ∉ x.1 := fun h => by have := (A.memL n h).1; rw [h1] at this; exact absurd this (by simp)
  have hroom := A.room_lt hn hL h2
  refine ⟨A.cnt, by simp [pushPer, A.per], ?_, ?_, A.ndL, nodup_snoc A.ndR h2, A.memL, ?_, ?_⟩
  · intro i hi
    simp only [pushPer]
    rw [A.per, Function.update_of_ne (by simp only at hi; omega)]
    exact A.left i hi
  · intro i hi
    simp only [pushPer, A.per]
    simp only [List.length_append, List.length_cons, List.length_nil] at hi
    by_cases hir : i = x.2.length
    · subst hir; simp
    · rw [Function.update_of_ne (by omega), A.right i (by omega), List.getElem_append_left]
  · intro v hv
    simp only [List.mem_append, List.mem_singleton] at hv
    rcases hv with hv | rfl
    · exact A.memR v hv
    · exact ⟨h1, hn⟩
  · intro v
    simp only [pushPer]
    by_cases hvn : v = n
    · subst hvn; simp
    · simp [Function.update_of_ne hvn, A.wadj, hvn]

theorem Abs.visit {N : ℕ} {fin0 : ℕ → Bool} {a : ASt} {x : List ℕ × List ℕ} (A : Abs N fin0 a x)
    (hg : ∀ v, a.good v = (fin0 v && decide (v ∉ x.1))) {n : ℕ} (hn : n < N) :
    Abs N fin0 (visitA N a n) (visitL fin0 x n) ∧
      ∀ v, (visitA N a n).good v = (fin0 v && decide (v ∉ (visitL fin0 x n).1)) := by
  unfold visitA visitL
  rcases Bool.eq_false_or_eq_true (fin0 n) with hf | hf
  · rw [if_pos hf]
    by_cases hL : n ∈ x.1
    · rw [if_pos hL, if_neg (by rw [hg]; simp [hL]), if_neg (by rw [A.wadj]; simp [hf])]
      exact ⟨A, hg⟩
    · rw [if_neg hL, if_pos (by rw [hg]; simp [hf, hL])]
      have hR : n ∉ x.2 := fun h => by have := (A.memR n h).1; rw [hf] at this; exact absurd this (by simp)
      have hroom := A.room_lt hn hL hR
      refine ⟨⟨by simp [A.cnt], A.per, ?_, ?_, nodup_snoc A.ndL hL, A.ndR, ?_, A.memR, A.wadj⟩, ?_⟩
      · intro i hi
        simp only [List.length_append, List.length_cons, List.length_nil] at hi
        simp only [A.cnt]
        by_cases hir : i = x.1.length
        · subst hir; simp
        · rw [Function.update_of_ne hir, A.left i (by omega), List.getElem_append_left]
      · intro i hi
        simp only [A.cnt]
        simp only at hi
        rw [Function.update_of_ne (by omega)]
        exact A.right i hi
      · intro v hv
        simp only [List.mem_append, List.mem_singleton] at hv
        rcases hv with hv | rfl
        · exact A.memL v hv
        · exact ⟨hf, hn⟩
      · intro v
        simp only
        by_cases hvn : v = n
        · subst hvn; simp
        · simp [Function.update_of_ne hvn, hg, hvn]
  · rw [if_neg (show ¬ a.good n = true by rw [hg, hf]; simp), if_neg (show ¬ fin0 n = true by rw [hf]; simp)]
    by_cases hR : n ∈ x.2
    · rw [if_pos hR, if_neg (by rw [A.wadj]; simp [hR])]
      exact ⟨A, hg⟩
    · rw [if_neg hR, if_pos (by rw [A.wadj]; simp [hR, hf])]
      exact ⟨A.push hn hf hR, hg⟩

theorem Abs.visit_fold {N : ℕ} {fin0 : ℕ → Bool} (l : List ℕ) :
    ∀ {a : ASt} {x : List ℕ × List ℕ}, Abs N fin0 a x → (∀ v, a.good v = (fin0 v && decide (v ∉ x.1))) →
      (∀ n ∈ l, n < N) →
      Abs N fin0 (l.foldl (visitA N) a) (l.foldl (visitL fin0) x) ∧
        ∀ v, (l.foldl (visitA N) a).good v = (fin0 v && decide (v ∉ (l.foldl (visitL fin0) x).1)) := by
  induction l with
  | nil => intro a x A hg _; exact ⟨A, hg⟩
  | cons n l ih =>
    intro a x A hg hl
    obtain ⟨A', hg'⟩ := A.visit hg (hl n (by simp))
    exact ih A' hg' (fun n hn => hl n (by simp [hn]))

/-- The first phase with the array does what the first phase with two lists does. -/
theorem loopA_refines {G : Csr} {N : ℕ} {fin0 : ℕ → Bool} (hG : ∀ m, m < N → ∀ n ∈ G.nbrs m, n < N) :
    ∀ fuel hd (a : ASt) (x : List ℕ × List ℕ), Abs N fin0 a x → (∀ v, a.good v = (fin0 v && decide (v ∉ x.1))) →
      (loopA G N fuel hd a = none ∧ loopL G fin0 fuel hd x = none) ∨
      ∃ a' x', loopA G N fuel hd a = some a' ∧ loopL G fin0 fuel hd x = some x' ∧ Abs N fin0 a' x' := by
  intro fuel
  induction fuel with
  | zero => intro hd a x _ _; left; exact ⟨rfl, rfl⟩
  | succ fuel ih =>
    intro hd a x A hg
    rw [loopA, loopL]
    by_cases h : hd < x.1.length
    · rw [if_pos (by rw [A.cnt]; exact h), dif_pos h, A.left hd h]
      have hm := (A.memL _ (List.getElem_mem h)).2
      obtain ⟨A', hg'⟩ := A.visit_fold (G.nbrs x.1[hd]) hg (fun n hn => hG _ hm n hn)
      exact ih (hd + 1) _ _ A' hg'
    · rw [if_neg (by rw [A.cnt]; exact h), dif_neg h]
      exact Or.inr ⟨a, x, rfl, rfl, A⟩

theorem searchA_refines {G : Csr} {N root : ℕ} {fin0 : ℕ → Bool} (hG : ∀ m, m < N → ∀ n ∈ G.nbrs m, n < N)
    (hr : root < N) (garbage : ℕ → ℕ) (fuel : ℕ) :
    (searchA G N root fin0 garbage fuel = none ∧ searchL G root fin0 fuel = none) ∨
      ∃ a' x', searchA G N root fin0 garbage fuel = some a' ∧ searchL G root fin0 fuel = some x' ∧ Abs N fin0 a' x' := by
  unfold searchA searchL
  rcases Bool.eq_false_or_eq_true (fin0 root) with hf | hf
  · rw [if_pos hf, if_pos hf]
    apply loopA_refines hG
    · refine ⟨rfl, rfl, ?_, by simp, by simp, by simp, ?_, by simp, by simp⟩
      · intro i hi
        simp only [List.length_cons, List.length_nil] at hi
        have : i = 0 := by omega
        subst this
        simp
      · intro v hv
        simp only [List.mem_singleton] at hv
        subst hv
        exact ⟨hf, hr⟩
    · intro v
      simp only [List.mem_singleton]
      by_cases hv : v = root
      · subst hv; simp
      · simp [Function.update_of_ne hv, hv]
  · rw [if_neg (by rw [hf]; simp), if_neg (by rw [hf]; simp)]
    apply loopA_refines hG
    · exact ⟨rfl, rfl, by simp, by simp, by simp, by simp, by simp, by simp, by simp⟩
    · intro v; simp

theorem Abs.push_fold {N : ℕ} {fin0 : ℕ → Bool} {L : List ℕ} (l : List ℕ) :
    ∀ {a : ASt} {R : List ℕ}, Abs N fin0 a (L, R) → (∀ n ∈ l, n < N) →
      Abs N fin0 (l.foldl (fun a n => if !a.wadj n then pushPer N a n else a) a) (L, l.foldl (pushL fin0) R) := by
  induction l with
  | nil => intro a R A _; exact A
  | cons n l ih =>
    intro a R A hl
    simp only [List.foldl_cons]
    have hn := hl n (by simp)
    have hl' : ∀ n ∈ l, n < N := fun n hn => hl n (by simp [hn])
    have hw := A.wadj n
    simp only at hw
    rcases Bool.eq_false_or_eq_true (fin0 n) with hf | hf
    · rw [if_neg (by rw [hw]; simp [hf])]
      rw [show pushL fin0 R n = R by simp [pushL, hf]]
      exact ih A hl'
    · by_cases hR : n ∈ R
      · rw [if_neg (by rw [hw]; simp [hR])]
        rw [show pushL fin0 R n = R by simp [pushL, hf, hR]]
        exact ih A hl'
      · rw [if_pos (by rw [hw]; simp [hR, hf])]
        rw [show pushL fin0 R n = R ++ [n] by simp [pushL, hf, hR]]
        exact ih (A.push hn hf hR) hl'

theorem pushL_prefix (fin0 : ℕ → Bool) (l : List ℕ) : ∀ R : List ℕ, R <+: l.foldl (pushL fin0) R := by
  induction l with
  | nil => intro R; exact List.prefix_rfl
  | cons n l ih =>
    intro R
    refine List.IsPrefix.trans ?_ (ih _)
    unfold pushL
    split_ifs
    · exact List.prefix_rfl
    · exact List.prefix_rfl
    · exact List.prefix_append R [n]

theorem wetOneL_prefix (G : Csr) (O : Ocean F) (fin0 : ℕ → Bool) (st : QSt F) (m : ℕ) :
    st.R <+: (wetOneL G O fin0 st m).R := by
  unfold wetOneL
  simp only
  split_ifs
  · exact pushL_prefix _ _ _
  · exact List.prefix_rfl
  · exact List.prefix_rfl

theorem wetOneL_fold_prefix (G : Csr) (O : Ocean F) (fin0 : ℕ → Bool) (l : List ℕ) : ∀ st : QSt F,
    st.R <+: (l.foldl (wetOneL G O fin0) st).R := by
  induction l with
  | nil => intro st; exact List.prefix_rfl
  | cons m l ih => intro st; exact (wetOneL_prefix G O fin0 st m).trans (ih _)

/-- Matching second-phase states. -/
structure Abs2 (N : ℕ) (fin0 : ℕ → Bool) (L : List ℕ) (a : PSt F) (x : QSt F) : Prop where
  abs : Abs N fin0 a.a (L, x.R)
  stp : a.stp = x.stp
  newly : a.newly = x.newly

theorem Abs2.wetOne {G : Csr} {O : Ocean F} {N : ℕ} {fin0 : ℕ → Bool} {L : List ℕ} {a : PSt F} {x : QSt F}
    (hG : ∀ m, m < N → ∀ n ∈ G.nbrs m, n < N) (A : Abs2 N fin0 L a x) (j : ℕ) (hj : j < x.R.length) :
    Abs2 N fin0 L (wetOne G O N a (N - 1 - j)) (wetOneL G O fin0 x x.R[j]) := by
  have hq : a.a.qu (N - 1 - j) = x.R[j] := A.abs.right j hj
  have hm := (A.abs.memR _ (List.getElem_mem hj)).2
  unfold Bfs.wetOne wetOneL
  simp only [hq, A.stp]
  split_ifs
  · exact ⟨A.abs.push_fold _ (fun n hn => hG _ hm n hn), rfl, by simp [A.newly]⟩
  · exact A
  · exact A

theorem Abs2.wetOne_fold {G : Csr} {O : Ocean F} {N : ℕ} {fin0 : ℕ → Bool} {L : List ℕ}
    (hG : ∀ m, m < N → ∀ n ∈ G.nbrs m, n < N) : ∀ (c done : ℕ) (a : PSt F) (x : QSt F), Abs2 N fin0 L a x →
      ∀ R0 : List ℕ, R0 <+: x.R → done + c = R0.length →
      Abs2 N fin0 L ((List.range' done c).foldl (fun st j => Bfs.wetOne G O N st (N - 1 - j)) a)
        ((R0.drop done).foldl (wetOneL G O fin0) x) := by
  intro c
  induction c with
  | zero =>
    intro done a x A R0 _ hd
    rw [List.drop_eq_nil_of_le (by omega)]
    exact A
  | succ c ih =>
    intro done a x A R0 hp hd
    have hlt : done < R0.length := by omega
    have hlt' : done < x.R.length := lt_of_lt_of_le hlt hp.length_le
    have e : R0[done] = x.R[done] := hp.getElem hlt
    rw [List.range'_succ, List.foldl_cons, List.drop_eq_getElem_cons hlt, List.foldl_cons, e]
    exact ih (done + 1) _ _ (A.wetOne hG done hlt') R0 (hp.trans (wetOneL_prefix ..)) (by omega)

theorem Abs2.wetLoop {G : Csr} {O : Ocean F} {N : ℕ} {fin0 : ℕ → Bool} {L : List ℕ}
    (hG : ∀ m, m < N → ∀ n ∈ G.nbrs m, n < N) : ∀ (reps done : ℕ) (a : PSt F) (x : QSt F), Abs2 N fin0 L a x →
      Abs2 N fin0 L (Bfs.wetLoop G O N reps done a) (wetLoopL G O fin0 reps done x) := by
  intro reps
  induction reps with
  | zero => intro done a x A; exact A
  | succ reps ih =>
    intro done a x A
    rw [Bfs.wetLoop, wetLoopL]
    have hper : a.a.per = x.R.length := A.abs.per
    rw [hper]
    by_cases h : done < x.R.length
    · rw [if_pos h, if_pos h]
      exact ih _ _ _ (A.wetOne_fold hG (x.R.length - done) done a x x.R List.prefix_rfl (by omega))
    · rw [if_neg h, if_neg h]
      exact A

/-- The array program and the two-list program have the same effect. -/
theorem wetPerim_refines {G : Csr} {O : Ocean F} {N root : ℕ} {stp : ℕ → F × F × F}
    (hG : ∀ m, m < N → ∀ n ∈ G.nbrs m, n < N) (hr : root < N) (garbage : ℕ → ℕ) (nrep fuel : ℕ) :
    (wetPerim G O N root stp garbage nrep fuel = none ∧ wetPerimL G O root stp nrep fuel = none) ∨
    ∃ a x L, wetPerim G O N root stp garbage nrep fuel = some a ∧ wetPerimL G O root stp nrep fuel = some x ∧
      Abs2 N (wet stp) L a x := by
  unfold wetPerim wetPerimL
  rcases searchA_refines (fin0 := wet stp) hG hr garbage fuel with ⟨h1, h2⟩ | ⟨a, x, h1, h2, A⟩
  · left
    have h1' : searchA G N root (fun n => isFinite (stp n).2.2) garbage fuel = none := h1
    rw [h1', h2]; exact ⟨rfl, rfl⟩
  · right
    have h1' : searchA G N root (fun n => isFinite (stp n).2.2) garbage fuel = some a := h1
    rw [h1', h2]
    refine ⟨_, _, x.1, rfl, rfl, ?_⟩
    apply Abs2.wetLoop hG
    refine ⟨A, ?_, rfl⟩
    have hc : (List.range a.cnt).map a.qu = x.1 := by
      apply List.ext_getElem
      · simp [A.cnt]
      · intro i h1 h2
        simp only [List.getElem_map, List.getElem_range]
        exact A.left i h2
    simp only [hc]
    funext n
    simp [cutP, List.contains_iff_mem]

end Bfs
