import Verif.Model.Graph
import Mathlib.Data.List.Count
import Mathlib.Order.Monotone.Basic

/-! # Helper lemmas: CSR construction -/

namespace Graph

/-- The insertions made by `edges_to_csr`, in order: `(node, neighbour)`. -/
def ins (e : Edges) : List (ℕ × ℕ) := e.flatMap fun x => [(x.1, x.2), (x.2, x.1)]

/-- neighbours inserted for `m` -/
def at_ (l : List (ℕ × ℕ)) (m : ℕ) : List ℕ := (l.filter fun x => x.1 = m).map Prod.snd

theorem ins_cons (x : ℕ × ℕ) (e : Edges) : ins (x :: e) = (x.1, x.2) :: (x.2, x.1) :: ins e := by simp [ins]

theorem degrees_spec (e : Edges) (N : ℕ) (h : ∀ x ∈ e, x.1 < N ∧ x.2 < N) :
    ∃ deg, degrees e N = some deg ∧ ∀ m, deg m = (at_ (ins e) m).length := by
  have key : ∀ (e : Edges) (d0 : ℕ → ℕ), (∀ x ∈ e, x.1 < N ∧ x.2 < N) →
      ∃ deg, e.foldlM (fun (deg : ℕ → ℕ) x =>
        if x.1 < N ∧ x.2 < N then
          let deg := Function.update deg x.1 (deg x.1 + 1)
          some (Function.update deg x.2 (deg x.2 + 1))
        else none) d0 = some deg ∧ ∀ m, deg m = d0 m + (at_ (ins e) m).length := by
    intro e
    induction e with
    | nil => intro d0 _; exact ⟨d0, rfl, by simp [ins, at_]⟩
    | cons x e ih =>
      intro d0 h
      obtain ⟨deg, h1, h2⟩ := ih (Function.update (Function.update d0 x.1 (d0 x.1 + 1)) x.2
        ((Function.update d0 x.1 (d0 x.1 + 1)) x.2 + 1)) (fun y hy => h y (by simp [hy]))
      refine ⟨deg, ?_, ?_⟩
      · rw [List.foldlM_cons, if_pos (h x (by simp))]
        exact h1
      · intro m
        rw [h2 m, ins_cons]
        simp only [at_, List.filter_cons, Function.update_apply, List.length_map]
        by_cases a : x.1 = m <;> by_cases b : x.2 = m
        · subst a; simp [b]; omega
        · subst a
          have b' : ¬ x.1 = x.2 := fun h => b h.symm
          simp [b, b']; omega
        · subst b
          have a' : ¬ x.2 = x.1 := fun h => a h.symm
          simp [a, a']; omega
        · have a' : ¬ m = x.1 := fun h => a h.symm
          have b' : ¬ m = x.2 := fun h => b h.symm
          simp [a, b, a', b']
  obtain ⟨deg, h1, h2⟩ := key e (fun _ => 0) h
  exact ⟨deg, h1, fun m => by rw [h2]; simp⟩

theorem indptr_mono (deg : ℕ → ℕ) : Monotone (indptrOf deg) :=
  monotone_nat_of_le_succ fun n => by rw [indptrOf]; omega

/-- State after the insertions `p`. -/
structure FillInv (indptr : ℕ → ℕ) (p : List (ℕ × ℕ)) (st : (ℕ → ℕ) × (ℕ → ℕ)) : Prop where
  ctr : ∀ n, st.2 n = indptr n + (at_ p n).length
  val : ∀ (n j : ℕ) (h : j < (at_ p n).length), st.1 (indptr n + j) = (at_ p n)[j]

theorem at_append (p q : List (ℕ × ℕ)) (n : ℕ) : at_ (p ++ q) n = at_ p n ++ at_ q n := by simp [at_]

theorem FillInv.insert {deg : ℕ → ℕ} {N : ℕ} {p q : List (ℕ × ℕ)} {st : (ℕ → ℕ) × (ℕ → ℕ)} {n v : ℕ}
    (hd : ∀ m, deg m = (at_ (p ++ (n, v) :: q) m).length) (hn : n < N) (I : FillInv (indptrOf deg) p st) :
    ∃ st', Graph.insert (indptrOf deg N) st n v = some st' ∧ FillInv (indptrOf deg) (p ++ [(n, v)]) st' := by
  have hdeg : ∀ m, (at_ p m).length ≤ deg m := by
    intro m; rw [hd m, at_append, List.length_append]; omega
  have hdn : (at_ p n).length < deg n := by
    rw [hd n, at_append, List.length_append]
    simp [at_]
  have hc := I.ctr n
  have hlt : st.2 n < indptrOf deg (n + 1) := by rw [hc, indptrOf]; omega
  have hN : indptrOf deg (n + 1) ≤ indptrOf deg N := indptr_mono deg (by omega)
  refine ⟨_, by unfold Graph.insert; rw [if_pos (by omega)], ?_, ?_⟩
  · intro m
    simp only [Function.update_apply]
    by_cases hm : m = n
    · subst hm
      rw [if_pos rfl, hc, at_append]
      simp [at_]; omega
    · rw [if_neg hm, I.ctr m, at_append]
      have : at_ [(n, v)] m = [] := by simp [at_, Ne.symm hm]
      rw [this]; simp
  · intro m j hj
    by_cases hm : m = n
    · subst hm
      have e1 : at_ (p ++ [(m, v)]) m = at_ p m ++ [v] := by rw [at_append]; simp [at_]
      have hj' : j < (at_ p m ++ [v]).length := by rw [← e1]; exact hj
      rw [show (at_ (p ++ [(m, v)]) m)[j] = (at_ p m ++ [v])[j] by simp only [e1]]
      rw [List.length_append, List.length_singleton] at hj'
      simp only
      by_cases hjl : j = (at_ p m).length
      · subst hjl
        rw [hc]; simp
      · rw [Function.update_of_ne (by rw [hc]; omega), I.val m j (by omega), List.getElem_append_left]
    · have e1 : at_ (p ++ [(n, v)]) m = at_ p m := by rw [at_append]; simp [at_, Ne.symm hm]
      have hj' : j < (at_ p m).length := by rw [← e1]; exact hj
      rw [show (at_ (p ++ [(n, v)]) m)[j] = (at_ p m)[j] by simp only [e1]]
      simp only
      rw [Function.update_of_ne, I.val m j hj']
      -- positions of different nodes do not overlap
      have hm1 : indptrOf deg m + j < indptrOf deg (m + 1) := by
        have := hdeg m
        rw [indptrOf]; omega
      have hn1 : indptrOf deg n ≤ st.2 n := by rw [hc]; omega
      rcases Nat.lt_or_gt_of_ne hm with h | h
      · have := indptr_mono deg (show m + 1 ≤ n by omega)
        omega
      · have := indptr_mono deg (show n + 1 ≤ m by omega)
        omega

theorem fill_spec {deg : ℕ → ℕ} {N : ℕ} : ∀ (e : Edges) (p : List (ℕ × ℕ)) (st : (ℕ → ℕ) × (ℕ → ℕ)),
    (∀ m, deg m = (at_ (p ++ ins e) m).length) → (∀ x ∈ e, x.1 < N ∧ x.2 < N) → FillInv (indptrOf deg) p st →
    ∃ st', fill (indptrOf deg N) e st = some st' ∧ FillInv (indptrOf deg) (p ++ ins e) st' := by
  intro e
  induction e with
  | nil => intro p st _ _ I; exact ⟨st, rfl, by simpa [ins] using I⟩
  | cons x e ih =>
    intro p st hd hx I
    rw [ins_cons] at hd
    obtain ⟨s1, h1, I1⟩ := I.insert hd (hx x (by simp)).1
    have hd2 : ∀ m, deg m = (at_ ((p ++ [(x.1, x.2)]) ++ (x.2, x.1) :: ins e) m).length := by
      intro m; rw [hd m]; simp
    obtain ⟨s2, h2, I2⟩ := I1.insert hd2 (hx x (by simp)).2
    obtain ⟨s3, h3, I3⟩ := ih ((p ++ [(x.1, x.2)]) ++ [(x.2, x.1)]) s2 (by intro m; rw [hd m]; simp)
      (fun y hy => hx y (by simp [hy])) I2
    refine ⟨s3, ?_, by rw [ins_cons]; simpa using I3⟩
    unfold fill at h3 ⊢
    rw [List.foldlM_cons]
    simp only [h1, Option.bind_eq_bind, Option.bind_some, h2]
    exact h3

end Graph
