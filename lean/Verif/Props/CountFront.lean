import Verif.Model.CountFront
import Verif.Props.Gufunc
import Verif.Props.Flatten
import Mathlib.Algebra.BigOperators.Group.List.Basic

/-!
# `count_unstable` on arrays is the sum over the casts
-/

set_option linter.unusedSectionVars false

namespace Stability
open FloatLike Interp Lib Gufunc
variable {F : Type*} [FloatLike F]

theorem total_ok {f : ℕ → CRes ℕ} {n N : ℕ} : total f n = .ok N ↔
    ∃ g : ℕ → ℕ, (∀ k < n, f k = .ok (g k)) ∧ N = ((List.range n).map g).sum := by
  induction n generalizing N with
  | zero => simp [total, eq_comm]
  | succ n ih =>
    rw [total]
    constructor
    · intro h
      cases ht : total f n with
      | ok a =>
        rw [ht] at h
        dsimp only at h
        cases hf : f n with
        | ok b =>
          rw [hf] at h
          dsimp only at h
          cases h
          obtain ⟨g, hg, rfl⟩ := ih.1 ht
          refine ⟨Function.update g n b, fun k hk => ?_, ?_⟩
          · by_cases hkn : k = n
            · subst hkn; simpa using hf
            · rw [Function.update_of_ne hkn]; exact hg k (by omega)
          · rw [List.range_succ, List.map_append, List.sum_append]
            congr 1
            · congr 1
              apply List.map_congr_left
              intro k hk
              rw [Function.update_of_ne (by rw [List.mem_range] at hk; omega)]
            · simp
        | argError => rw [hf] at h; simp at h
        | zeroDiv => rw [hf] at h; simp at h
      | argError => rw [ht] at h; simp at h
      | zeroDiv => rw [ht] at h; simp at h
    · rintro ⟨g, hg, rfl⟩
      rw [ih.2 ⟨g, fun k hk => hg k (by omega), rfl⟩, hg n (by omega)]
      dsimp only
      rw [List.range_succ, List.map_append, List.sum_append]
      simp

theorem sum_countP_swap {α β : Type*} (l : List α) (m : List β) (p : α → β → Bool) :
    (l.map fun a => m.countP (p a)).sum = (m.map fun b => l.countP fun a => p a b).sum := by
  induction l with
  | nil => simp
  | cons a l ih =>
    rw [List.map_cons, List.sum_cons, ih]
    clear ih
    induction m with
    | nil => simp
    | cons b m ihm =>
      simp only [List.countP_cons, List.map_cons, List.sum_cons] at ihm ⊢
      omega

theorem indices_nodup (s : List ℕ) : (indices s).Nodup := by
  induction s with
  | nil => simp [indices]
  | cons n s ih =>
    rw [indices, List.nodup_flatMap]
    refine ⟨fun i _ => ih.map (List.cons_injective), ?_⟩
    refine (List.nodup_range (n := n)).imp ?_
    intro a b hab
    simp only [Function.onFun, List.disjoint_left, List.mem_map, not_exists, not_and]
    rintro _ ⟨m, _, rfl⟩ m' _ h
    cases h
    exact hab rfl

variable {d : Dim} {dims : Option (List String)} {S T : Nd F} {P : PArg F} {v : ℕ} {pr : List ℕ → ℕ → F}

/-- What `_process_casts` gives for well formed arguments. -/
theorem args_process (A : Args d dims S T P v pr) : ∃ S' T' P', processCasts dims S T P d = .ok (S', T', P') ∧
    S'.shape = S.shape.eraseIdx v ++ [S.shape.getD v 0] ∧ T'.shape = S'.shape ∧ P'.shape = S'.shape ∧
    ∀ m k, Valid (S.shape.eraseIdx v) m → S'.get (m ++ [k]) = S.get (m.insertIdx v k) ∧
      T'.get (m ++ [k]) = T.get (m.insertIdx v k) ∧ P'.get (m ++ [k]) = pr m k := by
  have hlen : ∀ m, Valid (S.shape.eraseIdx v) m → m.length + 1 = S.shape.length := by
    intro m hm
    have := Lib.Valid.length hm
    rw [List.length_eraseIdx, if_pos A.lt] at this
    have := A.lt
    omega
  obtain ⟨h1, h2⟩ := processCasts_spec dims S T d v A.lt A.dim (by rw [A.shape])
  have hz : ∀ X : Nd F, X.shape = S.shape → (contiguousCasts X v).shape = S.shape.eraseIdx v ++ [S.shape.getD v 0] := by
    intro X hX
    rw [← hX]
    refine (contiguousCasts_spec X v (by rw [hX]; exact A.lt) (List.replicate (S.shape.length - 1) 0) 0 ?_).2
    have := A.lt
    rw [hX]; simp; omega
  have hp := A.press
  cases P with
  | full P =>
    obtain ⟨hp1, hp2⟩ := hp
    obtain ⟨S', T', P', e, e'⟩ := h2 P (by rw [hp1])
    have e0 := e
    unfold processCasts at e0
    rw [A.dim] at e0
    simp only [processP] at e0
    cases e0
    refine ⟨_, _, _, e, hz S rfl, ?_, ?_, fun m k hm => ?_⟩
    · rw [hz S rfl, hz T A.shape]
    · rw [hz S rfl, hz P hp1]
    · rw [hp2]; exact e' m k (hlen m hm)
  | small size P =>
    obtain ⟨hp1, hp2⟩ := hp
    obtain ⟨S', T', P', e, e'⟩ := h1 size P hp1
    have e0 := e
    unfold processCasts at e0
    rw [A.dim] at e0
    simp only [processP, if_pos hp1] at e0
    cases e0
    refine ⟨_, _, _, e, hz S rfl, ?_, ?_, fun m k hm => ?_⟩
    · rw [hz S rfl, hz T A.shape]
    · rw [hz S rfl]
      exact hz ⟨S.shape, fun i => P (i.getD v 0)⟩ rfl
    · rw [hp2]; exact e' m k (hlen m hm)

/-- **C117** `count_unstable` by pairs, on well formed arrays of any number of dimensions, with the vertical anywhere: it returns, and
the count is the sum of the counts of the casts, over any list `ms` of all the horizontal indices. -/
theorem count_pairs_arrays (A : Args d dims S T P v pr) (eos : F → F → F → F) (ms : List (List ℕ)) (hms : ms.Nodup)
    (hm : ∀ m, m ∈ ms ↔ Valid (S.shape.eraseIdx v) m) :
    countUnstable (.pairs eos) dims S T P d = .ok ((ms.map fun m =>
      countPairs eos (castAt S T pr v m).S.get (castAt S T pr v m).T.get (castAt S T pr v m).P.get (S.shape.getD v 0)).sum) := by
  obtain ⟨S', T', P', e, hs, -, -, hg⟩ := args_process A
  have hperm : ms.Perm (indices (S.shape.eraseIdx v)) :=
    (List.perm_ext_iff_of_nodup hms (indices_nodup _)).2 fun m => by rw [hm, mem_indices]
  unfold countUnstable
  rw [e]
  dsimp only
  rw [total_ok]
  refine ⟨_, fun k _ => rfl, ?_⟩
  rw [hs, List.dropLast_concat, List.getLastD_concat, sum_countP_swap, (hperm.map _).sum_eq]
  congr 1
  apply List.map_congr_left
  intro m hmem
  rw [mem_indices] at hmem
  unfold countPairs Lib.castAt
  apply List.countP_congr
  intro k _
  obtain ⟨a1, a2, a3⟩ := hg m k hmem
  obtain ⟨b1, b2, b3⟩ := hg m (k + 1) hmem
  rw [a1, a2, a3, b1, b2, b3]

theorem broadcast_same {a : List ℕ} : Broadcast [a, a, a, a, []] a := by
  refine ⟨?_, fun N hN => hN a (by simp), ?_, fun k hk => hk a (by simp)⟩
  · intro s hs
    simp only [List.mem_cons, List.not_mem_nil, or_false] at hs
    rcases hs with rfl | rfl | rfl | rfl | rfl <;> simp
  · intro s hs k
    simp only [List.mem_cons, List.not_mem_nil, or_false] at hs
    rcases hs with rfl | rfl | rfl | rfl | rfl
    · exact .inr rfl
    · exact .inr rfl
    · exact .inr rfl
    · exact .inr rfl
    · exact .inl (dimR_of_le (by simp))

theorem reads_self {h i : List ℕ} (hi : Valid h i) : Reads h i i := by
  rw [valid_iff] at hi
  refine ⟨hi.1, fun k hk => ?_⟩
  have := hi.2 k hk
  split_ifs <;> omega

/-- **C117** `count_unstable` with `interp_two`: whenever it returns, the count is the sum of the counts of the casts. -/
theorem count_interp_arrays (A : Args d dims S T P v pr) (interp1 : F → Arr F → Arr F → Arr F → ℕ → Option (F × F))
    (eosST : F → F → F → F × F) {N : ℕ} (h : countUnstable (.interp interp1 eosST) dims S T P d = .ok N) (ms : List (List ℕ))
    (hms : ms.Nodup) (hm : ∀ m, m ∈ ms ↔ Valid (S.shape.eraseIdx v) m) :
    N = (ms.map fun m => countInterp interp1 eosST (castAt S T pr v m).S (castAt S T pr v m).T (castAt S T pr v m).P).sum := by
  obtain ⟨S', T', P', e, hs, hT, hP, hg⟩ := args_process A
  have hperm : ms.Perm (indices (S.shape.eraseIdx v)) :=
    (List.perm_ext_iff_of_nodup hms (indices_nodup _)).2 fun m => by rw [hm, mem_indices]
  unfold countUnstable at h
  rw [e] at h
  dsimp only at h
  rw [total_ok] at h
  obtain ⟨g, hgk, rfl⟩ := h
  rw [hs, List.dropLast_concat, List.getLastD_concat] at hgk
  rw [hs, List.getLastD_concat]
  rw [(hperm.map _).sum_eq]
  have key : ∀ k < S.shape.getD v 0 - 1, g k = (indices (S.shape.eraseIdx v)).countP fun m =>
      match interp1 (pr m k) (castAt S T pr v m).P (castAt S T pr v m).S (castAt S T pr v m).T 1 with
      | none => false
      | some d =>
        let r := eosST (S.get (m.insertIdx v k)) (T.get (m.insertIdx v k)) (pr m k)
        lt (r.1 * d.1 + r.2 * d.2) (lit 0) := by
    intro k hk
    have := hgk k hk
    split at this
    · rename_i y hy
      simp only [CRes.ok.injEq] at this
      rw [← this]
      clear this
      obtain ⟨n, h1, h2, h3, hb, hv⟩ := interpTwoU_ok hy
      rw [hP, hs] at h1
      simp only [List.getLast?_append, List.getLast?_singleton, Option.some_or, Option.some.injEq] at h1
      subst h1
      rw [hP, hT, hs, List.dropLast_concat] at hb hv
      have hys := hb.unique broadcast_same
      rw [hys] at hv
      apply List.countP_congr
      intro m hmem
      rw [mem_indices] at hmem
      have hr := reads_self hmem
      have := hv m m m m m [] hmem hr hr hr hr ⟨rfl, by simp⟩
      obtain ⟨a1, a2, a3⟩ := hg m k hmem
      have c1 : Gufunc.castAt P' (S.shape.getD v 0) m = (castAt S T pr v m).P := by
        unfold Gufunc.castAt Lib.castAt; congr 1; funext k; exact (hg m k hmem).2.2
      have c2 : Gufunc.castAt S' (S.shape.getD v 0) m = (castAt S T pr v m).S := by
        unfold Gufunc.castAt Lib.castAt; congr 1; funext k; exact (hg m k hmem).1
      have c3 : Gufunc.castAt T' (S.shape.getD v 0) m = (castAt S T pr v m).T := by
        unfold Gufunc.castAt Lib.castAt; congr 1; funext k; exact (hg m k hmem).2.1
      dsimp only at this
      rw [c1, c2, c3, a3] at this
      rw [this, a1, a2, a3]
    · simp at this
    · simp at this
  rw [show (List.range (S.shape.getD v 0 - 1)).map g = (List.range (S.shape.getD v 0 - 1)).map _ from
    List.map_congr_left fun k hk => key k (List.mem_range.1 hk), sum_countP_swap]
  rfl

/-! ## Examples -/

/-- two casts of three levels, vertical first; the second cast has its lower pair upside down -/
def cfS : Nd (Fl ℚ) := ⟨[3, 2], fun i => .fin (if i.getD 0 0 = 2 ∧ i.getD 1 0 = 1 then 0 else i.getD 0 0)⟩
def cfT : Nd (Fl ℚ) := ⟨[3, 2], fun _ => .fin 0⟩
def cfP : PArg (Fl ℚ) := .small 3 fun k => .fin k

/-- The hypotheses of C117 can be met. -/
example : Args (.int 0) none cfS cfT cfP 0 fun _ k => .fin k := ⟨rfl, by decide, rfl, rfl, fun _ _ => rfl⟩

example : (match countUnstable (.pairs fun s _ _ => s) none cfS cfT cfP (.int 0) with
    | .ok N => decide (N = 1)
    | _ => false) = true := by decide +kernel

example : (match countUnstable (.interp (ppinterp1Two linearCoeffsI) fun _ _ _ => (.fin 1, .fin 0)) none cfS cfT cfP (.int 0) with
    | .ok N => decide (N = 0)
    | _ => false) = true := by decide +kernel

end Stability
