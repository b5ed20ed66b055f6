import Verif.Props.Stability
import Verif.Lemmas.InterpGeneric
set_option linter.unusedSectionVars false

/-!
# Calling `stabilize_ST` again (C167)
-/

namespace Stability
open FloatLike Interp
open Fl hiding nan

variable {F : Type*} [FloatLike F] {eos : F → F → F → F} {mini mini' : Minimiser F} {minG : ℕ → F} {S T : Ndarray F} {P : ℕ → Arr F}

theorem offset_unravel_all {sh : List ℕ} (hne : sh ≠ []) (hpos : 0 < sh.prod) (j : ℕ) :
    (List.zipWith (· * ·) (cStrides sh) (unravel sh j)).sum = j := by
  cases sh with
  | nil => exact absurd rfl hne
  | cons a r =>
    rw [List.prod_cons] at hpos
    have hr : 0 < r.prod := Nat.pos_of_mul_pos_left hpos
    unfold cStrides unravel
    rw [List.zipWith_cons_cons, List.sum_cons, offset_unravel _ _ (Nat.mod_lt _ hr)]
    exact Nat.div_add_mod j r.prod

theorem castOf_mem (data : ℕ → F) {sh : List ℕ} (hne : sh ≠ []) (hpos : 0 < sh.prod) (c : ℕ) :
    castOf data sh (cStrides sh) c = ⟨sh.getLastD 0, fun i => data (c * sh.getLastD 0 + i)⟩ := by
  unfold castOf entry
  simp only [offset_unravel_all hne hpos]

/-- `float64` arrays of shape `sh` in C order. -/
structure InPlace (S T : Ndarray F) (sh : List ℕ) : Prop where
  dims : sh ≠ []
  pos : 0 < sh.prod
  shapeS : S.shape = sh
  stridesS : S.strides = cStrides sh
  floatS : S.f64 = true
  shapeT : T.shape = sh
  stridesT : T.strides = cStrides sh
  floatT : T.f64 = true

/-- Cast `c` of an array of `nk` levels in C order. -/
def nth (data : ℕ → F) (nk c : ℕ) : Arr F := ⟨nk, fun i => data (c * nk + i)⟩

theorem stabilize_run {sh : List ℕ} (I : InPlace S T sh) {nk : ℕ} (hnk : sh.getLastD 0 = nk) :
    ∃ m, m ≤ sh.dropLast.prod ∧ ((stabilizeST eos mini minG S T P (sh.length - 1)).2.2 = true ↔ m = sh.dropLast.prod) ∧
      (∀ c < m, ∃ S' T' : Arr F, castStep eos mini minG (nth S.data nk c) (nth T.data nk c) (P c) = some (S', T') ∧
        ∀ i < nk, (stabilizeST eos mini minG S T P (sh.length - 1)).1 (c * nk + i) = S'.get i ∧
          (stabilizeST eos mini minG S T P (sh.length - 1)).2.1 (c * nk + i) = T'.get i) ∧
      (m < sh.dropLast.prod → castStep eos mini minG (nth S.data nk m) (nth T.data nk m) (P m) = none) ∧
      ∀ j, m * nk ≤ j → (stabilizeST eos mini minG S T P (sh.length - 1)).1 j = S.data j ∧
        (stabilizeST eos mini minG S T P (sh.length - 1)).2.1 j = T.data j := by
  have key : ∀ A : Ndarray F, A.shape = sh → A.strides = cStrides sh → A.f64 = true →
      contiguous A (sh.length - 1) = (sh, cStrides sh, true) := by
    intro A h h' hf
    unfold contiguous
    rw [h, h', hf]
    simp [cStrides_isC]
  unfold stabilizeST
  simp only [key S I.shapeS I.stridesS I.floatS, key T I.shapeT I.stridesT I.floatT]
  simp only [castOf_mem _ I.dims I.pos, hnk]
  generalize hl : List.map (fun c => ((⟨nk, fun i => S.data (c * nk + i)⟩ : Arr F), (⟨nk, fun i => T.data (c * nk + i)⟩ : Arr F), P c))
    (List.range sh.dropLast.prod) = l
  have hlen : l.length = sh.dropLast.prod := by rw [← hl]; simp
  have hlc : ∀ c < sh.dropLast.prod, l[c]? = some (nth S.data nk c, nth T.data nk c, P c) := by
    intro c hc
    rw [← hl, List.getElem?_map, List.getElem?_range hc]; rfl
  obtain ⟨e1, m, hm, hm', hspec⟩ := loop_spec (eos := eos) (mini := mini) (minG := minG) l
  have hnk0 : 0 < nk := by
    have := I.pos
    rw [prod_split I.dims, hnk] at this
    exact Nat.pos_of_mul_pos_left this
  rw [hlen] at hm hm'
  refine ⟨m, hm, hm', ?_, fun h => (hspec m _ (hlc m h)).2.1 rfl, ?_⟩
  · intro c hc
    obtain ⟨g1, g2⟩ := (hspec c _ (hlc c (by omega))).1 hc
    rw [Option.isSome_iff_exists] at g2
    obtain ⟨⟨S', T'⟩, g2⟩ := g2
    refine ⟨S', T', g2, ?_⟩
    rw [g2] at g1
    intro i hi
    have hp : c * nk + i < sh.prod := by
      rw [prod_split I.dims, hnk]
      calc c * nk + i < c * nk + nk := by omega
        _ = (c + 1) * nk := by ring
        _ ≤ _ := Nat.mul_le_mul_right _ (by omega)
    have hd : (c * nk + i) / nk = c := by
      rw [Nat.mul_comm, Nat.mul_add_div (by omega), Nat.div_eq_of_lt hi, Nat.add_zero]
    have hmod : (c * nk + i) % nk = i := by
      rw [Nat.mul_comm, Nat.mul_add_mod, Nat.mod_eq_of_lt hi]
    unfold writeBack
    simp only [if_true, if_pos hp, hnk, hd, hmod]
    rw [List.getD_eq_getElem?_getD, List.getD_eq_getElem?_getD, List.getElem?_map, List.getElem?_map, ← g1]
    exact ⟨rfl, rfl⟩
  · intro j hj
    unfold writeBack
    simp only [if_true, hnk]
    split_ifs with hp
    · rw [prod_split I.dims, hnk] at hp
      have h1 : j / nk < sh.dropLast.prod := Nat.div_lt_of_lt_mul (by rw [Nat.mul_comm]; exact hp)
      have h2 : m ≤ j / nk := (Nat.le_div_iff_mul_le hnk0).2 hj
      have := (hspec _ _ (hlc _ h1)).2.2 h2
      rw [List.getD_eq_getElem?_getD, List.getD_eq_getElem?_getD, List.getElem?_map, List.getElem?_map, this]
      have e : j / nk * nk + j % nk = j := Nat.div_add_mod' j nk
      constructor
      · show S.data (j / nk * nk + j % nk) = _
        rw [e]
      · show T.data (j / nk * nk + j % nk) = _
        rw [e]
    · exact ⟨rfl, rfl⟩

theorem validRange_two (A : Arr F) : validRange A = validRange2 A A := by
  unfold validRange validRange2
  simp only [Bool.and_self, Bool.or_self]

theorem validRange_congr {A B : Arr F} (hs : A.size = B.size) (h : ∀ i < B.size, A.get i = B.get i) : validRange A = validRange B := by
  rw [validRange_two, validRange_two]
  exact validRange2_congr hs (fun i hi => h i (hs ▸ hi)) (fun i hi => h i (hs ▸ hi))

/-- **C167** `stabilize_ST` called on arrays that an earlier call has left behind, whether that returned or raised `RuntimeError`, possibly with another minimiser: the casts that
the earlier call went through are not changed again, and the others are handled as if the earlier call had not been. -/
theorem stabilize_retry {sh : List ℕ} (I : InPlace S T sh) {nk : ℕ} (hnk : sh.getLastD 0 = nk) (hfn : ∀ x : F, isFinite x = true → isNaN x = false)
    (hlt : ∀ a b : F, lt a b = true → lt (a - b) (lit 0) = true) (hm : Feasible eos mini) {s1 t1 s2 t2 : ℕ → F} {ok1 ok2 : Bool}
    (h1 : stabilizeST eos mini minG S T P (sh.length - 1) = (s1, t1, ok1))
    (h2 : stabilizeST eos mini' minG { S with data := s1 } { T with data := t1 } P (sh.length - 1) = (s2, t2, ok2)) :
    ∃ m n, m ≤ n ∧ n ≤ sh.dropLast.prod ∧ (ok1 = true ↔ m = sh.dropLast.prod) ∧ (ok2 = true ↔ n = sh.dropLast.prod) ∧
      (∀ c < m, ∃ S' T' : Arr F, castStep eos mini minG (nth S.data nk c) (nth T.data nk c) (P c) = some (S', T') ∧
        ∀ i < nk, s2 (c * nk + i) = S'.get i ∧ t2 (c * nk + i) = T'.get i) ∧
      (m < sh.dropLast.prod → castStep eos mini minG (nth S.data nk m) (nth T.data nk m) (P m) = none) ∧
      (∀ c, m ≤ c → c < n → ∃ S' T' : Arr F, castStep eos mini' minG (nth S.data nk c) (nth T.data nk c) (P c) = some (S', T') ∧
        ∀ i < nk, s2 (c * nk + i) = S'.get i ∧ t2 (c * nk + i) = T'.get i) ∧
      (n < sh.dropLast.prod → castStep eos mini' minG (nth S.data nk n) (nth T.data nk n) (P n) = none) ∧
      (∀ j, n * nk ≤ j → s2 j = S.data j ∧ t2 j = T.data j) ∧ (∀ j, m * nk ≤ j → s1 j = S.data j ∧ t1 j = T.data j) ∧
      ∀ j < m * nk, s2 j = s1 j ∧ t2 j = t1 j := by
  have hnk0 : 0 < nk := by
    have := I.pos
    rw [prod_split I.dims, hnk] at this
    exact Nat.pos_of_mul_pos_left this
  have I' : InPlace ({ S with data := s1 } : Ndarray F) ({ T with data := t1 } : Ndarray F) sh :=
    ⟨I.dims, I.pos, I.shapeS, I.stridesS, I.floatS, I.shapeT, I.stridesT, I.floatT⟩
  obtain ⟨m, a1, a2, a3, a4, a5⟩ := stabilize_run (eos := eos) (mini := mini) (minG := minG) (P := P) I hnk
  obtain ⟨n, b1, b2, b3, b4, b5⟩ := stabilize_run (eos := eos) (mini := mini') (minG := minG) (P := P) I' hnk
  rw [h1] at a2 a3 a5
  rw [h2] at b2 b3 b5
  dsimp only at a2 a3 a5 b2 b3 b4 b5
  have hstay : ∀ c < m, castStep eos mini' minG (nth s1 nk c) (nth t1 nk c) (P c) = some (nth s1 nk c, nth t1 nk c) := by
    intro c hc
    obtain ⟨S', T', g, hg⟩ := a3 c hc
    obtain ⟨hM, -⟩ := cast_stabilised hfn hlt hm g
    obtain ⟨z1, z2, -⟩ := cast_frame g
    have hv : validRange (nth s1 nk c) = validRange S' :=
      validRange_congr z1.symm fun i hi => (hg i (by rw [z1] at hi; exact hi)).1
    apply cast_stable_unchanged
    rw [hv]
    intro i hi hi'
    have hK : (validRange S').2 ≤ nk := by
      have : (validRange S').2 ≤ S'.size := by rw [validRange_two]; exact validRange2_K_le _ _
      rw [z1] at this
      exact this
    have := hM i hi hi'
    unfold grad at this ⊢
    show lt ((eos (s1 (c * nk + (i + 1))) (t1 (c * nk + (i + 1))) _ - eos (s1 (c * nk + i)) (t1 (c * nk + i)) _) / _) _ = false
    rw [(hg (i + 1) (by omega)).1, (hg (i + 1) (by omega)).2, (hg i (by omega)).1, (hg i (by omega)).2]
    exact this
  have hrest : ∀ c, m ≤ c → nth s1 nk c = nth S.data nk c ∧ nth t1 nk c = nth T.data nk c := by
    intro c hc
    have hle : m * nk ≤ c * nk := Nat.mul_le_mul_right _ hc
    unfold nth
    simp only [Arr.mk.injEq, true_and]
    exact ⟨funext fun i => (a5 _ (by omega)).1, funext fun i => (a5 _ (by omega)).2⟩
  have hmn : m ≤ n := by
    by_contra hc
    have := b4 (by omega)
    rw [hstay n (by omega)] at this
    exact absurd this (by simp)
  have hsame : ∀ c < m, ∀ i < nk, s2 (c * nk + i) = s1 (c * nk + i) ∧ t2 (c * nk + i) = t1 (c * nk + i) := by
    intro c hc i hi
    obtain ⟨S', T', g, hg⟩ := b3 c (by omega)
    rw [hstay c hc] at g
    simp only [Option.some.injEq, Prod.mk.injEq] at g
    obtain ⟨rfl, rfl⟩ := g
    exact hg i hi
  refine ⟨m, n, hmn, b1, a2, b2, ?_, a4, ?_, ?_, ?_, a5, ?_⟩
  · intro c hc
    obtain ⟨S', T', g, hg⟩ := a3 c hc
    refine ⟨S', T', g, fun i hi => ?_⟩
    rw [(hsame c hc i hi).1, (hsame c hc i hi).2]
    exact hg i hi
  · intro c hc hcn
    obtain ⟨S', T', g, hg⟩ := b3 c hcn
    rw [(hrest c hc).1, (hrest c hc).2] at g
    exact ⟨S', T', g, hg⟩
  · intro h
    have := b4 h
    rw [(hrest n hmn).1, (hrest n hmn).2] at this
    exact this
  · intro j hj
    have hle : m * nk ≤ n * nk := Nat.mul_le_mul_right _ hmn
    rw [(b5 j hj).1, (b5 j hj).2]
    exact a5 j (by omega)
  · intro j hj
    have := hsame (j / nk) (Nat.div_lt_of_lt_mul (by rw [Nat.mul_comm]; exact hj)) (j % nk) (Nat.mod_lt _ hnk0)
    rw [Nat.div_add_mod' j nk] at this
    exact this

/-- **C167** With the same minimiser, a second call changes nothing: it returns if the first did, and raises `RuntimeError` at the same cast otherwise. -/
theorem stabilize_again {sh : List ℕ} (I : InPlace S T sh) (hfn : ∀ x : F, isFinite x = true → isNaN x = false)
    (hlt : ∀ a b : F, lt a b = true → lt (a - b) (lit 0) = true) (hm : Feasible eos mini) {s1 t1 : ℕ → F} {ok1 : Bool}
    (h1 : stabilizeST eos mini minG S T P (sh.length - 1) = (s1, t1, ok1)) :
    stabilizeST eos mini minG { S with data := s1 } { T with data := t1 } P (sh.length - 1) = (s1, t1, ok1) := by
  obtain ⟨s2, t2, ok2, h2⟩ : ∃ s2 t2 ok2, stabilizeST eos mini minG { S with data := s1 } { T with data := t1 } P (sh.length - 1) = (s2, t2, ok2) := ⟨_, _, _, rfl⟩
  obtain ⟨m, n, c1, c2, c3, c4, c5, c6, c7, c8, c9, c10, c11⟩ := stabilize_retry I rfl hfn hlt hm h1 h2
  have hnm : n = m := by
    by_contra hne
    obtain ⟨S', T', g, -⟩ := c7 m le_rfl (by omega)
    rw [c6 (by omega)] at g
    exact absurd g (by simp)
  subst hnm
  have hok : ok2 = ok1 := by rw [Bool.eq_iff_iff, c3, c4]
  have hst : ∀ j, s2 j = s1 j ∧ t2 j = t1 j := by
    intro j
    rcases Nat.lt_or_ge j (n * sh.getLastD 0) with h | h
    · exact c11 j h
    · rw [(c9 j h).1, (c9 j h).2, (c10 j h).1, (c10 j h).2]
      exact ⟨rfl, rfl⟩
  rw [h2, hok, funext fun j => (hst j).1, funext fun j => (hst j).2]

/-! ## Example: two casts, the second of which the minimiser `demoMini` cannot repair -/

/-- A minimiser that lowers the first bottle's salinity by 2, when that is feasible. -/
def demoMini2 : Minimiser (Fl ℚ) := fun n S T P m =>
  let x : ℕ → Fl ℚ := fun i => if i = 0 then .fin (-2) else .fin 0
  if (List.range n).all (fun i => (i + 1 < n → lt (con demoEos S T P m n x i) (lit 0) = false) ∧ isFinite (S i + x i) = true)
  then some x else none

theorem demoMini_feasible : Feasible demoEos demoMini := by
  intro n S T P m x h
  unfold demoMini at h
  dsimp only at h
  split_ifs at h with hc
  rw [Option.some.injEq] at h
  rw [List.all_eq_true] at hc
  subst h
  constructor
  · intro i hi
    have := hc i (by rw [List.mem_range]; omega)
    simp only [decide_eq_true_eq] at this
    exact this.1 hi
  · intro i hi
    have := hc i (by rw [List.mem_range]; omega)
    simp only [decide_eq_true_eq] at this
    exact this.2

/-- Salinities of two casts. -/
def retryS : Ndarray (Fl ℚ) := ⟨[2, 3], [3, 1], true, (Arr.ofList [.fin 2, .fin 1, .fin 3, .fin 3, .fin 2, .fin 3]).get⟩
/-- Their temperatures. -/
def retryT : Ndarray (Fl ℚ) := ⟨[2, 3], [3, 1], true, fun _ => .fin 0⟩

theorem retry_inPlace : InPlace retryS retryT [2, 3] := ⟨by simp, by decide, rfl, rfl, rfl, rfl, rfl, rfl⟩

/-- The hypotheses of both theorems hold; the first call repairs the first cast and raises; the second, with another minimiser, repairs the second cast and keeps the first. -/
example : InPlace retryS retryT [2, 3] ∧ Feasible demoEos demoMini ∧ (∀ x : Fl ℚ, isFinite x = true → isNaN x = false) ∧
    (∀ a b : Fl ℚ, lt a b = true → lt (a - b) (lit 0) = true) ∧
    let r1 := stabilizeST demoEos demoMini (fun _ => .fin (1 / 100)) retryS retryT (fun _ => demoP) 1
    let r2 := stabilizeST demoEos demoMini2 (fun _ => .fin (1 / 100)) { retryS with data := r1.1 } { retryT with data := r1.2.1 } (fun _ => demoP) 1
    r1.2.2 = false ∧ (List.range 6).map r1.1 = [.fin 2, .fin (5 / 2), .fin 3, .fin 3, .fin 2, .fin 3] ∧
    r2.2.2 = true ∧ (List.range 6).map r2.1 = [.fin 2, .fin (5 / 2), .fin 3, .fin 1, .fin 2, .fin 3] :=
  ⟨retry_inPlace, demoMini_feasible, fun x h => by cases x <;> first | rfl | exact absurd h (by decide), sub_neg_of_lt, by decide +kernel⟩

end Stability
