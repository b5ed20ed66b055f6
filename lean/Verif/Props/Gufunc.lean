import Verif.Model.Gufunc
import Verif.Props.Interp
import Verif.Props.Lib
import Mathlib.Data.List.GetD

/-!
# Vectorised functions: cast by cast, for all shapes that can be broadcast
-/

set_option linter.unusedSectionVars false

namespace Gufunc
open FloatLike Interp Lib
open Fl hiding nan
variable {F : Type*} [FloatLike F] {α : Type*}

/-! ## Specification of broadcasting

`dimR s k` is the length of the `k`-th dimension of `s` counted from the last; missing dimensions have length 1. -/

/-- length of the `k`-th dimension from the right -/
def dimR (s : List ℕ) (k : ℕ) : ℕ := s.reverse.getD k 1

/-- `r` is the shape to which the shapes `l` are broadcast: as many dimensions as the longest, and each dimension of each shape is
that of `r`, or 1; a dimension of `r` has length 1 if all of them have. -/
structure Broadcast (l : List (List ℕ)) (r : List ℕ) : Prop where
  ge : ∀ s ∈ l, s.length ≤ r.length
  le : ∀ N, (∀ s ∈ l, s.length ≤ N) → r.length ≤ N
  dim : ∀ s ∈ l, ∀ k, dimR s k = 1 ∨ dimR s k = dimR r k
  one : ∀ k, (∀ s ∈ l, dimR s k = 1) → dimR r k = 1

/-- `j` is the index at which an array of the given shape is read for entry `i` of the result: the same index, aligned at the right,
but 0 along dimensions of length 1. -/
structure Reads (shape i j : List ℕ) : Prop where
  len : j.length = shape.length
  at_ : ∀ k < shape.length, j.reverse.getD k 0 = if dimR shape k = 1 then 0 else i.reverse.getD k 0

theorem bdim_eq_some {m n k : ℕ} : bdim m n = some k ↔ (m = 1 ∨ m = k) ∧ (n = 1 ∨ n = k) ∧ (m = 1 → n = 1 → k = 1) := by
  unfold bdim
  split_ifs with h1 h2 h3 <;> simp <;> omega

theorem eq_of_getD {s t : List ℕ} (hl : s.length = t.length) (h : ∀ k, s.getD k 1 = t.getD k 1) : s = t := by
  apply List.ext_getElem hl
  intro k h1 h2
  have := h k
  rwa [List.getD_eq_getElem _ _ h1, List.getD_eq_getElem _ _ h2] at this

theorem bshapeR_eq_some (s t r : List ℕ) : bshapeR s t = some r ↔
    r.length = max s.length t.length ∧ ∀ k, bdim (s.getD k 1) (t.getD k 1) = some (r.getD k 1) := by
  induction s generalizing t r with
  | nil =>
    rw [bshapeR]
    constructor
    · rintro h; cases h
      refine ⟨by simp, fun k => ?_⟩
      rw [bdim_eq_some]; simp
    · rintro ⟨h1, h2⟩
      congr 1
      apply eq_of_getD (by simpa using h1.symm)
      intro k
      have := h2 k
      rw [bdim_eq_some, List.getD_nil] at this
      omega
  | cons m s ih =>
    cases t with
    | nil =>
      rw [bshapeR]
      constructor
      · rintro h; cases h
        refine ⟨by simp, fun k => ?_⟩
        rw [bdim_eq_some]; simp
      · rintro ⟨h1, h2⟩
        congr 1
        apply eq_of_getD (by simpa using h1.symm)
        intro k
        have := h2 k
        rw [bdim_eq_some] at this
        rw [List.getD_nil] at this
        omega
    | cons n t =>
      rw [bshapeR]
      cases r with
      | nil =>
        cases bdim m n <;> cases bshapeR s t <;> simp
      | cons k r =>
        have ih' := ih t r
        constructor
        · intro h
          cases hb : bdim m n with
          | none => rw [hb] at h; simp at h
          | some k' =>
            cases hs : bshapeR s t with
            | none => rw [hb, hs] at h; simp at h
            | some r' =>
              rw [hb, hs] at h
              simp only [Option.some.injEq, List.cons.injEq] at h
              obtain ⟨rfl, rfl⟩ := h
              obtain ⟨h1, h2⟩ := ih'.1 hs
              refine ⟨by simp only [List.length_cons]; omega, fun j => ?_⟩
              cases j with
              | zero => simpa using hb
              | succ j => simpa using h2 j
        · rintro ⟨h1, h2⟩
          have h0 := h2 0
          simp only [List.getD_cons_zero] at h0
          have hs := ih'.2 ⟨by simp only [List.length_cons] at h1; omega, fun j => by simpa using h2 (j + 1)⟩
          rw [h0, hs]

theorem bshapeR_exists (s t : List ℕ) (h : ∀ k, (bdim (s.getD k 1) (t.getD k 1)).isSome) : ∃ r, bshapeR s t = some r := by
  induction s generalizing t with
  | nil => exact ⟨_, by rw [bshapeR]⟩
  | cons m s ih =>
    cases t with
    | nil => exact ⟨_, by rw [bshapeR]⟩
    | cons n t =>
      obtain ⟨r, hr⟩ := ih t fun k => by simpa using h (k + 1)
      obtain ⟨k, hk⟩ := Option.isSome_iff_exists.1 (h 0)
      simp only [List.getD_cons_zero] at hk
      exact ⟨k :: r, by rw [bshapeR, hk, hr]⟩

theorem dimR_of_le {s : List ℕ} {k : ℕ} (h : s.length ≤ k) : dimR s k = 1 := by
  unfold dimR
  rw [List.getD_eq_default _ _ (by simpa using h)]

theorem eq_of_dimR {s t : List ℕ} (hl : s.length = t.length) (h : ∀ k, dimR s k = dimR t k) : s = t := by
  have : s.reverse = t.reverse := by
    apply List.ext_getElem (by simpa using hl)
    intro k h1 h2
    have := h k
    unfold dimR at this
    rwa [List.getD_eq_getElem _ _ h1, List.getD_eq_getElem _ _ h2] at this
  exact List.reverse_injective this

theorem Broadcast.unique {l : List (List ℕ)} {r r' : List ℕ} (h : Broadcast l r) (h' : Broadcast l r') : r = r' := by
  apply eq_of_dimR (le_antisymm (h.le _ h'.ge) (h'.le _ h.ge))
  intro k
  by_cases ha : ∀ s ∈ l, dimR s k = 1
  · rw [h.one k ha, h'.one k ha]
  · push Not at ha
    obtain ⟨s, hs, hne⟩ := ha
    rw [← (h.dim s hs k).resolve_left hne, ← (h'.dim s hs k).resolve_left hne]

theorem bshapes_exists {l : List (List ℕ)} {r : List ℕ} (hc : ∀ u ∈ l, ∀ k, dimR u k = 1 ∨ dimR u k = dimR r k) :
    ∃ t, bshapes l = some t := by
  have : ∃ t, bshapes l = some t ∧ ∀ k, dimR t k = 1 ∨ dimR t k = dimR r k := by
    induction l with
    | nil => exact ⟨[], rfl, fun k => .inl (dimR_of_le (by simp))⟩
    | cons u l ih =>
      obtain ⟨t, ht, htd⟩ := ih fun v hv k => hc v (List.mem_cons_of_mem _ hv) k
      obtain ⟨q, hq⟩ := bshapeR_exists u.reverse t.reverse fun k => by
        change (bdim (dimR u k) (dimR t k)).isSome
        have h1 := hc u (List.mem_cons_self ..) k
        have h2 := htd k
        unfold bdim
        split_ifs <;> simp
        omega
      refine ⟨q.reverse, ?_, fun k => ?_⟩
      · rw [bshapes, ht, Option.bind_some, hq, Option.map_some]
      · have := ((bshapeR_eq_some _ _ _).1 hq).2 k
        change bdim (dimR u k) (dimR t k) = _ at this
        rw [bdim_eq_some] at this
        have h1 := hc u (List.mem_cons_self ..) k
        have h2 := htd k
        unfold dimR at *
        rw [List.reverse_reverse]
        omega
  exact ⟨this.choose, this.choose_spec.1⟩

theorem bshapes_spec (l : List (List ℕ)) : ∀ r, bshapes l = some r ↔ Broadcast l r := by
  induction l with
  | nil =>
    intro r
    rw [bshapes]
    constructor
    · rintro h; cases h
      exact ⟨by simp, by simp, by simp, fun k _ => dimR_of_le (by simp)⟩
    · intro h
      have := h.le 0 (by simp)
      rw [List.eq_nil_of_length_eq_zero (l := r) (by omega)]
  | cons s l ih =>
    intro r
    have key : ∀ t, Broadcast l t → (bshapeR s.reverse t.reverse = some r.reverse ↔ Broadcast (s :: l) r) := by
      intro t ht
      rw [bshapeR_eq_some]
      constructor
      · rintro ⟨h1, h2⟩
        simp only [List.length_reverse] at h1
        have h3 : ∀ k, bdim (dimR s k) (dimR t k) = some (dimR r k) := h2
        simp only [bdim_eq_some] at h3
        refine ⟨?_, ?_, ?_, ?_⟩
        · intro u hu
          rcases List.mem_cons.1 hu with rfl | hu
          · omega
          · have := ht.ge u hu; omega
        · intro N hN
          have := ht.le N fun u hu => hN u (List.mem_cons_of_mem _ hu)
          have := hN s (List.mem_cons_self ..)
          omega
        · intro u hu k
          rcases List.mem_cons.1 hu with rfl | hu
          · exact (h3 k).1
          · rcases ht.dim u hu k with h | h
            · exact .inl h
            · rw [h]; exact (h3 k).2.1
        · intro k hk
          exact (h3 k).2.2 (hk s (List.mem_cons_self ..)) (ht.one k fun u hu => hk u (List.mem_cons_of_mem _ hu))
      · intro h
        have h1 : r.length = max s.length t.length := by
          apply le_antisymm
          · apply h.le
            intro u hu
            rcases List.mem_cons.1 hu with rfl | hu
            · omega
            · have := ht.ge u hu; omega
          · have := h.ge s (List.mem_cons_self ..)
            have := ht.le r.length fun u hu => h.ge u (List.mem_cons_of_mem _ hu)
            omega
        refine ⟨by simpa using h1, fun k => ?_⟩
        change bdim (dimR s k) (dimR t k) = some (dimR r k)
        rw [bdim_eq_some]
        refine ⟨h.dim s (List.mem_cons_self ..) k, ?_, ?_⟩
        · by_cases ha : ∀ u ∈ l, dimR u k = 1
          · exact .inl (ht.one k ha)
          · push Not at ha
            obtain ⟨u, hu, hne⟩ := ha
            right
            rw [← (ht.dim u hu k).resolve_left hne]
            exact (h.dim u (List.mem_cons_of_mem _ hu) k).resolve_left hne
        · intro h2 h3
          apply h.one
          intro u hu
          rcases List.mem_cons.1 hu with rfl | hu
          · exact h2
          · rcases ht.dim u hu k with h4 | h4
            · exact h4
            · rw [h4, h3]
    rw [bshapes]
    constructor
    · intro h
      rw [Option.bind_eq_some_iff] at h
      obtain ⟨t, ht, h⟩ := h
      rw [Option.map_eq_some_iff] at h
      obtain ⟨r', h, rfl⟩ := h
      rw [← key t ((ih t).1 ht), List.reverse_reverse]
      exact h
    · intro h
      -- the tail can be broadcast
      have : ∃ t, bshapes l = some t := by
        exact bshapes_exists fun u hu k => h.dim u (List.mem_cons_of_mem _ hu) k
      obtain ⟨t, ht⟩ := this
      rw [ht, Option.bind_some, (key t ((ih t).1 ht)).2 h, Option.map_some, List.reverse_reverse]

theorem pickR_length (s i : List ℕ) : (pickR s i).length = min s.length i.length := by
  induction s generalizing i with
  | nil => simp [pickR]
  | cons n s ih =>
    cases i with
    | nil => simp [pickR]
    | cons a i => simp [pickR, ih]

theorem pickR_getD (s i : List ℕ) (k : ℕ) (h1 : k < s.length) (h2 : k < i.length) :
    (pickR s i).getD k 0 = if s.getD k 1 = 1 then 0 else i.getD k 0 := by
  induction s generalizing i k with
  | nil => simp at h1
  | cons n s ih =>
    cases i with
    | nil => simp at h2
    | cons a i =>
      cases k with
      | zero => simp [pickR]
      | succ k =>
        simp only [List.length_cons] at h1 h2
        simpa [pickR] using ih i k (by omega) (by omega)

theorem reads_pick {s i : List ℕ} (h : s.length ≤ i.length) : Reads s i (pickR s.reverse i.reverse).reverse := by
  refine ⟨by simp [pickR_length]; exact h, fun k hk => ?_⟩
  rw [List.reverse_reverse, pickR_getD _ _ _ (by simpa using hk) (by simp; omega)]
  rfl

theorem Reads.eq {s i j j' : List ℕ} (h : Reads s i j) (h' : Reads s i j') : j = j' := by
  apply List.reverse_injective
  apply List.ext_getElem (by simp [h.len, h'.len])
  intro k h1 h2
  have hk : k < s.length := by rw [← h.len]; simpa using h1
  rw [← List.getD_eq_getElem _ 0 h1, ← List.getD_eq_getElem _ 0 h2, h.at_ k hk, h'.at_ k hk]

theorem read_eq {A : Nd α} {i j : List ℕ} (h : Reads A.shape i j) (hl : A.shape.length ≤ i.length) : read A i = A.get j := by
  unfold read
  rw [(reads_pick hl).eq h]

/-- Reading in two steps, through an intermediate array. -/
theorem Reads.trans {s c i j j' : List ℕ} (hc : Reads c i j) (hs : Reads s j j') (hl : s.length ≤ c.length)
    (hd : ∀ k, dimR s k = 1 ∨ dimR s k = dimR c k) : Reads s i j' := by
  refine ⟨hs.len, fun k hk => ?_⟩
  rw [hs.at_ k hk]
  split_ifs with h
  · rfl
  · rw [hc.at_ k (by omega), if_neg]
    rwa [← (hd k).resolve_left h]

theorem mem_indices {s i : List ℕ} : i ∈ indices s ↔ Valid s i := by
  unfold Valid
  induction s generalizing i with
  | nil => simp [indices]
  | cons n s ih =>
    simp only [indices, List.mem_flatMap, List.mem_range, List.mem_map, List.forall₂_cons_left_iff]
    constructor
    · rintro ⟨a, ha, m, hm, rfl⟩
      exact ⟨a, m, ha, ih.1 hm, rfl⟩
    · rintro ⟨a, m, ha, hm, rfl⟩
      exact ⟨a, ha, m, ih.2 hm, rfl⟩

theorem valid_len {s i : List ℕ} (h : Valid s i) : i.length = s.length := (List.Forall₂.length_eq h).symm

theorem valid_iff {s i : List ℕ} : Valid s i ↔ i.length = s.length ∧ ∀ k < s.length, i.reverse.getD k 0 < dimR s k := by
  unfold Valid
  rw [← List.forall₂_reverse_iff, List.forall₂_iff_get]
  simp only [List.length_reverse, List.get_eq_getElem]
  constructor
  · rintro ⟨h1, h2⟩
    refine ⟨h1.symm, fun k hk => ?_⟩
    unfold dimR
    rw [List.getD_eq_getElem _ _ (by simp; omega), List.getD_eq_getElem _ _ (by simpa using hk)]
    exact h2 k hk (by omega)
  · rintro ⟨h1, h2⟩
    refine ⟨h1.symm, fun k hk hk' => ?_⟩
    have := h2 k hk
    unfold dimR at this
    rwa [List.getD_eq_getElem _ _ (by simp; omega), List.getD_eq_getElem _ _ (by simpa using hk)] at this

/-- Outcomes of `run`. -/
theorem run_ok {l : List (List ℕ)} {d : α} {k : List ℕ → Option α} {y : Nd α} :
    run l d k = .ok y → Broadcast l y.shape ∧ ∀ i, Valid y.shape i → k i = some (y.get i) := by
  intro h
  unfold run at h
  cases hb : bshapes l with
  | none => rw [hb] at h; simp at h
  | some s =>
    rw [hb] at h
    dsimp only at h
    split_ifs at h with ha
    cases h
    refine ⟨(bshapes_spec l s).1 hb, fun i hi => ?_⟩
    rw [List.all_eq_true] at ha
    obtain ⟨v, hv⟩ := Option.isSome_iff_exists.1 (ha i (mem_indices.2 hi))
    simp [hv]

theorem run_of {l : List (List ℕ)} {d : α} {k : List ℕ → Option α} {r : List ℕ} (hb : Broadcast l r)
    (hk : ∀ i, Valid r i → (k i).isSome) : run l d k = .ok ⟨r, fun i => (k i).getD d⟩ := by
  unfold run
  rw [(bshapes_spec l r).2 hb]
  dsimp only
  rw [if_pos]
  rw [List.all_eq_true]
  exact fun i hi => hk i (mem_indices.1 hi)

theorem run_zeroDiv {l : List (List ℕ)} {d : α} {k : List ℕ → Option α} :
    run l d k = .zeroDiv ↔ ∃ r, Broadcast l r ∧ ∃ i, Valid r i ∧ k i = none := by
  unfold run
  cases hb : bshapes l with
  | none =>
    simp only [reduceCtorEq, false_iff, not_exists, not_and]
    intro r hr
    rw [← bshapes_spec, hb] at hr
    simp at hr
  | some s =>
    have hs := (bshapes_spec l s).1 hb
    dsimp only
    split_ifs with ha
    · simp only [reduceCtorEq, false_iff, not_exists, not_and]
      intro r hr i hi hn
      rw [List.all_eq_true] at ha
      have := ha i (mem_indices.2 (hs.unique hr ▸ hi))
      rw [hn] at this
      simp at this
    · simp only [true_iff]
      refine ⟨s, hs, ?_⟩
      simp only [List.all_eq_true, not_forall] at ha
      obtain ⟨i, hi, hn⟩ := ha
      exact ⟨i, mem_indices.1 hi, by simpa using hn⟩

theorem run_valueError {l : List (List ℕ)} {d : α} {k : List ℕ → Option α} :
    run l d k = .valueError ↔ ¬ ∃ r, Broadcast l r := by
  unfold run
  cases hb : bshapes l with
  | none =>
    simp only [true_iff, not_exists]
    intro r hr
    rw [← bshapes_spec, hb] at hr
    simp at hr
  | some s =>
    dsimp only
    have := (bshapes_spec l s).1 hb
    split_ifs <;> simp <;> exact ⟨s, this⟩

/-! ## The interpolation functions -/

/-- The cast of `X` at horizontal index `j`. -/
def castAt (X : Nd F) (n : ℕ) (j : List ℕ) : Arr F := ⟨n, fun k => X.get (j ++ [k])⟩

/-- `linear_interp` (`interp1 = linearInterp1`) and `pchip_interp` (`interp1 = pchipInterp1`), when they return. -/
theorem interpU_ok {interp1 : F → Arr F → Arr F → ℕ → Option F} {x X Y : Nd F} {d : Nd ℕ} {y : Nd F}
    (h : interpU interp1 x X Y d = .ok y) : ∃ n, X.shape.getLast? = some n ∧ Y.shape.getLast? = some n ∧
      Broadcast [x.shape, X.shape.dropLast, Y.shape.dropLast, d.shape] y.shape ∧
      ∀ i jx jX jY jd, Valid y.shape i → Reads x.shape i jx → Reads X.shape.dropLast i jX → Reads Y.shape.dropLast i jY →
        Reads d.shape i jd → interp1 (x.get jx) (castAt X n jX) (castAt Y n jY) (d.get jd) = some (y.get i) := by
  unfold interpU rows at h
  cases hX : X.shape.getLast? with
  | none => rw [hX] at h; simp at h
  | some n =>
    cases hY : Y.shape.getLast? with
    | none => rw [hX, hY] at h; simp at h
    | some n' =>
      rw [hX, hY] at h
      dsimp only at h
      split_ifs at h with hn
      subst hn
      obtain ⟨hb, hk⟩ := run_ok h
      refine ⟨n, rfl, rfl, hb, fun i jx jX jY jd hi h1 h2 h3 h4 => ?_⟩
      have hl := valid_len hi
      rw [← hk i hi, read_eq h1 (by rw [hl]; exact hb.ge _ (by simp)), read_eq h2 (by rw [hl]; exact hb.ge _ (by simp)),
        read_eq h3 (by rw [hl]; exact hb.ge _ (by simp)), read_eq h4 (by rw [hl]; exact hb.ge _ (by simp))]
      rfl

theorem interpU_returns {interp1 : F → Arr F → Arr F → ℕ → Option F} {x X Y : Nd F} {d : Nd ℕ} {n : ℕ} {r : List ℕ}
    (hX : X.shape.getLast? = some n) (hY : Y.shape.getLast? = some n)
    (hb : Broadcast [x.shape, X.shape.dropLast, Y.shape.dropLast, d.shape] r)
    (hk : ∀ i jx jX jY jd, Valid r i → Reads x.shape i jx → Reads X.shape.dropLast i jX → Reads Y.shape.dropLast i jY →
        Reads d.shape i jd → interp1 (x.get jx) (castAt X n jX) (castAt Y n jY) (d.get jd) ≠ none) :
    ∃ y, interpU interp1 x X Y d = .ok y ∧ y.shape = r := by
  unfold interpU rows
  rw [hX, hY]
  dsimp only
  rw [if_pos rfl]
  refine ⟨_, run_of hb fun i hi => ?_, rfl⟩
  have hl := valid_len hi
  have h : ∀ s ∈ [x.shape, X.shape.dropLast, Y.shape.dropLast, d.shape], Reads s i (pickR s.reverse i.reverse).reverse :=
    fun s hs => reads_pick (by rw [hl]; exact hb.ge s hs)
  rw [Option.isSome_iff_ne_none]
  exact hk i _ _ _ _ hi (h _ (by simp)) (h _ (by simp)) (h _ (by simp)) (h _ (by simp))

/-- Which arguments are refused. -/
theorem interpU_refuses {interp1 : F → Arr F → Arr F → ℕ → Option F} {x X Y : Nd F} {d : Nd ℕ} :
    interpU interp1 x X Y d = .valueError ↔
      ¬ ∃ n r, X.shape.getLast? = some n ∧ Y.shape.getLast? = some n ∧
        Broadcast [x.shape, X.shape.dropLast, Y.shape.dropLast, d.shape] r := by
  unfold interpU rows
  cases hX : X.shape.getLast? with
  | none => simp
  | some n =>
    cases hY : Y.shape.getLast? with
    | none => simp
    | some n' =>
      dsimp only
      split_ifs with hn
      · subst hn
        rw [run_valueError]
        simp
      · simp only [Option.some.injEq, true_iff, not_exists, not_and]
        rintro m r rfl h
        exact absurd h.symm hn

theorem Broadcast.nil_right {a b r : List ℕ} : Broadcast [a, b, []] r ↔ Broadcast [a, b] r := by
  have h0 : ∀ k, dimR [] k = 1 := fun k => dimR_of_le (by simp)
  constructor
  · intro h
    exact ⟨fun s hs => h.ge s (by simp at hs ⊢; tauto), fun N hN => h.le N (by simp at hN ⊢; tauto),
      fun s hs => h.dim s (by simp at hs ⊢; tauto), fun k hk => h.one k (by simp [h0] at hk ⊢; tauto)⟩
  · intro h
    refine ⟨fun s hs => ?_, fun N hN => h.le N (by simp at hN ⊢; tauto), fun s hs k => ?_,
      fun k hk => h.one k (by simp [h0] at hk ⊢; tauto)⟩
    · simp only [List.mem_cons, List.not_mem_nil, or_false] at hs
      rcases hs with rfl | rfl | rfl
      · exact h.ge _ (by simp)
      · exact h.ge _ (by simp)
      · simp
    · simp only [List.mem_cons, List.not_mem_nil, or_false] at hs
      rcases hs with rfl | rfl | rfl
      · exact h.dim _ (by simp) k
      · exact h.dim _ (by simp) k
      · exact .inl (h0 k)

/-- Broadcasting in two steps. -/
theorem Broadcast.two_steps {x a b d r : List ℕ} (h : Broadcast [x, a, b, d] r) :
    ∃ c, Broadcast [a, b] c ∧ Broadcast [x, a, c, d] r := by
  obtain ⟨c, hc⟩ := bshapes_exists (l := [a, b]) (r := r) fun u hu => h.dim u (by simp at hu ⊢; tauto)
  have hc := (bshapes_spec _ _).1 hc
  refine ⟨c, hc, ?_⟩
  have hd : ∀ k, dimR c k = 1 ∨ dimR c k = dimR r k := by
    intro k
    have ha := hc.dim a (by simp) k
    have hb := hc.dim b (by simp) k
    have ha' := h.dim a (by simp) k
    have hb' := h.dim b (by simp) k
    have h1 := hc.one k
    simp only [List.mem_cons, List.not_mem_nil, or_false, forall_eq_or_imp, forall_eq] at h1
    by_cases h2 : dimR a k = 1
    · by_cases h3 : dimR b k = 1
      · exact .inl (h1 ⟨h2, h3⟩)
      · right; omega
    · right; omega
  refine ⟨?_, ?_, ?_, ?_⟩
  · intro s hs
    simp only [List.mem_cons, List.not_mem_nil, or_false] at hs
    rcases hs with rfl | rfl | rfl | rfl
    · exact h.ge _ (by simp)
    · exact h.ge _ (by simp)
    · exact hc.le _ fun u hu => h.ge u (by simp at hu ⊢; tauto)
    · exact h.ge _ (by simp)
  · intro N hN
    apply h.le
    intro s hs
    simp only [List.mem_cons, List.not_mem_nil, or_false, forall_eq_or_imp, forall_eq] at hs hN
    have := hc.ge b (by simp)
    rcases hs with rfl | rfl | rfl | rfl <;> omega
  · intro s hs k
    simp only [List.mem_cons, List.not_mem_nil, or_false] at hs
    rcases hs with rfl | rfl | rfl | rfl
    · exact h.dim _ (by simp) k
    · exact h.dim _ (by simp) k
    · exact hd k
    · exact h.dim _ (by simp) k
  · intro k hk
    apply h.one
    intro s hs
    simp only [List.mem_cons, List.not_mem_nil, or_false, forall_eq_or_imp, forall_eq] at hs hk
    have := hc.dim b (by simp) k
    rcases hs with rfl | rfl | rfl | rfl
    · exact hk.1
    · exact hk.2.1
    · omega
    · exact hk.2.2.2

/-- `linear_coeffs` and `pchip_coeffs`, when they return. -/
theorem coeffsU_ok {coeffs1 : Arr F → Arr F → Option (PPC F)} {m : ℕ} {X Y C : Nd F} (h : coeffsU coeffs1 m X Y = .ok C) :
    ∃ n c, X.shape.getLast? = some n ∧ Y.shape.getLast? = some n ∧ Broadcast [X.shape.dropLast, Y.shape.dropLast] c ∧
      C.shape = c ++ [n, m] ∧ ∀ i jX jY, Valid c i → Reads X.shape.dropLast i jX → Reads Y.shape.dropLast i jY →
        ∃ T, coeffs1 (castAt X n jX) (castAt Y n jY) = some T ∧ ∀ k j, C.get (i ++ [k, j]) = (T.row k).getD j nan := by
  unfold coeffsU rows at h
  cases hX : X.shape.getLast? with
  | none => rw [hX] at h; simp at h
  | some n =>
    cases hY : Y.shape.getLast? with
    | none => rw [hX, hY] at h; simp at h
    | some n' =>
      rw [hX, hY] at h
      dsimp only at h
      split_ifs at h with hn
      subst hn
      split at h
      · rename_i D hD
        obtain ⟨hb, hk⟩ := run_ok hD
        rw [Broadcast.nil_right] at hb
        cases h
        refine ⟨n, D.shape, rfl, rfl, hb, rfl, fun i jX jY hi h2 h3 => ?_⟩
        have hl := valid_len hi
        refine ⟨D.get i, ?_, fun k j => ?_⟩
        · rw [← hk i hi, read_eq h2 (by rw [hl]; exact hb.ge _ (by simp)), read_eq h3 (by rw [hl]; exact hb.ge _ (by simp))]
          rfl
        · simp only [untables]
          rw [← hl, List.take_left', List.getD_append_right, List.getD_append_right]
          · simp
          all_goals simp
      · simp at h
      · simp at h

theorem coeffsU_returns {coeffs1 : Arr F → Arr F → Option (PPC F)} {m n : ℕ} {X Y : Nd F} {c : List ℕ}
    (hX : X.shape.getLast? = some n) (hY : Y.shape.getLast? = some n) (hb : Broadcast [X.shape.dropLast, Y.shape.dropLast] c)
    (hk : ∀ i jX jY, Valid c i → Reads X.shape.dropLast i jX → Reads Y.shape.dropLast i jY →
        coeffs1 (castAt X n jX) (castAt Y n jY) ≠ none) :
    ∃ C, coeffsU coeffs1 m X Y = .ok C ∧ C.shape = c ++ [n, m] := by
  unfold coeffsU rows
  rw [hX, hY]
  dsimp only
  rw [if_pos rfl, run_of (Broadcast.nil_right.2 hb) fun i hi => ?_]
  · exact ⟨_, rfl, rfl⟩
  · have hl := valid_len hi
    have h : ∀ s ∈ [X.shape.dropLast, Y.shape.dropLast], Reads s i (pickR s.reverse i.reverse).reverse :=
      fun s hs => reads_pick (by rw [hl]; exact hb.ge s hs)
    rw [Option.isSome_iff_ne_none]
    exact hk i _ _ hi (h _ (by simp)) (h _ (by simp))

/-- Which arguments `linear_coeffs` and `pchip_coeffs` refuse. -/
theorem coeffsU_refuses {coeffs1 : Arr F → Arr F → Option (PPC F)} {m : ℕ} {X Y : Nd F} :
    coeffsU coeffs1 m X Y = .valueError ↔
      ¬ ∃ n c, X.shape.getLast? = some n ∧ Y.shape.getLast? = some n ∧ Broadcast [X.shape.dropLast, Y.shape.dropLast] c := by
  unfold coeffsU rows
  cases hX : X.shape.getLast? with
  | none => simp
  | some n =>
    cases hY : Y.shape.getLast? with
    | none => simp
    | some n' =>
      dsimp only
      split_ifs with hn
      · subst hn
        have := run_valueError (l := [X.shape.dropLast, Y.shape.dropLast, []]) (d := (⟨0, fun _ => []⟩ : PPC F))
          (k := fun i => coeffs1 (read ⟨X.shape.dropLast, fun i => ⟨n, fun k => X.get (i ++ [k])⟩⟩ i)
            (read ⟨Y.shape.dropLast, fun i => ⟨n, fun k => Y.get (i ++ [k])⟩⟩ i))
        simp only [Broadcast.nil_right] at this
        split
        · rename_i h; rw [h] at this; simpa using this
        · rename_i h; rw [h] at this; simpa using this
        · rename_i h; rw [h] at this; simpa using this
      · simp only [Option.some.injEq, true_iff, not_exists, not_and]
        rintro m r rfl h
        exact absurd h.symm hn

/-- `ppval` on tables of coefficients `C` with `m` columns. -/
theorem ppvalU_returns {x X C : Nd F} {d : Nd ℕ} {n m : ℕ} {c r : List ℕ} (hX : X.shape.getLast? = some n)
    (hC : C.shape = c ++ [n, m]) (hb : Broadcast [x.shape, X.shape.dropLast, c, d.shape] r) :
    ∃ y, ppvalU x X C d = .ok y ∧ y.shape = r ∧ ∀ i jx jX jC jd, Valid r i → Reads x.shape i jx →
      Reads X.shape.dropLast i jX → Reads c i jC → Reads d.shape i jd →
      y.get i = ppval1 (x.get jx) (castAt X n jX) ⟨n, fun k => (List.range m).map fun j => C.get (jC ++ [k, j])⟩ (d.get jd) := by
  have hC2 : C.shape = (c ++ [n]) ++ [m] := by rw [hC]; simp
  have h1 : C.shape.getLast? = some m := by rw [hC2]; simp
  have h2 : C.shape.dropLast = c ++ [n] := by rw [hC2, List.dropLast_concat]
  unfold ppvalU rows tables
  rw [hX, h1, h2]
  simp only [List.getLast?_append, List.getLast?_singleton, Option.some_or, List.dropLast_concat, if_true]
  rw [run_of hb fun i _ => rfl]
  refine ⟨_, rfl, rfl, fun i jx jX jC jd hi h1 h2 h3 h4 => ?_⟩
  have hl := valid_len hi
  dsimp only [Option.getD]
  rw [read_eq h1 (by rw [hl]; exact hb.ge _ (by simp)), read_eq h2 (by rw [hl]; exact hb.ge _ (by simp)),
    read_eq h3 (by rw [hl]; exact hb.ge _ (by simp)), read_eq h4 (by rw [hl]; exact hb.ge _ (by simp))]
  rfl

/-- **C113** `ppval_two`: values of two tables with the same number of columns, each at the entries that broadcasting says. -/
theorem ppvalTwoU_returns {x X C D : Nd F} {d : Nd ℕ} {n m : ℕ} {c c' r : List ℕ} (hX : X.shape.getLast? = some n)
    (hC : C.shape = c ++ [n, m]) (hD : D.shape = c' ++ [n, m]) (hb : Broadcast [x.shape, X.shape.dropLast, c, c', d.shape] r) :
    ∃ y, ppvalTwoU x X C D d = .ok y ∧ y.shape = r ∧ ∀ i jx jX jC jD jd, Valid r i → Reads x.shape i jx →
      Reads X.shape.dropLast i jX → Reads c i jC → Reads c' i jD → Reads d.shape i jd →
      y.get i = ppval1Two (x.get jx) (castAt X n jX) ⟨n, fun k => (List.range m).map fun j => C.get (jC ++ [k, j])⟩
        ⟨n, fun k => (List.range m).map fun j => D.get (jD ++ [k, j])⟩ (d.get jd) := by
  have hC2 : C.shape = (c ++ [n]) ++ [m] := by rw [hC]; simp
  have h1 : C.shape.getLast? = some m := by rw [hC2]; simp
  have h2 : C.shape.dropLast = c ++ [n] := by rw [hC2, List.dropLast_concat]
  have hD2 : D.shape = (c' ++ [n]) ++ [m] := by rw [hD]; simp
  have h3 : D.shape.getLast? = some m := by rw [hD2]; simp
  have h4 : D.shape.dropLast = c' ++ [n] := by rw [hD2, List.dropLast_concat]
  unfold ppvalTwoU rows tables
  rw [hX, h1, h2, h3, h4]
  simp only [List.getLast?_append, List.getLast?_singleton, Option.some_or, List.dropLast_concat, and_self, if_true]
  rw [run_of hb fun i _ => rfl]
  refine ⟨_, rfl, rfl, fun i jx jX jC jD jd hi h1 h2 h3 h4 h5 => ?_⟩
  have hl := valid_len hi
  dsimp only [Option.getD]
  rw [read_eq h1 (by rw [hl]; exact hb.ge _ (by simp)), read_eq h2 (by rw [hl]; exact hb.ge _ (by simp)),
    read_eq h3 (by rw [hl]; exact hb.ge _ (by simp)), read_eq h4 (by rw [hl]; exact hb.ge _ (by simp)),
    read_eq h5 (by rw [hl]; exact hb.ge _ (by simp))]
  rfl

/-- **C113** Tables with different numbers of columns, or with another number of rows than `X` has entries, are rejected. -/
theorem ppvalTwoU_rejects {x X C D : Nd F} {d : Nd ℕ} {n n1 n2 m1 m2 : ℕ} {c c' : List ℕ} (hX : X.shape.getLast? = some n)
    (hC : C.shape = c ++ [n1, m1]) (hD : D.shape = c' ++ [n2, m2]) (h : n ≠ n1 ∨ n ≠ n2 ∨ m1 ≠ m2) :
    ppvalTwoU x X C D d = .valueError := by
  have hC2 : C.shape = (c ++ [n1]) ++ [m1] := by rw [hC]; simp
  have h1 : C.shape.getLast? = some m1 := by rw [hC2]; simp
  have h2 : C.shape.dropLast = c ++ [n1] := by rw [hC2, List.dropLast_concat]
  have hD2 : D.shape = (c' ++ [n2]) ++ [m2] := by rw [hD]; simp
  have h3 : D.shape.getLast? = some m2 := by rw [hD2]; simp
  have h4 : D.shape.dropLast = c' ++ [n2] := by rw [hD2, List.dropLast_concat]
  unfold ppvalTwoU rows tables
  rw [hX, h1, h2, h3, h4]
  simp only [List.getLast?_append, List.getLast?_singleton, Option.some_or, List.dropLast_concat, Option.some.injEq]
  rw [if_neg (by tauto)]

/-- Two tables of five casts with three knots: the hypotheses of `ppvalTwoU_returns`, and of `ppvalTwoU_rejects`. -/
example (x X C D : Nd F) (d : Nd ℕ) (hx : x.shape = [5]) (hX : X.shape = [3]) (hC : C.shape = [5, 3, 2]) (hd : d.shape = []) :
    (D.shape = [5, 3, 2] → ∃ y, ppvalTwoU x X C D d = .ok y ∧ y.shape = [5]) ∧
    (D.shape = [5, 3, 4] → ppvalTwoU x X C D d = .valueError) := by
  constructor
  · intro hD
    have hb : Broadcast [x.shape, X.shape.dropLast, [5], [5], d.shape] [5] := by
      rw [hx, hX, hd, ← bshapes_spec]; rfl
    obtain ⟨y, h1, h2, _⟩ := ppvalTwoU_returns (n := 3) (m := 2) (c := [5]) (c' := [5]) (by rw [hX]; rfl) hC hD hb
    exact ⟨y, h1, h2⟩
  · intro hD
    exact ppvalTwoU_rejects (n := 3) (n1 := 3) (n2 := 3) (m1 := 2) (m2 := 4) (c := [5]) (c' := [5]) (by rw [hX]; rfl) hC hD (by simp)

theorem range_map_getD (l : List F) : ((List.range l.length).map fun j => l.getD j nan) = l := by
  apply List.ext_getElem (by simp)
  intro k h1 h2
  simp only [List.getElem_map, List.getElem_range]
  rw [List.getD_eq_getElem _ _ h2]

/-- Evaluating precomputed coefficients and interpolating on the fly, for arrays, in terms of one cast. -/
theorem table_aux {coeffs1 : Arr F → Arr F → Option (PPC F)} {m n : ℕ}
    {x X Y C : Nd F} {d : Nd ℕ} {r : List ℕ} (hX : X.shape.getLast? = some n) (hY : Y.shape.getLast? = some n)
    (hb : Broadcast [x.shape, X.shape.dropLast, Y.shape.dropLast, d.shape] r)
    (hC : coeffsU coeffs1 m X Y = .ok C)
    (hsz : ∀ U V T, U.size = n → V.size = n → coeffs1 U V = some T → T.size = n ∧ ∀ k, (T.row k).length = m) :
    ∃ y, ppvalU x X C d = .ok y ∧ y.shape = r ∧ ∀ i jx jX jY jd, Valid r i → Reads x.shape i jx →
      Reads X.shape.dropLast i jX → Reads Y.shape.dropLast i jY → Reads d.shape i jd →
      ∃ T, coeffs1 (castAt X n jX) (castAt Y n jY) = some T ∧ y.get i = ppval1 (x.get jx) (castAt X n jX) T (d.get jd) := by
  obtain ⟨n', c, h1, h2, hc, hCs, hCg⟩ := coeffsU_ok hC
  rw [hX] at h1
  cases h1
  obtain ⟨c', hc', hb'⟩ := hb.two_steps
  rw [hc'.unique hc] at hb'
  obtain ⟨y, hy, hys, hyg⟩ := ppvalU_returns hX hCs hb'
  refine ⟨y, hy, hys, fun i jx jX jY jd hi h1 h2 h3 h4 => ?_⟩
  have hl := valid_len hi
  have hcl : c.length ≤ i.length := by rw [hl]; exact hb'.ge _ (by simp)
  have hrc := reads_pick hcl
  -- the entry of the table that is read
  have hiv : Valid c (pickR c.reverse i.reverse).reverse := by
    rw [valid_iff] at hi ⊢
    refine ⟨hrc.len, fun k hk => ?_⟩
    rw [hrc.at_ k hk]
    have := hb'.dim c (by simp) k
    have := hi.2 k (by omega)
    split_ifs <;> omega
  have hX' := reads_pick (s := X.shape.dropLast) (i := (pickR c.reverse i.reverse).reverse)
    (by rw [hrc.len]; exact hc.ge _ (by simp))
  have hY' := reads_pick (s := Y.shape.dropLast) (i := (pickR c.reverse i.reverse).reverse)
    (by rw [hrc.len]; exact hc.ge _ (by simp))
  have e1 := (hrc.trans hX' (hc.ge _ (by simp)) (hc.dim _ (by simp))).eq h2
  have e2 := (hrc.trans hY' (hc.ge _ (by simp)) (hc.dim _ (by simp))).eq h3
  obtain ⟨T, hT, hTg⟩ := hCg _ _ _ hiv hX' hY'
  rw [e1, e2] at hT
  refine ⟨T, hT, ?_⟩
  rw [hyg i jx jX _ jd hi h1 h2 hrc h4]
  obtain ⟨hT1, hT2⟩ := hsz _ _ _ rfl rfl hT
  congr 1
  obtain ⟨sz, row⟩ := T
  dsimp only at hT1 hT2 hTg
  subst hT1
  congr 1
  funext k
  simp only [hTg]
  have := range_map_getD (row k)
  rwa [hT2 k] at this

/-- **C114** On arrays of any shapes that can be broadcast: whenever `linear_interp(x, X, Y, d)` returns, so do
`linear_coeffs(X, Y)` and then `ppval(x, X, Yppc, d)`, with an array of the same shape and the same entries, in any arithmetic. -/
theorem linear_table {x X Y y : Nd F} {d : Nd ℕ} (hy : linearInterp x X Y d = .ok y) :
    ∃ C y', linearCoeffs X Y = .ok C ∧ ppvalU x X C d = .ok y' ∧ y'.shape = y.shape ∧
      ∀ i, Valid y.shape i → y'.get i = y.get i := by
  obtain ⟨n, hX, hY, hb, hg⟩ := interpU_ok hy
  obtain ⟨c, hc, -⟩ := hb.two_steps
  obtain ⟨C, hC, hCs⟩ := coeffsU_returns (coeffs1 := fun X Y => some (linearCoeffs1 X Y)) (m := 2) hX hY hc
    fun _ _ _ _ _ _ => by simp
  obtain ⟨y', hy', hys, hyg⟩ := table_aux hX hY hb hC fun U V T _ hV hT => by
    cases hT
    exact ⟨hV, fun k => rfl⟩
  refine ⟨C, y', hC, hy', hys, fun i hi => ?_⟩
  have hl := valid_len hi
  have h : ∀ s ∈ [x.shape, X.shape.dropLast, Y.shape.dropLast, d.shape], Reads s i (pickR s.reverse i.reverse).reverse :=
    fun s hs => reads_pick (by rw [hl]; exact hb.ge s hs)
  obtain ⟨T, hT, hTg⟩ := hyg i _ _ _ _ hi (h _ (by simp)) (h _ (by simp)) (h _ (by simp)) (h _ (by simp))
  have hv := hg i _ _ _ _ hi (h _ (by simp)) (h _ (by simp)) (h _ (by simp)) (h _ (by simp))
  cases hT
  rw [hTg, Interp.linear_onthefly_eq_table (X := castAt X n _) (Y := castAt Y n _) rfl _ _ hv]

theorem pchipCoeffs1_rows {X Y : Arr F} {T : PPC F} (h : pchipCoeffs1 X Y = some T) :
    T.size = X.size ∧ ∀ k, (T.row k).length = 4 := by
  have hrow : ∀ k K i, ∀ l, pchipRow X Y k K i = some l → l.length = 4 := by
    intro k K i l hl
    simp only [pchipRow, hermite, Option.bind_eq_bind, Option.bind_eq_some_iff, Option.pure_def, Option.some.injEq] at hl
    obtain ⟨_, _, _, _, _, _, _, _, _, _, rfl⟩ := hl
    rfl
  unfold pchipCoeffs1 pchipCoeffsAux at h
  split_ifs at h with h1 h2 h3
  · cases h
    refine ⟨rfl, fun k => ?_⟩
    dsimp only
    split_ifs
    · cases hr : pchipRow X Y (validRange2 X Y).1 (validRange2 X Y).2 k with
      | none => rfl
      | some l => exact hrow _ _ _ _ hr
    · rfl
  · simp only [Option.bind_eq_bind, Option.bind_eq_some_iff, Option.pure_def, Option.some.injEq] at h
    obtain ⟨_, _, rfl⟩ := h
    refine ⟨rfl, fun k => ?_⟩
    dsimp only
    split_ifs <;> rfl
  · cases h
    exact ⟨rfl, fun k => rfl⟩

/-- **C114** The same for PCHIP, when addition is commutative and each cast is of finite numbers and NaN: if `pchip_coeffs(X, Y)`
returns and the shapes can be broadcast, both ways return arrays of the same shape with the same entries. -/
theorem pchip_table (hadd : ∀ a b : F, a + b = b + a) {x X Y C : Nd F} {d : Nd ℕ} {n : ℕ} {r : List ℕ}
    (hX : X.shape.getLast? = some n) (hY : Y.shape.getLast? = some n)
    (hb : Broadcast [x.shape, X.shape.dropLast, Y.shape.dropLast, d.shape] r)
    (hP : ∀ jX jY, Plain (castAt X n jX) (castAt Y n jY)) (hC : pchipCoeffs X Y = .ok C) :
    ∃ y y', pchipInterp x X Y d = .ok y ∧ ppvalU x X C d = .ok y' ∧ y.shape = r ∧ y'.shape = r ∧
      ∀ i, Valid r i → y'.get i = y.get i := by
  obtain ⟨y', hy', hys, hyg⟩ := table_aux hX hY hb hC fun U V T hU _ hT => by
    rw [← hU]
    exact pchipCoeffs1_rows hT
  obtain ⟨y, hy, hs⟩ := interpU_returns (interp1 := pchipInterp1) hX hY hb fun i jx jX jY jd hi h1 h2 h3 h4 => by
    obtain ⟨T, hT, -⟩ := hyg i _ _ _ _ hi h1 h2 h3 h4
    rw [Interp.pchip_onthefly_eq_table hadd (hP _ _) rfl hT]
    simp
  refine ⟨y, y', hy, hy', hs, hys, fun i hi => ?_⟩
  obtain ⟨n', hX', -, -, hg⟩ := interpU_ok hy
  rw [hX] at hX'
  cases hX'
  have hl := valid_len hi
  have h : ∀ s ∈ [x.shape, X.shape.dropLast, Y.shape.dropLast, d.shape], Reads s i (pickR s.reverse i.reverse).reverse :=
    fun s hs => reads_pick (by rw [hl]; exact hb.ge s hs)
  obtain ⟨T, hT, hTg⟩ := hyg i _ _ _ _ hi (h _ (by simp)) (h _ (by simp)) (h _ (by simp)) (h _ (by simp))
  have hv := hg i _ _ _ _ (by rw [hs]; exact hi) (h _ (by simp)) (h _ (by simp)) (h _ (by simp)) (h _ (by simp))
  rw [Interp.pchip_onthefly_eq_table hadd (hP _ _) rfl hT] at hv
  rw [hTg]
  exact Option.some.inj hv

/-! ## Results per function -/

/-- **C113** `linear_interp`: the entry of the result at `i` is the scalar function on the casts at `i`, with missing dimensions
and dimensions of length 1 repeated; the shape is the broadcast one. -/
theorem linear_interp_spec {x X Y y : Nd F} {d : Nd ℕ} (h : linearInterp x X Y d = .ok y) :
    ∃ n, X.shape.getLast? = some n ∧ Y.shape.getLast? = some n ∧
      Broadcast [x.shape, X.shape.dropLast, Y.shape.dropLast, d.shape] y.shape ∧
      ∀ i jx jX jY jd, Valid y.shape i → Reads x.shape i jx → Reads X.shape.dropLast i jX → Reads Y.shape.dropLast i jY →
        Reads d.shape i jd → linearInterp1 (x.get jx) (castAt X n jX) (castAt Y n jY) (d.get jd) = some (y.get i) :=
  interpU_ok h

/-- **C113** `pchip_interp`. -/
theorem pchip_interp_spec {x X Y y : Nd F} {d : Nd ℕ} (h : pchipInterp x X Y d = .ok y) :
    ∃ n, X.shape.getLast? = some n ∧ Y.shape.getLast? = some n ∧
      Broadcast [x.shape, X.shape.dropLast, Y.shape.dropLast, d.shape] y.shape ∧
      ∀ i jx jX jY jd, Valid y.shape i → Reads x.shape i jx → Reads X.shape.dropLast i jX → Reads Y.shape.dropLast i jY →
        Reads d.shape i jd → pchipInterp1 (x.get jx) (castAt X n jX) (castAt Y n jY) (d.get jd) = some (y.get i) :=
  interpU_ok h

theorem interpTwoU_ok {interp1 : F → Arr F → Arr F → Arr F → ℕ → Option (F × F)} {x X Y Z : Nd F} {d : Nd ℕ} {y : Nd (F × F)}
    (h : interpTwoU interp1 x X Y Z d = .ok y) :
    ∃ n, X.shape.getLast? = some n ∧ Y.shape.getLast? = some n ∧ Z.shape.getLast? = some n ∧
      Broadcast [x.shape, X.shape.dropLast, Y.shape.dropLast, Z.shape.dropLast, d.shape] y.shape ∧
      ∀ i jx jX jY jZ jd, Valid y.shape i → Reads x.shape i jx → Reads X.shape.dropLast i jX → Reads Y.shape.dropLast i jY →
        Reads Z.shape.dropLast i jZ → Reads d.shape i jd →
        interp1 (x.get jx) (castAt X n jX) (castAt Y n jY) (castAt Z n jZ) (d.get jd) = some (y.get i) := by
  unfold interpTwoU rows at h
  cases hX : X.shape.getLast? with
  | none => rw [hX] at h; simp at h
  | some n =>
    cases hY : Y.shape.getLast? with
    | none => rw [hX, hY] at h; simp at h
    | some n' =>
      cases hZ : Z.shape.getLast? with
      | none => rw [hX, hY, hZ] at h; simp at h
      | some n'' =>
        rw [hX, hY, hZ] at h
        dsimp only at h
        split_ifs at h with hn
        obtain ⟨rfl, rfl⟩ := hn
        obtain ⟨hb, hk⟩ := run_ok h
        refine ⟨n, rfl, rfl, rfl, hb, fun i jx jX jY jZ jd hi h1 h2 h3 h4 h5 => ?_⟩
        have hl := valid_len hi
        rw [← hk i hi, read_eq h1 (by rw [hl]; exact hb.ge _ (by simp)), read_eq h2 (by rw [hl]; exact hb.ge _ (by simp)),
          read_eq h3 (by rw [hl]; exact hb.ge _ (by simp)), read_eq h4 (by rw [hl]; exact hb.ge _ (by simp)),
          read_eq h5 (by rw [hl]; exact hb.ge _ (by simp))]
        rfl

/-- **C113** `linear_interp_two`. -/
theorem linear_interp_two_spec {x X Y Z : Nd F} {d : Nd ℕ} {y : Nd (F × F)} (h : linearInterpTwo x X Y Z d = .ok y) :
    ∃ n, X.shape.getLast? = some n ∧ Y.shape.getLast? = some n ∧ Z.shape.getLast? = some n ∧
      Broadcast [x.shape, X.shape.dropLast, Y.shape.dropLast, Z.shape.dropLast, d.shape] y.shape ∧
      ∀ i jx jX jY jZ jd, Valid y.shape i → Reads x.shape i jx → Reads X.shape.dropLast i jX → Reads Y.shape.dropLast i jY →
        Reads Z.shape.dropLast i jZ → Reads d.shape i jd →
        ppinterp1Two linearCoeffsI (x.get jx) (castAt X n jX) (castAt Y n jY) (castAt Z n jZ) (d.get jd) = some (y.get i) :=
  interpTwoU_ok h

/-- **C113** `pchip_interp_two`. -/
theorem pchip_interp_two_spec {x X Y Z : Nd F} {d : Nd ℕ} {y : Nd (F × F)} (h : pchipInterpTwo x X Y Z d = .ok y) :
    ∃ n, X.shape.getLast? = some n ∧ Y.shape.getLast? = some n ∧ Z.shape.getLast? = some n ∧
      Broadcast [x.shape, X.shape.dropLast, Y.shape.dropLast, Z.shape.dropLast, d.shape] y.shape ∧
      ∀ i jx jX jY jZ jd, Valid y.shape i → Reads x.shape i jx → Reads X.shape.dropLast i jX → Reads Y.shape.dropLast i jY →
        Reads Z.shape.dropLast i jZ → Reads d.shape i jd →
        ppinterp1Two pchipCoeffsI (x.get jx) (castAt X n jX) (castAt Y n jY) (castAt Z n jZ) (d.get jd) = some (y.get i) :=
  interpTwoU_ok h

/-- **C113** `vectorize_eos(eos)`: the result has the broadcast shape, and each entry is `eos` of the entries there. -/
theorem vectorizeEos_spec {eos : F → F → F → Option F} {s t p y : Nd F} (h : vectorizeEos eos s t p = .ok y) :
    Broadcast [s.shape, t.shape, p.shape] y.shape ∧ ∀ i js jt jp, Valid y.shape i → Reads s.shape i js → Reads t.shape i jt →
      Reads p.shape i jp → eos (s.get js) (t.get jt) (p.get jp) = some (y.get i) := by
  obtain ⟨hb, hk⟩ := run_ok h
  refine ⟨hb, fun i js jt jp hi h1 h2 h3 => ?_⟩
  have hl := valid_len hi
  rw [← hk i hi, read_eq h1 (by rw [hl]; exact hb.ge _ (by simp)), read_eq h2 (by rw [hl]; exact hb.ge _ (by simp)),
    read_eq h3 (by rw [hl]; exact hb.ge _ (by simp))]

/-- **C113** `vectorize_eos(eos)` raises only if the shapes do not fit, or if `eos` raises somewhere. -/
theorem vectorizeEos_returns {eos : F → F → F → Option F} {s t p : Nd F} {r : List ℕ}
    (hb : Broadcast [s.shape, t.shape, p.shape] r) (he : ∀ a b c, eos a b c ≠ none) :
    ∃ y, vectorizeEos eos s t p = .ok y ∧ y.shape = r :=
  ⟨_, run_of hb fun _ _ => Option.isSome_iff_ne_none.2 (he _ _ _), rfl⟩

/-- **C115** The documentation of `linear_coeffs` and `pchip_coeffs` allows any dimension of `X` to have length 1. The last one may
not: whatever the data, the call is refused when it differs from that of `Y`. -/
theorem coeffs_singleton_false {coeffs1 : Arr F → Arr F → Option (PPC F)} {m : ℕ} {X Y : Nd F} {h : List ℕ} {n : ℕ}
    (hX : X.shape = h ++ [1]) (hY : Y.shape = h ++ [n]) (hn : n ≠ 1) : coeffsU coeffs1 m X Y = .valueError := by
  rw [coeffsU_refuses]
  rintro ⟨n', c, h1, h2, -⟩
  rw [hX] at h1
  rw [hY] at h2
  simp at h1 h2
  omega

/-! ## Examples -/

/-- pressures of three levels, for a 2 × 1 array of casts -/
def demoX : Nd (Fl ℚ) := ⟨[3], fun i => .fin (i.getD 0 0)⟩
def demoY : Nd (Fl ℚ) := ⟨[2, 1, 3], fun i => .fin (10 * (i.getD 0 0) + (i.getD 2 0) ^ 2)⟩
def demox : Nd (Fl ℚ) := ⟨[2], fun i => .fin (1 / 2 + i.getD 0 0)⟩
def demod : Nd ℕ := ⟨[], fun _ => 0⟩

/-- A case of C113 and of C114: two evaluation sites for each of two casts. -/
example : (match linearInterp demox demoX demoY demod with
    | .ok y => decide (y.shape = [2, 2] ∧ y.get [1, 0] = .fin (21 / 2) ∧ y.get [1, 1] = .fin (25 / 2))
    | _ => false) = true := by decide +kernel

example : (match pchipCoeffs demoX demoY with
    | .ok C => decide (C.shape = [2, 1, 3, 4])
    | _ => false) = true := by decide +kernel

example : (match vectorizeEos (fun s t p => some (s + t * p)) demox ⟨[], fun _ => .fin 2⟩ demox with
    | .ok y => decide (y.shape = [2] ∧ y.get [1] = .fin (9 / 2))
    | _ => false) = true := by decide +kernel

/-- Hypotheses of C115. -/
example : coeffsU (fun X Y => some (linearCoeffs1 X Y)) 2 (⟨[2, 1], fun _ => .fin 0⟩ : Nd (Fl ℚ)) ⟨[2, 3], fun _ => .fin 0⟩ = .valueError :=
  coeffs_singleton_false (h := [2]) rfl rfl (by norm_num)

end Gufunc
