import Verif.Model.Cache
import Mathlib.Data.List.Nodup
import Mathlib.Data.List.Perm.Subperm

/-! # Caches are invisible, for every history and every interleaving of threads (C109, C110) -/

namespace Cache

variable {K V E : Type*} [DecidableEq K]

/-- Every entry is a value of the function. -/
def Sound (f : K → Except E V) (l : List (K × V)) : Prop := ∀ e ∈ l, f e.1 = .ok e.2

theorem lookup_mem {l : List (K × V)} {k : K} {v : V} (h : lookup l k = some v) : (k, v) ∈ l := by
  unfold lookup at h
  obtain ⟨e, he, rfl⟩ := Option.map_eq_some_iff.1 h
  have h1 := List.mem_of_find?_eq_some he
  have h2 : e.1 = k := by simpa using List.find?_some he
  rw [← h2]; exact h1

theorem lookup_none {l : List (K × V)} {k : K} : lookup l k = none ↔ ∀ e ∈ l, e.1 ≠ k := by
  unfold lookup
  rw [Option.map_eq_none_iff, List.find?_eq_none]
  simp

theorem Sound.touch {f : K → Except E V} {l : List (K × V)} (h : Sound f l) {k : K} {v : V} (hv : lookup l k = some v) :
    Sound f (touch l k v) := by
  intro e he
  unfold Cache.touch at he
  rcases List.mem_cons.1 he with rfl | he
  · exact h _ (lookup_mem hv)
  · exact h e (List.mem_filter.1 he).1

theorem Sound.insert {f : K → Except E V} {l : List (K × V)} (h : Sound f l) {max : ℕ} {k : K} {v : V} (hv : f k = .ok v) :
    Sound f (insert max l k v) := by
  intro e he
  rcases List.mem_cons.1 (List.mem_of_mem_take he) with rfl | he
  · exact hv
  · exact h e he

/-- No key occurs twice, and there are at most `max` entries. -/
def Tidy (max : ℕ) (l : List (K × V)) : Prop := (l.map Prod.fst).Nodup ∧ l.length ≤ max

theorem keys_filter (l : List (K × V)) (k : K) : ((l.filter fun e => e.1 ≠ k).map Prod.fst) = (l.map Prod.fst).filter (· ≠ k) := by
  rw [List.filter_map]; rfl

theorem Tidy.touch {max : ℕ} {l : List (K × V)} (h : Tidy max l) {k : K} {v : V} (hv : lookup l k = some v) : Tidy max (touch l k v) := by
  refine ⟨?_, ?_⟩
  · rw [Cache.touch, List.map_cons, keys_filter]
    exact List.nodup_cons.2 ⟨by simp, h.1.filter _⟩
  · have : (l.filter fun e => e.1 ≠ k).length < l.length := by
      rw [List.length_filter_lt_length_iff_exists]
      exact ⟨(k, v), lookup_mem hv, by simp⟩
    have := h.2
    simp only [Cache.touch, List.length_cons]
    omega

theorem Tidy.insert {max : ℕ} {l : List (K × V)} (h : Tidy max l) {k : K} {v : V} (hv : lookup l k = none) : Tidy max (insert max l k v) := by
  refine ⟨?_, ?_⟩
  · rw [Cache.insert, List.map_take]
    refine List.Nodup.sublist (List.take_sublist _ _) ?_
    rw [List.map_cons, List.nodup_cons]
    refine ⟨?_, h.1⟩
    rw [List.mem_map]
    rintro ⟨e, he, rfl⟩
    exact lookup_none.1 hv e he rfl
  · rw [Cache.insert, List.length_take]; omega

theorem call_spec (max : ℕ) (f : K → Except E V) (k : K) (c : Lru K V) (hs : Sound f c.entries) :
    (call max f k c).1 = f k ∧ Sound f (call max f k c).2.entries := by
  unfold call
  split
  · rename_i v h
    exact ⟨(hs _ (lookup_mem h)).symm, hs.touch h⟩
  · split
    · rename_i v h
      exact ⟨h.symm, hs.insert h⟩
    · rename_i e h
      exact ⟨h.symm, hs⟩

theorem call_tidy (max : ℕ) (f : K → Except E V) (k : K) (c : Lru K V) (h : Tidy max c.entries) :
    Tidy max (call max f k c).2.entries := by
  unfold call
  split
  · rename_i v hv
    exact h.touch hv
  · rename_i hv
    split
    · exact h.insert hv
    · exact h

theorem calls_from (max : ℕ) (f : K → Except E V) : ∀ (ks : List K) (c : Lru K V), Sound f c.entries → Tidy max c.entries →
    (calls max f ks c).1 = ks.map f ∧ Sound f (calls max f ks c).2.entries ∧ Tidy max (calls max f ks c).2.entries := by
  intro ks
  induction ks with
  | nil => intro c hs ht; exact ⟨rfl, hs, ht⟩
  | cons k ks ih =>
    intro c hs ht
    obtain ⟨h1, h2⟩ := call_spec max f k c hs
    obtain ⟨h3, h4⟩ := ih _ h2 (call_tidy max f k c ht)
    exact ⟨by simp only [calls, h1, h3, List.map_cons], h4⟩

/-- **C109.** Caching is invisible: in every history of calls since the program started, every call returns, or raises, what the
function without cache does; and the cache never holds more than `max` results. -/
theorem calls_spec (max : ℕ) (f : K → Except E V) (ks : List K) :
    (calls max f ks Lru.empty).1 = ks.map f ∧ (calls max f ks Lru.empty).2.entries.length ≤ max := by
  obtain ⟨h1, _, h2⟩ := calls_from max f ks Lru.empty (by intro e he; cases he) ⟨List.nodup_nil, Nat.zero_le _⟩
  exact ⟨h1, h2.2⟩

/-- **C109, for threads.** In every execution of any number of threads, with any interleaving, every finished call has the result of the
function without cache; and the cache never holds more than `max` results, nor two for one key. -/
theorem conc_spec (max : ℕ) (f : K → Except E V) {s : Conc K V E} (h : Reachable max f s) :
    (∀ d ∈ s.done, d.2.2 = f d.2.1) ∧ s.entries.length ≤ max ∧ (s.entries.map Prod.fst).Nodup := by
  have key : (∀ d ∈ s.done, d.2.2 = f d.2.1) ∧ Sound f s.entries ∧ Tidy max s.entries := by
    induction h with
    | start => exact ⟨by simp, fun e he => (nomatch he), List.nodup_nil, Nat.zero_le _⟩
    | step _ hs ih =>
      obtain ⟨h1, h2, h3⟩ := ih
      cases hs with
      | hit t k v h =>
        refine ⟨?_, h2.touch h, h3.touch h⟩
        intro d hd
        rcases List.mem_cons.1 hd with rfl | hd
        · exact (h2 _ (lookup_mem h)).symm
        · exact h1 d hd
      | miss => exact ⟨h1, h2, h3⟩
      | store t k v h hf =>
        refine ⟨?_, ?_, ?_⟩
        · intro d hd
          rcases List.mem_cons.1 hd with rfl | hd
          · exact hf.symm
          · exact h1 d hd
        · dsimp only
          split_ifs
          · exact h2
          · exact h2.insert hf
        · dsimp only
          split_ifs with hl
          · exact h3
          · exact h3.insert (by simpa using hl)
      | raised t k e h hf =>
        refine ⟨?_, h2, h3⟩
        intro d hd
        rcases List.mem_cons.1 hd with rfl | hd
        · exact hf.symm
        · exact h1 d hd
  exact ⟨key.1, key.2.2.2, key.2.2.1⟩

/-- **C109.** Calls that raise are not remembered: in every history, the function runs again each time it is called with a key on
which it raises, once per call. -/
theorem calls_error (max : ℕ) (f : K → Except E V) {k : K} {e : E} (he : f k = .error e) (ks : List K) :
    (calls max f ks Lru.empty).2.computed.count k = ks.count k := by
  have key : ∀ (ks : List K) (c : Lru K V), Sound f c.entries →
      (calls max f ks c).2.computed.count k = c.computed.count k + ks.count k := by
    intro ks
    induction ks with
    | nil => intro c _; rfl
    | cons x ks ih =>
      intro c hs
      have h := ih _ (call_spec max f x c hs).2
      have hx : (call max f x c).2.computed.count k = c.computed.count k + if x = k then 1 else 0 := by
        unfold call
        split
        · rename_i v hv
          have : x ≠ k := by
            rintro rfl
            have := hs _ (lookup_mem hv)
            rw [he] at this; cases this
          simp [this]
        · split
          · rename_i v hv
            have : x ≠ k := by
              rintro rfl
              rw [he] at hv; cases hv
            simp [this]
          · simp only [List.count_cons, beq_iff_eq]
      simp only [calls] at h ⊢
      rw [h, hx, List.count_cons]
      simp only [beq_iff_eq]
      omega
  have := key ks Lru.empty (by intro e he; cases he)
  simpa [Lru.empty] using this

example : (calls 10 (fun k : ℕ => if k = 3 then .error "x" else .ok (k + 1)) [3, 1, 3, 1] Lru.empty).2.computed = [3, 1, 3] := by
  decide

/-! ## C110: what stays in the cache -/

/-- `k` is in the cache, behind entries with keys in `D` only. -/
def Behind (k : K) (D : List K) (l : List (K × V)) : Prop :=
  ∃ pre v post, l = pre ++ (k, v) :: post ∧ (∀ e ∈ pre, e.1 ∈ D) ∧ (l.map Prod.fst).Nodup

theorem Behind.step {max : ℕ} (f : K → Except E V) {k k' : K} {D : List K} {c : Lru K V} (h : Behind k D c.entries) (hk : k' ≠ k)
    (hm : k' ∈ D) (hlen : D.length < max) (ht : Tidy max c.entries) :
    Behind k D (call max f k' c).2.entries := by
  obtain ⟨pre, v, post, hl, hp, hn⟩ := h
  have hn' := (call_tidy max f k' c ht).1
  unfold call at hn' ⊢
  split
  · rename_i w hw
    rw [hw] at hn'
    refine ⟨(k', w) :: pre.filter (fun e => e.1 ≠ k'), v, post.filter fun e => e.1 ≠ k', ?_, ?_, hn'⟩
    · simp only [touch, hl, List.filter_append, List.cons_append]
      rw [List.filter_cons_of_pos (by simpa using hk.symm)]
    · intro e he
      rcases List.mem_cons.1 he with rfl | he
      · exact hm
      · exact hp e (List.mem_filter.1 he).1
  · rename_i hw
    rw [hw] at hn'
    split
    · rename_i w hf
      rw [hf] at hn'
      dsimp only at hn' ⊢
      have hpre : pre.length + 1 ≤ D.length := by
        have hnd : (k' :: pre.map Prod.fst).Nodup := by
          rw [List.nodup_cons]
          constructor
          · rw [List.mem_map]
            rintro ⟨e, he, rfl⟩
            exact lookup_none.1 hw e (by rw [hl]; exact List.mem_append_left _ he) rfl
          · rw [hl, List.map_append] at hn
            exact (List.nodup_append.1 hn).1
        have hsub : (k' :: pre.map Prod.fst) ⊆ D := by
          intro x hx
          rcases List.mem_cons.1 hx with rfl | hx
          · exact hm
          · obtain ⟨e, he, rfl⟩ := List.mem_map.1 hx
            exact hp e he
        have := (List.subperm_of_subset hnd hsub).length_le
        simpa using this
      have hins : insert max c.entries k' w = ((k', w) :: pre) ++ (k, v) :: post.take (max - pre.length - 2) := by
        rw [insert, hl, ← List.cons_append, List.take_append, List.take_of_length_le (by simp; omega)]
        congr 1
        have : max - ((k', w) :: pre).length = (max - pre.length - 2) + 1 := by simp; omega
        rw [this, List.take_succ_cons]
      refine ⟨(k', w) :: pre, v, _, hins, ?_, hn'⟩
      intro e he
      rcases List.mem_cons.1 he with rfl | he
      · exact hm
      · exact hp e he
    · exact ⟨pre, v, post, hl, hp, hn⟩

theorem Behind.calls {max : ℕ} (f : K → Except E V) {k : K} {D : List K} (hkD : k ∉ D) (hlen : D.length < max) :
    ∀ (ks : List K) (c : Lru K V), (∀ x ∈ ks, x ∈ D) → Behind k D c.entries → Tidy max c.entries →
      Behind k D (calls max f ks c).2.entries := by
  intro ks
  induction ks with
  | nil => intro c _ h _; exact h
  | cons x ks ih =>
    intro c hks h ht
    have hx := hks x List.mem_cons_self
    refine ih _ (fun y hy => hks y (List.mem_cons_of_mem _ hy)) ?_ (call_tidy max f x c ht)
    exact h.step f (fun e => hkD (e ▸ hx)) hx hlen ht

theorem call_behind {max : ℕ} (f : K → Except E V) {k : K} {v : V} (hv : f k = .ok v) {c : Lru K V} (ht : Tidy max c.entries) (hm : 0 < max) :
    Behind k [] (call max f k c).2.entries := by
  have hn := (call_tidy max f k c ht).1
  unfold call at hn ⊢
  split
  · rename_i w hw
    rw [hw] at hn
    exact ⟨[], w, _, rfl, by simp, hn⟩
  · rename_i hw
    rw [hw, hv] at hn
    rw [hv]
    dsimp only at hn ⊢
    obtain ⟨m, rfl⟩ : ∃ m, max = m + 1 := ⟨max - 1, by omega⟩
    exact ⟨[], v, _, by rw [insert, List.take_succ_cons]; rfl, by simp, hn⟩

theorem calls_append {max : ℕ} (f : K → Except E V) : ∀ (ks ks' : List K) (c : Lru K V),
    (calls max f (ks ++ ks') c).2 = (calls max f ks' (calls max f ks c).2).2 := by
  intro ks
  induction ks with
  | nil => intro ks' c; rfl
  | cons k ks ih => intro ks' c; exact ih ks' _

/-- **C110.** In every history, a repeated call is not computed again if the calls since its last occurrence were for fewer than `max`
distinct other keys: equations of state, interpolants and solvers are not compiled anew. -/
theorem not_recomputed (max : ℕ) (f : K → Except E V) (before between D : List K) (k : K) (v : V) (hv : f k = .ok v)
    (hkD : k ∉ D) (hlen : D.length < max) (hb : ∀ x ∈ between, x ∈ D) :
    let c := (calls max f (before ++ k :: between) Lru.empty).2
    (call max f k c).2.computed = c.computed := by
  intro c
  obtain ⟨_, _, ht⟩ := calls_from max f before Lru.empty (by intro e he; cases he) ⟨List.nodup_nil, Nat.zero_le _⟩
  have h1 := call_behind f hv ht (by omega)
  have h2 : Behind k D (call max f k (calls max f before Lru.empty).2).2.entries := by
    obtain ⟨pre, w, post, e1, e2, e3⟩ := h1
    exact ⟨pre, w, post, e1, fun e he => (nomatch e2 e he), e3⟩
  have h3 : Behind k D c.entries := by
    have hc : c = (calls max f between (call max f k (calls max f before Lru.empty).2).2).2 := by
      show (calls max f (before ++ k :: between) Lru.empty).2 = _
      rw [calls_append]
      rfl
    rw [hc]
    exact h2.calls f hkD hlen between _ hb (call_tidy max f k _ ht)
  obtain ⟨pre, w, post, e1, _, _⟩ := h3
  have : lookup c.entries k ≠ none := by
    intro h
    exact lookup_none.1 h (k, w) (by rw [e1]; simp) rfl
  obtain ⟨u, hu⟩ := Option.ne_none_iff_exists'.1 this
  simp only [call, hu]

/-- With `max` other keys in between it is computed again. -/
theorem recomputed_example : let f : ℕ → Except Unit ℕ := fun n => .ok n
    (calls 10 f ([0] ++ (List.range 10).map (· + 1) ++ [0]) Lru.empty).2.computed.count 0 = 2 ∧
    (calls 10 f ([0] ++ (List.range 9).map (· + 1) ++ [0]) Lru.empty).2.computed.count 0 = 1 := by decide +kernel

/-- A call that raises is not kept: an unknown `ans_type` raises `NameError` every time, and the others get their own solver. -/
theorem makeVertsolve_history {A B : Type*} [DecidableEq A] [DecidableEq B] (ks : List (A × B × String)) :
    (calls 10 makeVertsolve ks Lru.empty).1 = ks.map fun k =>
      (match [("omega", Solver.omega), ("potential", .potential), ("anomaly", .anomaly)].lookup k.2.2 with
        | some s => .ok (k.1, k.2.1, s)
        | none => .error ()) := by
  rw [(calls_spec 10 makeVertsolve ks).1]
  apply List.map_congr_left
  rintro ⟨a, b, ty⟩ _
  unfold makeVertsolve
  by_cases h1 : ty = "omega"
  · subst h1; rfl
  by_cases h2 : ty = "potential"
  · subst h2; rfl
  by_cases h3 : ty = "anomaly"
  · subst h3; rfl
  simp [List.lookup, h1, h2, h3, beq_false_of_ne]

/-- Two threads that miss the same key at the same time: both get the value, and it is kept once. -/
example : Reachable 10 (fun n : ℕ => (.ok (n + 1) : Except Unit ℕ)) ⟨[(5, 6)], [], [(1, 5, .ok 6), (0, 5, .ok 6)]⟩ := by
  have h0 : Reachable 10 (fun n : ℕ => (.ok (n + 1) : Except Unit ℕ)) ⟨[], [], []⟩ := .start
  have h1 := h0.step (.miss _ 0 5 rfl)
  have h2 := h1.step (.miss _ 1 5 rfl)
  have h3 := h2.step (.store _ 0 5 6 (by simp) rfl)
  have h4 := h3.step (.store _ 1 5 6 (by decide) rfl)
  exact h4

end Cache
