import Mathlib.Data.List.GetD
import Verif.Lemmas.OmegaMat

/-! # The global matrix problems of omega surfaces (C45, C46, C77) -/

namespace OmegaMat
open FloatLike Finset
open Fl hiding nan

set_option linter.unusedSectionVars false

variable {α : Type*} [Field α] [LinearOrder α] [IsStrictOrderedRing α]

/-! ## Specification -/

/-- The edges with both ends in the region `m`; an edge is given with its weight. -/
def inner (E : List ((ℕ × ℕ) × α)) (m : List ℕ) : List ((ℕ × ℕ) × α) := E.filter fun x => decide (x.1.1 ∈ m ∧ x.1.2 ∈ m)

/-- The corrected error on an edge: moving the surface so that its density changes by `φ`. -/
def corr (ε : ℕ × ℕ → α) (φ : ℕ → α) (x : ℕ × ℕ) : α := ε x + φ x.2 - φ x.1

/-- The Poisson equation: at every cast of the region, the weighted corrected errors flowing out balance those flowing in. -/
def Balanced (E : List ((ℕ × ℕ) × α)) (m : List ℕ) (ε : ℕ × ℕ → α) (φ : ℕ → α) : Prop :=
  ∀ n ∈ m, ((inner E m).map fun x => if x.1.1 = n then x.2 * corr ε φ x.1 else 0).sum =
    ((inner E m).map fun x => if x.1.2 = n then x.2 * corr ε φ x.1 else 0).sum

/-- The weighted sum of squares of corrected errors. -/
def cost (E : List ((ℕ × ℕ) × α)) (m : List ℕ) (ε : ℕ × ℕ → α) (φ : ℕ → α) : α :=
  ((inner E m).map fun x => x.2 * corr ε φ x.1 ^ 2).sum

/-- two casts of the region joined by an edge -/
def Joined (E : List ((ℕ × ℕ) × α)) (m : List ℕ) (i j : ℕ) : Prop :=
  i ∈ m ∧ j ∈ m ∧ ∃ x ∈ E, x.1 = (i, j) ∨ x.1 = (j, i)

/-- A region on which the problem is posed: distinct casts, connected to the reference cast, positive weights, and finite
errors `ε` on its edges. -/
structure Region (E : List ((ℕ × ℕ) × α)) (m : List ℕ) (mref : ℕ) (eos : Ntp.EosST (Fl α)) (s t p : ℕ → Fl α)
    (ε : ℕ × ℕ → α) : Prop where
  nodup : m.Nodup
  ref : mref ∈ m
  two : 2 ≤ m.length
  pos : ∀ x ∈ inner E m, 0 < x.2
  conn : ∀ n ∈ m, Relation.ReflTransGen (Joined E m) mref n
  err : ∀ x ∈ inner E m, Ntp.epsErr eos s t p x.1 = .fin (ε x.1)

/-- An exact solver of square systems: on a system with exactly one solution it returns it. -/
def ExactSolve (spsolve : ℕ → (ℕ → ℕ → Fl α) → (ℕ → Fl α) → ℕ → Fl α) : Prop :=
  ∀ (N : ℕ) (L : ℕ → ℕ → α) (D x : ℕ → α), (∀ r < N, ∑ c ∈ range N, L r c * x c = D r) →
    (∀ y : ℕ → α, (∀ r < N, ∑ c ∈ range N, L r c * y c = D r) → ∀ r < N, y r = x r) →
    ∀ r < N, spsolve N (fun r c => .fin (L r c)) (fun i => .fin (D i)) r = .fin (x r)

/-- residual sum of squares -/
def rss (R C : ℕ) (M : ℕ → ℕ → α) (b x : ℕ → α) : α := ∑ k ∈ range R, (∑ c ∈ range C, M k c * x c - b k) ^ 2

/-- An exact least squares solver: when there is exactly one minimiser it returns it. -/
def ExactLsqr (lsqr : ℕ → ℕ → (ℕ → ℕ → Fl α) → (ℕ → Fl α) → ℕ → Fl α) : Prop :=
  ∀ (R C : ℕ) (M : ℕ → ℕ → α) (b x : ℕ → α), (∀ y, rss R C M b x ≤ rss R C M b y) →
    (∀ y, rss R C M b y = rss R C M b x → ∀ c < C, y c = x c) →
    ∀ c < C, lsqr R C (fun r c => .fin (M r c)) (fun i => .fin (b i)) c = .fin (x c)

/-! ## Labels -/

theorem fold_idx {A : Type*} (g : ℕ → A) (m : List ℕ) : ∀ (n : ℕ) (r0 : ℕ → A), m.Nodup → ∀ x,
    (m.zipIdx n).foldl (fun r x => Function.update r x.1 (g x.2)) r0 x = if x ∈ m then g (n + m.idxOf x) else r0 x := by
  induction m with
  | nil => intro n r0 _ x; simp
  | cons y m ih =>
    intro n r0 h x
    rw [List.zipIdx_cons, List.foldl_cons, ih _ _ (List.nodup_cons.1 h).2]
    by_cases hx : x = y
    · subst hx
      rw [if_neg (List.nodup_cons.1 h).1, if_pos List.mem_cons_self, Function.update_self, List.idxOf_cons_self, Nat.add_zero]
    · rw [Function.update_of_ne hx]
      by_cases hm : x ∈ m
      · rw [if_pos hm, if_pos (List.mem_cons_of_mem _ hm), List.idxOf_cons_ne _ (Ne.symm hx)]
        congr 1; omega
      · rw [if_neg hm, if_neg (by simp [hx, hm])]

theorem remap_eq {m : List ℕ} (h : m.Nodup) (x : ℕ) : remap m x = if x ∈ m then (m.idxOf x : ℤ) else -1 := by
  unfold remap
  rw [fold_idx (fun i => (i : ℤ)) m 0 _ h, Nat.zero_add]

theorem scatter_eq {F : Type*} [FloatLike F] {m : List ℕ} (h : m.Nodup) (sol : ℕ → F) (x : ℕ) :
    scatter m sol x = if x ∈ m then sol (m.idxOf x) else nan := by
  unfold scatter
  rw [fold_idx sol m 0 _ h, Nat.zero_add]

/-- the rows of the problem -/
def rowsOf (E : List ((ℕ × ℕ) × α)) (m : List ℕ) (ε : ℕ × ℕ → α) : List (Row α) :=
  (inner E m).map fun x => ⟨m.idxOf x.1.1, m.idxOf x.1.2, ε x.1 * x.2, x.2⟩

variable {E : List ((ℕ × ℕ) × α)} {m : List ℕ} {mref : ℕ} {eos : Ntp.EosST (Fl α)} {s t p : ℕ → Fl α} {ε : ℕ × ℕ → α}

theorem mem_inner {x : (ℕ × ℕ) × α} (h : x ∈ inner E m) : x ∈ E ∧ x.1.1 ∈ m ∧ x.1.2 ∈ m := by
  unfold inner at h
  have := List.mem_filter.1 h
  exact ⟨this.1, of_decide_eq_true this.2⟩

theorem helper_eq (hm : m.Nodup) (herr : ∀ x ∈ inner E m, Ntp.epsErr eos s t p x.1 = .fin (ε x.1)) :
    helper eos s t p (E.map Prod.fst) (.arr (E.map fun x => .fin x.2)) m = (rowsOf E m ε).map toFl := by
  have e : (E.map Prod.fst).zip (E.map fun x => (Fl.fin x.2 : Fl α)) = E.map fun x => (x.1, .fin x.2) := by
    rw [List.zip_map']
  unfold helper rowsOf
  dsimp only
  rw [e, List.filter_map, List.map_map, List.map_map]
  have hf : (E.filter ((fun x : (ℕ × ℕ) × Fl α => decide (0 ≤ remap m x.1.1) && decide (0 ≤ remap m x.1.2)) ∘
      fun x => (x.1, Fl.fin x.2))) = inner E m := by
    unfold inner
    apply List.filter_congr
    intro x _
    simp only [Function.comp_apply, remap_eq hm]
    by_cases h1 : x.1.1 ∈ m <;> by_cases h2 : x.1.2 ∈ m <;> simp [h1, h2]
  rw [hf]
  apply List.map_congr_left
  intro x hx
  obtain ⟨_, h1, h2⟩ := mem_inner hx
  simp only [Function.comp_apply, remap_eq hm, if_pos h1, if_pos h2, herr x hx, toFl, Int.toNat_natCast, lit_eq, Rat.cast_one]
  rw [fin_div _ _ one_ne_zero, div_one, fin_mul]

theorem rows_lt : ∀ k ∈ rowsOf E m ε, k.a < m.length ∧ k.b < m.length := by
  intro k hk
  obtain ⟨x, hx, rfl⟩ := List.mem_map.1 hk
  obtain ⟨_, h1, h2⟩ := mem_inner hx
  exact ⟨List.idxOf_lt_length_of_mem h1, List.idxOf_lt_length_of_mem h2⟩

theorem rows_pos (h : ∀ x ∈ inner E m, 0 < x.2) : ∀ k ∈ rowsOf E m ε, 0 < k.w := by
  intro k hk
  obtain ⟨x, hx, rfl⟩ := List.mem_map.1 hk
  exact h x hx

theorem rows_conn (hm : m.Nodup) (hconn : ∀ n ∈ m, Relation.ReflTransGen (Joined E m) mref n) :
    Conn (rowsOf E m ε) m.length (m.idxOf mref) := by
  intro i hi
  have h := hconn m[i] (List.getElem_mem hi)
  have key : ∀ n, Relation.ReflTransGen (Joined E m) mref n →
      Relation.ReflTransGen (Adj (rowsOf E m ε)) (m.idxOf mref) (m.idxOf n) := by
    intro n hn
    induction hn with
    | refl => exact .refl
    | tail _ h2 ih =>
      refine ih.tail ?_
      obtain ⟨hi, hj, x, hx, h⟩ := h2
      rcases h with h | h
      · have hx' : x ∈ inner E m := List.mem_filter.2 ⟨hx, by rw [h]; simp [hi, hj]⟩
        exact ⟨_, List.mem_map.2 ⟨x, hx', rfl⟩, Or.inl (by rw [h]; exact ⟨rfl, rfl⟩)⟩
      · have hx' : x ∈ inner E m := List.mem_filter.2 ⟨hx, by rw [h]; simp [hi, hj]⟩
        exact ⟨_, List.mem_map.2 ⟨x, hx', rfl⟩, Or.inr (by rw [h]; exact ⟨rfl, rfl⟩)⟩
  have := key _ h
  rwa [hm.idxOf_getElem] at this

theorem refOf_eq (hm : m.Nodup) (h : mref ∈ m) : refOf m mref = m.idxOf mref := by
  unfold refOf
  rw [remap_eq hm, if_pos h, if_neg (by omega), Int.toNat_natCast]

/-- values on casts as a vector in the labels of the region -/
def vec (m : List ℕ) (φ : ℕ → α) (i : ℕ) : α := φ (m.getD i 0)

theorem vec_idx (φ : ℕ → α) {n : ℕ} (h : n ∈ m) : vec m φ (m.idxOf n) = φ n := by
  unfold vec
  rw [List.getD_eq_getElem _ _ (List.idxOf_lt_length_of_mem h), List.getElem_idxOf]

theorem idx_eq {x n : ℕ} (hx : x ∈ m) : m.idxOf x = m.idxOf n ↔ x = n := by
  constructor
  · intro h; exact (List.idxOf_inj hx).1 h
  · rintro rfl; rfl

/-- The Poisson equation in both labellings. -/
theorem balanced_iff (hm : m.Nodup) (φ : ℕ → α) :
    Balanced E m ε φ ↔ ∀ r < m.length, lap (rowsOf E m ε) (vec m φ) r = div (rowsOf E m ε) r := by
  have key : ∀ n ∈ m, (lap (rowsOf E m ε) (vec m φ) (m.idxOf n) - div (rowsOf E m ε) (m.idxOf n)) =
      ((inner E m).map fun x => if x.1.2 = n then x.2 * corr ε φ x.1 else 0).sum -
      ((inner E m).map fun x => if x.1.1 = n then x.2 * corr ε φ x.1 else 0).sum := by
    intro n hn
    unfold lap div rowsOf
    rw [List.map_map, List.map_map]
    have : ∀ l : List ((ℕ × ℕ) × α), (∀ x ∈ l, x.1.1 ∈ m ∧ x.1.2 ∈ m) →
        (l.map ((fun k : Row α => (if k.a = m.idxOf n then k.w * (vec m φ k.a - vec m φ k.b) else 0) +
          (if k.b = m.idxOf n then k.w * (vec m φ k.b - vec m φ k.a) else 0)) ∘
          fun x => (⟨m.idxOf x.1.1, m.idxOf x.1.2, ε x.1 * x.2, x.2⟩ : Row α))).sum -
        (l.map ((fun k : Row α => (if k.a = m.idxOf n then k.e else 0) - (if k.b = m.idxOf n then k.e else 0)) ∘
          fun x => (⟨m.idxOf x.1.1, m.idxOf x.1.2, ε x.1 * x.2, x.2⟩ : Row α))).sum =
        (l.map fun x => if x.1.2 = n then x.2 * corr ε φ x.1 else 0).sum -
        (l.map fun x => if x.1.1 = n then x.2 * corr ε φ x.1 else 0).sum := by
      intro l
      induction l with
      | nil => simp
      | cons x l ih =>
        intro hl
        have ih := ih fun y hy => hl y (List.mem_cons_of_mem _ hy)
        obtain ⟨h1, h2⟩ := hl x List.mem_cons_self
        simp only [List.map_cons, List.sum_cons, Function.comp_apply, idx_eq h1, idx_eq h2, vec_idx φ h1, vec_idx φ h2] at ih ⊢
        unfold corr at ih ⊢
        split_ifs <;> linear_combination ih
    exact this _ fun x hx => (mem_inner hx).2
  constructor
  · intro h r hr
    have := key m[r] (List.getElem_mem hr)
    rw [hm.idxOf_getElem, h _ (List.getElem_mem hr), sub_self] at this
    exact sub_eq_zero.1 this
  · intro h n hn
    have := key n hn
    rw [h _ (List.idxOf_lt_length_of_mem hn), sub_self] at this
    exact (sub_eq_zero.1 this.symm).symm

/-- Existence and uniqueness of the pinned solution of the Poisson equation. -/
theorem balanced_unique (H : Region E m mref eos s t p ε) :
    ∃ φ : ℕ → α, φ mref = 0 ∧ Balanced E m ε φ ∧
      (∀ r < m.length, pinned (rowsOf E m ε) (m.idxOf mref) (vec m φ) r = div (rowsOf E m ε) r) ∧
      ∀ ψ, Balanced E m ε ψ → ψ mref = 0 → ∀ n ∈ m, ψ n = φ n := by
  have hR := rows_lt (E := E) (m := m) (ε := ε)
  have hw := rows_pos (ε := ε) H.pos
  have hc := rows_conn (ε := ε) H.nodup H.conn
  have href : m.idxOf mref < m.length := List.idxOf_lt_length_of_mem H.ref
  obtain ⟨x, hx⟩ := pinned_surj hR hw href hc (div (rowsOf E m ε))
  have h0 := pinned_ref_zero hR href x hx
  have hv : ∀ i < m.length, vec m (fun n => x (m.idxOf n)) i = x i := by
    intro i hi
    unfold vec
    dsimp only
    rw [List.getD_eq_getElem _ _ hi, H.nodup.idxOf_getElem]
  have hp : ∀ r < m.length, pinned (rowsOf E m ε) (m.idxOf mref) (vec m fun n => x (m.idxOf n)) r = div (rowsOf E m ε) r := by
    intro r hr
    rw [pinned_congr hR href hv, hx r hr]
  refine ⟨fun n => x (m.idxOf n), h0, ?_, hp, ?_⟩
  · rw [balanced_iff H.nodup]
    intro r hr
    have := hp r hr
    unfold pinned at this
    rw [vec_idx _ H.ref, h0] at this
    simpa using this
  · intro ψ hψ hψ0 n hn
    rw [balanced_iff H.nodup] at hψ
    have : ∀ r < m.length, pinned (rowsOf E m ε) (m.idxOf mref) (fun i => -1 * x i + vec m ψ i) r = 0 := by
      intro r hr
      rw [pinned_lin, hx r hr]
      unfold pinned
      rw [hψ r hr, vec_idx _ H.ref, hψ0]
      simp
    have := pinned_inj hR hw href hc _ this (m.idxOf n) (List.idxOf_lt_length_of_mem hn)
    rw [vec_idx _ hn] at this
    linear_combination this

/-- **C45.** With an exact solver, `_omega_matsolve_poisson` returns the function that vanishes at the reference cast and
balances the corrected errors at every cast of the region (the Poisson equation, without the pinning entry), NaN elsewhere;
and there is only one such function. -/
theorem poisson_spec (H : Region E m mref eos s t p ε) {spsolve : ℕ → (ℕ → ℕ → Fl α) → (ℕ → Fl α) → ℕ → Fl α}
    (hs : ExactSolve spsolve) :
    ∃ φ : ℕ → α, poisson spsolve eos s t p (E.map Prod.fst) (.arr (E.map fun x => .fin x.2)) m mref =
        .ok (fun n => if n ∈ m then .fin (φ n) else nan) ∧
      φ mref = 0 ∧ Balanced E m ε φ ∧ ∀ ψ, Balanced E m ε ψ → ψ mref = 0 → ∀ n ∈ m, ψ n = φ n := by
  obtain ⟨φ, h1, h2, h3, h4⟩ := balanced_unique H
  refine ⟨φ, ?_, h1, h2, h4⟩
  have hR := rows_lt (E := E) (m := m) (ε := ε)
  have hw := rows_pos (ε := ε) H.pos
  have hc := rows_conn (ε := ε) H.nodup H.conn
  have href : m.idxOf mref < m.length := List.idxOf_lt_length_of_mem H.ref
  obtain ⟨D, L, e1, e2, e3⟩ := poissonSystem_exact (rowsOf E m ε) m.length (m.idxOf mref) hR href
  unfold poisson
  rw [if_neg (by have := H.two; omega), helper_eq H.nodup H.err, refOf_eq H.nodup H.ref, e1]
  have hsol := hs m.length L D (vec m φ) (fun r hr => by rw [e3 _ r hr, h3 r hr, e2]) (by
    intro y hy r hr
    have : ∀ r < m.length, pinned (rowsOf E m ε) (m.idxOf mref) (fun i => -1 * vec m φ i + y i) r = 0 := by
      intro r hr
      rw [pinned_lin, h3 r hr, ← e3 y r hr, hy r hr, e2]; ring
    have := pinned_inj hR hw href hc _ this r hr
    linear_combination this)
  show Res.ok _ = Res.ok _
  congr 1
  funext n
  by_cases hn : n = mref
  · subst hn
    rw [Function.update_self, if_pos H.ref, h1, lit_eq, Rat.cast_zero]
  · rw [Function.update_of_ne hn, scatter_eq H.nodup]
    by_cases hm : n ∈ m
    · rw [if_pos hm, if_pos hm, hsol _ (List.idxOf_lt_length_of_mem hm), vec_idx _ hm]
    · rw [if_neg hm, if_neg hm]

/-- **C45.** A region of a single cast: the correction is zero there, and no errors or matrices matter. -/
theorem poisson_single {F : Type*} [FloatLike F] (spsolve : ℕ → (ℕ → ℕ → F) → (ℕ → F) → ℕ → F) (eos : Ntp.EosST F)
    (s t p : ℕ → F) (edges : List (ℕ × ℕ)) (ratio : Ratio F) (c mref : ℕ) (n : ℕ) :
    ∃ φ, poisson spsolve eos s t p edges ratio [c] mref = .ok φ ∧ φ n = if n = c then lit 0 else nan := by
  refine ⟨_, rfl, ?_⟩
  by_cases h : n = c
  · subst h; rw [Function.update_self, if_pos rfl]
  · rw [Function.update_of_ne h, if_neg h]

/-- **C44.** Both solvers raise `IndexError` on an empty region. -/
theorem empty_region {F : Type*} [FloatLike F] (spsolve : ℕ → (ℕ → ℕ → F) → (ℕ → F) → ℕ → F)
    (lsqr : ℕ → ℕ → (ℕ → ℕ → F) → (ℕ → F) → ℕ → F) (eos : Ntp.EosST F) (s t p : ℕ → F) (edges : List (ℕ × ℕ))
    (ratio : Ratio F) (mref : ℕ) :
    poisson spsolve eos s t p edges ratio [] mref = .indexError ∧ gradient lsqr eos s t p edges ratio [] mref = .indexError :=
  ⟨rfl, rfl⟩

/-! ## C46 -/

/-- Cost of a competitor: the cost at a balanced function plus a sum of squares. -/
theorem cost_split (hm : m.Nodup) {φ : ℕ → α} (hφ : Balanced E m ε φ) (ψ : ℕ → α) :
    cost E m ε ψ = cost E m ε φ + energy (rowsOf E m ε) (vec m fun n => ψ n - φ n) := by
  have hR := rows_lt (E := E) (m := m) (ε := ε)
  rw [balanced_iff hm] at hφ
  -- orthogonality
  have horth : ((rowsOf E m ε).map fun k => k.w * (vec m φ k.a - vec m φ k.b) *
      (vec m (fun n => ψ n - φ n) k.a - vec m (fun n => ψ n - φ n) k.b)).sum =
      ((rowsOf E m ε).map fun k => k.e * (vec m (fun n => ψ n - φ n) k.a - vec m (fun n => ψ n - φ n) k.b)).sum := by
    rw [← lap_energy hR, ← div_pair hR]
    exact Finset.sum_congr rfl fun r hr => by rw [hφ r (mem_range.1 hr)]
  unfold cost energy rowsOf at *
  simp only [List.map_map] at *
  clear hφ hR
  have hl : ∀ x ∈ inner E m, x.1.1 ∈ m ∧ x.1.2 ∈ m := fun x hx => (mem_inner hx).2
  -- cost ψ - cost φ - energy = 2 * (difference of the two sums of `horth`)
  have key : ∀ l : List ((ℕ × ℕ) × α), (∀ x ∈ l, x.1.1 ∈ m ∧ x.1.2 ∈ m) →
      (l.map fun x => x.2 * corr ε ψ x.1 ^ 2).sum - (l.map fun x => x.2 * corr ε φ x.1 ^ 2).sum -
      (l.map ((fun k : Row α => k.w * (vec m (fun n => ψ n - φ n) k.a - vec m (fun n => ψ n - φ n) k.b) ^ 2) ∘
        fun x => (⟨m.idxOf x.1.1, m.idxOf x.1.2, ε x.1 * x.2, x.2⟩ : Row α))).sum =
      2 * ((l.map ((fun k : Row α => k.w * (vec m φ k.a - vec m φ k.b) *
          (vec m (fun n => ψ n - φ n) k.a - vec m (fun n => ψ n - φ n) k.b)) ∘
          fun x => (⟨m.idxOf x.1.1, m.idxOf x.1.2, ε x.1 * x.2, x.2⟩ : Row α))).sum -
        (l.map ((fun k : Row α => k.e * (vec m (fun n => ψ n - φ n) k.a - vec m (fun n => ψ n - φ n) k.b)) ∘
          fun x => (⟨m.idxOf x.1.1, m.idxOf x.1.2, ε x.1 * x.2, x.2⟩ : Row α))).sum) := by
    intro l
    induction l with
    | nil => simp
    | cons x l ih =>
      intro hl
      have ih := ih fun y hy => hl y (List.mem_cons_of_mem _ hy)
      obtain ⟨h1, h2⟩ := hl x List.mem_cons_self
      simp only [List.map_cons, List.sum_cons, Function.comp_apply, vec_idx _ h1, vec_idx _ h2] at ih ⊢
      unfold corr at ih ⊢
      linear_combination ih
  have := key (inner E m) hl
  rw [horth, sub_self, mul_zero] at this
  linear_combination this

/-- **C46.** The Poisson solution minimises the weighted sum of squares of corrected errors over the region; all minimisers
differ from it by a constant. -/
theorem poisson_minimises (H : Region E m mref eos s t p ε) {φ : ℕ → α} (hφ : Balanced E m ε φ) (ψ : ℕ → α) :
    cost E m ε φ ≤ cost E m ε ψ ∧
    (cost E m ε ψ = cost E m ε φ ↔ ∃ c, ∀ n ∈ m, ψ n = φ n + c) := by
  have h := cost_split H.nodup hφ ψ
  have hw := rows_pos (ε := ε) H.pos
  have h0 := energy_nonneg hw (vec m fun n => ψ n - φ n)
  refine ⟨by linarith, ?_, ?_⟩
  · intro he
    have hz := energy_zero hw (vec m fun n => ψ n - φ n) (by linarith)
    have hc := const_of_conn (rows_conn (ε := ε) H.nodup H.conn) _ hz
    refine ⟨ψ mref - φ mref, fun n hn => ?_⟩
    have := hc (m.idxOf n) (List.idxOf_lt_length_of_mem hn)
    rw [vec_idx _ hn, vec_idx _ H.ref] at this
    linear_combination this
  · rintro ⟨c, hc⟩
    unfold cost
    congr 1
    apply List.map_congr_left
    intro x hx
    obtain ⟨_, h1, h2⟩ := mem_inner hx
    unfold corr
    rw [hc _ h1, hc _ h2]; ring

theorem range_getD {β : Type*} (l : List β) (d : β) (g : β → α) : ∑ k ∈ range l.length, g (l.getD k d) = (l.map g).sum := by
  induction l with
  | nil => rfl
  | cons x l ih =>
    rw [List.length_cons, Finset.sum_range_succ', List.map_cons, List.sum_cons, ← ih]
    simp [add_comm]

theorem zipIdx_pick {β : Type*} (f : β → α) (d : β) : ∀ (l : List β) (n k : ℕ),
    ((l.zipIdx n).map fun y => if y.2 = n + k then f y.1 else 0).sum = if k < l.length then f (l.getD k d) else 0 := by
  intro l
  induction l with
  | nil => intro n k; simp
  | cons x l ih =>
    intro n k
    rw [List.zipIdx_cons, List.map_cons, List.sum_cons]
    cases k with
    | zero =>
      have : ((l.zipIdx (n + 1)).map fun y => if y.2 = n + 0 then f y.1 else 0).sum = 0 := by
        apply List.sum_eq_zero
        intro z hz
        obtain ⟨y, hy, rfl⟩ := List.mem_map.1 hz
        have := (List.mem_zipIdx hy).1
        rw [if_neg (by omega)]
      rw [this]; simp
    | succ k =>
      have := ih (n + 1) k
      rw [show n + 1 + k = n + (k + 1) by omega] at this
      rw [this]
      simp

/-- The least squares problem of `_omega_matsolve_gradient` in exact arithmetic. -/
theorem gradientSystem_exact (R : List (Row α)) (N ref : ℕ) (hR : ∀ k ∈ R, k.a < N ∧ k.b < N) (href : ref < N) :
    ∃ (M : ℕ → ℕ → α) (b : ℕ → α), gradientSystem (R.map toFl) ref = (fun i => .fin (b i), fun r c => .fin (M r c)) ∧
      ∀ x : ℕ → α, rss (R.length + 1) N M b x = (R.map fun k => (k.e + k.w * (x k.b - x k.a)) ^ 2).sum + (x ref / 100) ^ 2 := by
  let trip : List (ℕ × ℕ × α) := R.zipIdx.map (fun y => (y.2, y.1.a, -y.1.w)) ++ R.zipIdx.map (fun y => (y.2, y.1.b, y.1.w)) ++
    [(R.length, ref, 1 / 100)]
  let ent : ℕ → ℕ → α := fun r c => ((trip.filter fun x => decide (x.1 = r ∧ x.2.1 = c)).map fun x => x.2.2).sum
  have hz : (R.map toFl).zipIdx = R.zipIdx.map fun y => (toFl y.1, y.2) := by
    rw [List.zipIdx_map]; rfl
  have ht : ∀ x ∈ trip, x.2.1 < N := by
    intro x hx
    simp only [trip, List.mem_append, List.mem_map, List.mem_singleton] at hx
    rcases hx with (⟨y, hy, rfl⟩ | ⟨y, hy, rfl⟩) | rfl
    · exact (hR _ (List.fst_mem_of_mem_zipIdx hy)).1
    · exact (hR _ (List.fst_mem_of_mem_zipIdx hy)).2
    · exact href
  refine ⟨ent, fun k => (R.map fun k => -k.e).getD k 0, ?_, ?_⟩
  · unfold gradientSystem
    have he : ((R.map toFl).zipIdx.map (fun x => (x.2, x.1.a, -x.1.w)) ++ (R.map toFl).zipIdx.map (fun x => (x.2, x.1.b, x.1.w)) ++
        [((R.map toFl).length, ref, (lit (1/100) : Fl α))]) = trip.map fun x => (x.1, x.2.1, Fl.fin x.2.2) := by
      simp only [trip, hz, List.map_append, List.map_map, Function.comp_def, toFl, fin_neg, List.map_cons, List.map_nil,
        List.length_map, lit_eq]
      norm_num
    dsimp only
    rw [he]
    refine Prod.ext ?_ ?_
    · funext k
      dsimp only
      rw [List.map_map]
      have : ((fun x : Row (Fl α) => -x.e) ∘ toFl) = fun k : Row α => Fl.fin (-k.e) := by
        funext k; simp [toFl, fin_neg]
      rw [this, List.getD_eq_getElem?_getD, List.getD_eq_getElem?_getD, List.getElem?_map, List.getElem?_map]
      cases R[k]? <;> simp
    · funext r c
      exact entry_fin trip r c
  · intro x
    unfold rss
    have hd : Row α := ⟨0, 0, 0, 0⟩
    have hrow : ∀ k, ∑ c ∈ range N, ent k c * x c =
        (if k < R.length then (R.getD k hd).w * (x (R.getD k hd).b - x (R.getD k hd).a) else 0) +
        (if R.length = k then 1 / 100 * x ref else 0) := by
      intro k
      show ∑ c ∈ range N, ((trip.filter fun x => decide (x.1 = k ∧ x.2.1 = c)).map fun x => x.2.2).sum * x c = _
      rw [entry_apply trip ht]
      simp only [trip, List.map_append, List.map_map, List.sum_append, Function.comp_def, List.map_cons, List.map_nil,
        List.sum_cons, List.sum_nil, add_zero]
      congr 1
      have z1 := zipIdx_pick (fun k : Row α => -k.w * x k.a) hd R 0 k
      have z2 := zipIdx_pick (fun k : Row α => k.w * x k.b) hd R 0 k
      rw [Nat.zero_add] at z1 z2
      rw [z1, z2]
      split_ifs <;> ring
    rw [Finset.sum_range_succ]
    congr 1
    · rw [← range_getD R hd fun k => (k.e + k.w * (x k.b - x k.a)) ^ 2]
      apply Finset.sum_congr rfl
      intro k hk
      have hk := mem_range.1 hk
      rw [hrow, if_pos hk, if_neg (by omega), add_zero, List.getD_eq_getElem _ _ hk]
      dsimp only
      rw [List.getD_eq_getElem _ _ (by rw [List.length_map]; exact hk), List.getElem_map]
      ring
    · rw [hrow, if_neg (lt_irrefl _), if_pos rfl]
      dsimp only
      rw [List.getD_eq_default _ _ (by rw [List.length_map])]
      ring

/-- The edges with the square of each weight. -/
def squared (V : List ((ℕ × ℕ) × α)) : List ((ℕ × ℕ) × α) := V.map fun x => (x.1, x.2 ^ 2)

theorem inner_squared (V : List ((ℕ × ℕ) × α)) (m : List ℕ) : inner (squared V) m = (inner V m).map fun x => (x.1, x.2 ^ 2) := by
  unfold inner squared
  rw [List.filter_map]
  rfl

/-- **C46.** Gradient and Poisson formulation give the same correction, with exact solvers, on every region: `V` gives the
edges with the square roots of the weights (as handed to the gradient solver). -/
theorem gradient_eq_poisson (V : List ((ℕ × ℕ) × α))
    (H : Region (squared V) m mref eos s t p ε)
    {spsolve : ℕ → (ℕ → ℕ → Fl α) → (ℕ → Fl α) → ℕ → Fl α} (hs : ExactSolve spsolve)
    {lsqr : ℕ → ℕ → (ℕ → ℕ → Fl α) → (ℕ → Fl α) → ℕ → Fl α} (hl : ExactLsqr lsqr) :
    gradient lsqr eos s t p (V.map Prod.fst) (.arr (V.map fun x => .fin x.2)) m mref =
    poisson spsolve eos s t p (V.map Prod.fst) (.arr (V.map fun x => .fin (x.2 ^ 2))) m mref := by
  obtain ⟨φ, h1, h2, h3, h4⟩ := poisson_spec H hs
  have e1 : (squared V).map Prod.fst = V.map Prod.fst := by unfold squared; rw [List.map_map]; rfl
  have e2 : (squared V).map (fun x => (Fl.fin x.2 : Fl α)) = V.map fun x => .fin (x.2 ^ 2) := by
    unfold squared; rw [List.map_map]; rfl
  rw [e1, e2] at h1
  rw [h1]
  have herr : ∀ x ∈ inner V m, Ntp.epsErr eos s t p x.1 = .fin (ε x.1) := by
    intro x hx
    have : (x.1, x.2 ^ 2) ∈ inner (squared V) m := by rw [inner_squared]; exact List.mem_map.2 ⟨x, hx, rfl⟩
    exact H.err (x.1, x.2 ^ 2) this
  have hR := rows_lt (E := V) (m := m) (ε := ε)
  have href : m.idxOf mref < m.length := List.idxOf_lt_length_of_mem H.ref
  obtain ⟨M, b, g1, g2⟩ := gradientSystem_exact (rowsOf V m ε) m.length (m.idxOf mref) hR href
  have hcost : ∀ x : ℕ → α, rss ((rowsOf V m ε).length + 1) m.length M b x =
      cost (squared V) m ε (fun n => x (m.idxOf n)) + (x (m.idxOf mref) / 100) ^ 2 := by
    intro x
    rw [g2]
    congr 1
    unfold cost rowsOf
    rw [inner_squared, List.map_map, List.map_map]
    congr 1
    apply List.map_congr_left
    intro y _
    simp only [Function.comp_apply, corr]
    ring
  have hvec : ∀ n ∈ m, vec m φ (m.idxOf n) = φ n := fun n hn => vec_idx φ hn
  have hcv : cost (squared V) m ε (fun n => vec m φ (m.idxOf n)) = cost (squared V) m ε φ := by
    unfold cost
    congr 1
    apply List.map_congr_left
    intro x hx
    obtain ⟨_, i1, i2⟩ := mem_inner hx
    unfold corr
    dsimp only
    rw [hvec _ i1, hvec _ i2]
  have hmin := hl ((rowsOf V m ε).length + 1) m.length M b (vec m φ) (by
      intro y
      rw [hcost, hcost, hcv, hvec _ H.ref, h2]
      have := (poisson_minimises H h3 fun n => y (m.idxOf n)).1
      have := sq_nonneg (y (m.idxOf mref) / 100)
      linarith [show ((0 : α) / 100) ^ 2 = 0 by simp]) (by
      intro y hy c hc
      rw [hcost, hcost, hcv, hvec _ H.ref, h2] at hy
      have p1 := poisson_minimises H h3 fun n => y (m.idxOf n)
      have p2 := sq_nonneg (y (m.idxOf mref) / 100)
      have p3 : ((0 : α) / 100) ^ 2 = 0 := by simp
      have p4 : (y (m.idxOf mref) / 100) ^ 2 = 0 := by linarith [p1.1]
      have p5 : y (m.idxOf mref) = 0 := by
        have := pow_eq_zero_iff two_ne_zero |>.1 p4
        rcases div_eq_zero_iff.1 this with h | h
        · exact h
        · norm_num at h
      obtain ⟨k, hk⟩ := p1.2.1 (by linarith)
      have hk0 : k = 0 := by
        have := hk mref H.ref
        rw [p5, h2] at this
        linear_combination -this
      have := hk m[c] (List.getElem_mem hc)
      rw [hk0, add_zero, H.nodup.idxOf_getElem] at this
      unfold vec
      rw [List.getD_eq_getElem _ _ hc, this])
  unfold gradient
  rw [if_neg (by have := H.two; omega)]
  simp only [helper_eq H.nodup herr, refOf_eq H.nodup H.ref, g1, List.length_map]
  congr 1
  funext n
  rw [scatter_eq H.nodup]
  by_cases hn : n ∈ m
  · rw [if_pos hn, if_pos hn, hmin _ (List.idxOf_lt_length_of_mem hn), hmin _ href, fin_sub, hvec _ hn, hvec _ H.ref, h2, sub_zero]
  · rw [if_neg hn, if_neg hn]

/-! ## C77 -/

/-- **C77.** A surface that is neutral on all edges of the region is left alone: the correction is exactly zero. -/
theorem poisson_neutral (H : Region E m mref eos s t p ε) (h0 : ∀ x ∈ inner E m, ε x.1 = 0)
    {spsolve : ℕ → (ℕ → ℕ → Fl α) → (ℕ → Fl α) → ℕ → Fl α} (hs : ExactSolve spsolve) :
    poisson spsolve eos s t p (E.map Prod.fst) (.arr (E.map fun x => .fin x.2)) m mref =
        .ok (fun n => if n ∈ m then .fin 0 else nan) := by
  obtain ⟨φ, h1, h2, h3, h4⟩ := poisson_spec H hs
  have hz : ∀ n ∈ m, (0 : α) = φ n := by
    intro n hn
    refine h4 (fun _ => 0) ?_ rfl n hn
    intro n _
    have e : ∀ (q : (ℕ × ℕ) × α → Prop) [DecidablePred q],
        ((inner E m).map fun x => if q x then x.2 * corr ε (fun _ => 0) x.1 else 0).sum = 0 := by
      intro q _
      apply List.sum_eq_zero
      intro z hz
      obtain ⟨x, hx, rfl⟩ := List.mem_map.1 hz
      unfold corr
      rw [h0 x hx]
      simp
    rw [e fun x => x.1.1 = n, e fun x => x.1.2 = n]
  rw [h1]
  congr 1
  funext n
  by_cases hn : n ∈ m
  · rw [if_pos hn, if_pos hn, ← hz n hn]
  · rw [if_neg hn, if_neg hn]

/-- **C80.** The correction never increases the weighted sum of squares of the (linearised) errors, and leaves it as it is only
when the errors of the uncorrected surface are already balanced. -/
theorem poisson_reduces (H : Region E m mref eos s t p ε) {φ : ℕ → α} (hφ : Balanced E m ε φ) :
    cost E m ε φ ≤ ((inner E m).map fun x => x.2 * ε x.1 ^ 2).sum ∧
    (cost E m ε φ = ((inner E m).map fun x => x.2 * ε x.1 ^ 2).sum → Balanced E m ε fun _ => 0) := by
  have e : cost E m ε (fun _ => 0) = ((inner E m).map fun x => x.2 * ε x.1 ^ 2).sum := by
    unfold cost corr
    simp
  have h := poisson_minimises H hφ fun _ => 0
  rw [e] at h
  refine ⟨h.1, fun he => ?_⟩
  obtain ⟨c, hc⟩ := h.2.1 he.symm
  have : ∀ x ∈ inner E m, corr ε (fun _ => 0) x.1 = corr ε φ x.1 := by
    intro x hx
    obtain ⟨_, h1, h2⟩ := mem_inner hx
    have e1 := hc _ h1
    have e2 := hc _ h2
    unfold corr
    linear_combination e2 - e1
  intro n hn
  have hb := hφ n hn
  have c1 : ∀ q : (ℕ × ℕ) × α → Prop, ∀ [DecidablePred q], ((inner E m).map fun x => if q x then x.2 * corr ε (fun _ => 0) x.1 else 0) =
      (inner E m).map fun x => if q x then x.2 * corr ε φ x.1 else 0 := by
    intro q _
    apply List.map_congr_left
    intro x hx
    rw [this x hx]
  rw [c1 fun x => x.1.1 = n, c1 fun x => x.1.2 = n]
  exact hb

/-- With a scalar `distratio` the problem is the one with this ratio on every edge. -/
theorem helper_scalar (edges : List (ℕ × ℕ)) (d : α) (herr : ∀ x ∈ edges, ∃ v, Ntp.epsErr eos s t p x = .fin v) :
    helper eos s t p edges (.scalar (.fin d)) m = helper eos s t p edges (.arr (edges.map fun _ => .fin d)) m := by
  have e : edges.zip (edges.map fun _ => (Fl.fin d : Fl α)) = edges.map fun x => (x, .fin d) := by
    have := List.zip_map' (f := fun x : ℕ × ℕ => x) (g := fun _ => (Fl.fin d : Fl α)) (l := edges)
    simpa using this
  unfold helper
  dsimp only
  rw [e]
  apply List.map_congr_left
  intro x hx
  obtain ⟨y, hy, rfl⟩ := List.mem_map.1 (List.mem_filter.1 hx).1
  obtain ⟨v, hv⟩ := herr y hy
  dsimp only
  rw [hv, lit_eq, Rat.cast_one, fin_div _ _ one_ne_zero, fin_mul]
  by_cases h1 : d = 1
  · subst h1; simp
  · rw [if_neg (by simpa using h1)]

/-! ## Examples -/

/-- The hypotheses are met: a triangle of casts 0, 1, 2 with salinities 0, 1, 3 (density = salinity), reference cast 1. -/
def demoE : List ((ℕ × ℕ) × ℚ) := [((0, 1), 1), ((1, 2), 2), ((2, 0), 1)]

theorem demo_region : Region demoE [0, 1, 2] 1 (fun _ _ _ => (.fin 1, .fin 0)) (fun n => if n = 0 then .fin 0 else if n = 1 then .fin 1 else .fin 3)
    (fun _ => .fin 0) (fun _ => .fin 0) (fun x => if x = (0, 1) then 1 else if x = (1, 2) then 2 else -3) := by
  refine ⟨by decide, by decide, by decide, by decide, ?_, ?_⟩
  · have j0 : Joined demoE [0, 1, 2] 1 0 := ⟨by decide, by decide, ((0, 1), 1), by decide, Or.inr rfl⟩
    have j2 : Joined demoE [0, 1, 2] 1 2 := ⟨by decide, by decide, ((1, 2), 2), by decide, Or.inl rfl⟩
    intro n hn
    simp only [List.mem_cons, List.not_mem_nil, or_false] at hn
    rcases hn with rfl | rfl | rfl
    · exact .single j0
    · exact .refl
    · exact .single j2
  · decide +kernel

/-- An exact solver exists, for square systems and for least squares. -/
theorem exact_solvers_exist : (∃ f : ℕ → (ℕ → ℕ → Fl α) → (ℕ → Fl α) → ℕ → Fl α, ExactSolve f) ∧
    (∃ f : ℕ → ℕ → (ℕ → ℕ → Fl α) → (ℕ → Fl α) → ℕ → Fl α, ExactLsqr f) := by
  classical
  let un : Fl α → α := fun z => match z with | .fin r => r | _ => 0
  constructor
  · refine ⟨fun N L D r => if h : ∃ x : ℕ → α, ∀ r < N, ∑ c ∈ range N, un (L r c) * x c = un (D r) then .fin (h.choose r) else Fl.nan, ?_⟩
    intro N L D x h1 h2 r hr
    have h : ∃ x : ℕ → α, ∀ r < N, ∑ c ∈ range N, un (.fin (L r c)) * x c = un (.fin (D r)) := ⟨x, h1⟩
    dsimp only
    rw [dif_pos h]
    congr 1
    exact h2 _ h.choose_spec r hr
  · refine ⟨fun R C M b r => if h : ∃ x : ℕ → α, ∀ y, rss R C (fun r c => un (M r c)) (fun i => un (b i)) x ≤
        rss R C (fun r c => un (M r c)) (fun i => un (b i)) y then .fin (h.choose r) else Fl.nan, ?_⟩
    intro R C M b x h1 h2 r hr
    have h : ∃ x : ℕ → α, ∀ y, rss R C (fun r c => un (.fin (M r c))) (fun i => un (.fin (b i))) x ≤
        rss R C (fun r c => un (.fin (M r c))) (fun i => un (.fin (b i))) y := ⟨x, h1⟩
    dsimp only
    rw [dif_pos h]
    congr 1
    exact h2 _ (le_antisymm (h.choose_spec x) (h1 _)) r hr

end OmegaMat
