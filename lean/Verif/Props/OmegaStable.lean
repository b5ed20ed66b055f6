import Verif.Props.OmegaMat
import Mathlib.Combinatorics.SimpleGraph.Paths
import Mathlib.Combinatorics.SimpleGraph.Connectivity.Connected
import Mathlib.Tactic.Positivity
import Mathlib.Tactic.FieldSimp

/-!
# The correction is as accurate as the sparse solver (C138)

No solver returns the exact solution of the matrix problem.  How far a correction is from the exact one is bounded by what it
leaves unbalanced, and by the resistance of the paths that join a cast to the pinning cast.
-/

namespace OmegaMat
open FloatLike Finset
open Fl hiding nan

set_option linter.unusedSectionVars false

variable {α : Type*} [Field α] [LinearOrder α] [IsStrictOrderedRing α]

/-! ## Specification -/

/-- What is left unbalanced at the cast `n`: weighted corrected errors flowing out, less those flowing in. -/
def imbalance (E : List ((ℕ × ℕ) × α)) (m : List ℕ) (ε : ℕ × ℕ → α) (φ : ℕ → α) (n : ℕ) : α :=
  ((inner E m).map fun x => if x.1.1 = n then x.2 * corr ε φ x.1 else 0).sum -
    ((inner E m).map fun x => if x.1.2 = n then x.2 * corr ε φ x.1 else 0).sum

/-- A route of `k` edges of the region from `r` to `n` whose resistance (sum of the reciprocals of the weights) is `R`. -/
inductive Route (E : List ((ℕ × ℕ) × α)) (m : List ℕ) (r : ℕ) : ℕ → ℕ → α → Prop
  | here : Route E m r r 0 0
  | along {a b k : ℕ} {R : α} {x : (ℕ × ℕ) × α} : Route E m r a k R → x ∈ inner E m → x.1 = (a, b) ∨ x.1 = (b, a) →
      Route E m r b (k + 1) (R + 1 / x.2)

/-- A solver of square systems with residual at most `η`: on a system with exactly one solution it returns numbers whose absolute residuals sum
to at most `η`. -/
def NearSolve (η : α) (spsolve : ℕ → (ℕ → ℕ → Fl α) → (ℕ → Fl α) → ℕ → Fl α) : Prop :=
  ∀ (N : ℕ) (L : ℕ → ℕ → α) (D x : ℕ → α), (∀ r < N, ∑ c ∈ range N, L r c * x c = D r) →
    (∀ y : ℕ → α, (∀ r < N, ∑ c ∈ range N, L r c * y c = D r) → ∀ r < N, y r = x r) →
    ∃ z : ℕ → α, (∀ r < N, spsolve N (fun r c => .fin (L r c)) (fun i => .fin (D i)) r = .fin (z r)) ∧
      ∑ r ∈ range N, |∑ c ∈ range N, L r c * z c - D r| ≤ η

/-- A least squares solver that comes within `g` of the least sum of squares: when there is exactly one minimiser it returns numbers whose
residual sum of squares exceeds the least one by at most `g`. -/
def NearLsqr (g : α) (lsqr : ℕ → ℕ → (ℕ → ℕ → Fl α) → (ℕ → Fl α) → ℕ → Fl α) : Prop :=
  ∀ (R C : ℕ) (M : ℕ → ℕ → α) (b x : ℕ → α), (∀ y, rss R C M b x ≤ rss R C M b y) →
    (∀ y, rss R C M b y = rss R C M b x → ∀ c < C, y c = x c) →
    ∃ z : ℕ → α, (∀ c < C, lsqr R C (fun r c => .fin (M r c)) (fun i => .fin (b i)) c = .fin (z c)) ∧
      rss R C M b z ≤ rss R C M b x + g

/-! ## Currents -/

/-- No edge carries more current than is put in. -/
theorem edge_current {N ref : ℕ} {R : List (Row α)} (hR : ∀ k ∈ R, k.a < N ∧ k.b < N) (hw : ∀ k ∈ R, 0 < k.w) (z : ℕ → α)
    {k : Row α} (hk : k ∈ R) : k.w * |z k.a - z k.b| ≤ ∑ r ∈ (range N).erase ref, |lap R z r| := by
  -- for a level `c` between the ends
  have key : ∀ lo hi : α, lo < hi → (∀ P : ℕ → Prop, ∀ _ : DecidablePred P, (∀ r, P r ↔ hi ≤ z r) →
      ∑ r ∈ range N, (if P r then (1 : α) else 0) * lap R z r ≤ ∑ r ∈ (range N).erase ref, |lap R z r|) := by
    intro lo hi _ P _ hP
    have habs : ∀ (q : ℕ → α), (∀ r, |q r| ≤ 1) → q ref = 0 → ∑ r ∈ range N, q r * lap R z r ≤ ∑ r ∈ (range N).erase ref, |lap R z r| := by
      intro q hq h0
      have : ∑ r ∈ range N, q r * lap R z r = ∑ r ∈ (range N).erase ref, q r * lap R z r := by
        by_cases hr : ref ∈ range N
        · rw [← Finset.add_sum_erase _ _ hr, h0]; ring
        · rw [Finset.erase_eq_of_notMem hr]
      rw [this]
      apply Finset.sum_le_sum
      intro r _
      calc q r * lap R z r ≤ |q r * lap R z r| := le_abs_self _
        _ = |q r| * |lap R z r| := abs_mul _ _
        _ ≤ 1 * |lap R z r| := mul_le_mul_of_nonneg_right (hq r) (abs_nonneg _)
        _ = _ := one_mul _
    by_cases hr : P ref
    · have h := habs (fun r => (if P r then (1 : α) else 0) - 1) (fun r => by split_ifs <;> simp) (by simp [hr])
      have : ∑ r ∈ range N, ((if P r then (1 : α) else 0) - 1) * lap R z r = ∑ r ∈ range N, (if P r then (1 : α) else 0) * lap R z r := by
        simp only [sub_mul, one_mul, Finset.sum_sub_distrib, lap_sum hR, sub_zero]
      rw [this] at h; exact h
    · exact habs (fun r => if P r then (1 : α) else 0) (fun r => by split_ifs <;> simp) (by simp [hr])
  have term : ∀ hi : α, ∀ P : ℕ → Prop, ∀ _ : DecidablePred P, (∀ r, P r ↔ hi ≤ z r) → ∀ j : Row α, 0 < j.w →
      0 ≤ j.w * (z j.a - z j.b) * ((if P j.a then (1 : α) else 0) - (if P j.b then (1 : α) else 0)) := by
    intro hi P _ hP j hj
    by_cases h1 : P j.a <;> by_cases h2 : P j.b <;> simp only [h1, h2, if_true, if_false, sub_self, mul_zero, sub_zero, zero_sub, le_refl]
    · have := (hP _).1 h1
      have h2 : z j.b < hi := lt_of_not_ge fun h => h2 ((hP _).2 h)
      have : 0 ≤ z j.a - z j.b := by linarith
      positivity
    · have := (hP _).1 h2
      have h1 : z j.a < hi := lt_of_not_ge fun h => h1 ((hP _).2 h)
      have : 0 ≤ z j.b - z j.a := by linarith
      have : 0 ≤ j.w * (z j.b - z j.a) := by positivity
      linarith
  have pick : ∀ (f : Row α → α), (∀ j ∈ R, 0 ≤ f j) → f k ≤ (R.map f).sum := fun f hf => by
    apply List.single_le_sum _ _ (List.mem_map.2 ⟨k, hk, rfl⟩)
    intro y hy
    obtain ⟨j, hj, rfl⟩ := List.mem_map.1 hy
    exact hf j hj
  rcases lt_trichotomy (z k.a) (z k.b) with h | h | h
  · have h1 := key _ _ h (fun r => z k.b ≤ z r) (fun _ => inferInstance) (fun _ => Iff.rfl)
    rw [lap_energy hR] at h1
    have h2 := pick _ fun j hj => term (z k.b) (fun r => z k.b ≤ z r) (fun _ => inferInstance) (fun _ => Iff.rfl) j (hw j hj)
    rw [if_neg (not_le.2 h), if_pos le_rfl] at h2
    rw [abs_of_neg (by linarith)]
    linarith
  · rw [h, sub_self, abs_zero, mul_zero]
    exact Finset.sum_nonneg fun _ _ => abs_nonneg _
  · have h1 := key _ _ h (fun r => z k.a ≤ z r) (fun _ => inferInstance) (fun _ => Iff.rfl)
    rw [lap_energy hR] at h1
    have h2 := pick _ fun j hj => term (z k.a) (fun r => z k.a ≤ z r) (fun _ => inferInstance) (fun _ => Iff.rfl) j (hw j hj)
    rw [if_neg (not_le.2 h), if_pos le_rfl] at h2
    rw [abs_of_pos (by linarith)]
    linarith

variable {E : List ((ℕ × ℕ) × α)} {m : List ℕ} {mref : ℕ} {eos : Ntp.EosST (Fl α)} {s t p : ℕ → Fl α} {ε : ℕ × ℕ → α}

theorem imbalance_lap (φ : ℕ → α) (n : ℕ) :
    lap (rowsOf E m ε) (vec m φ) (m.idxOf n) - div (rowsOf E m ε) (m.idxOf n) = -imbalance E m ε φ n := by
  unfold lap div rowsOf imbalance
  rw [List.map_map, List.map_map]
  have : ∀ l : List ((ℕ × ℕ) × α), (∀ x ∈ l, x.1.1 ∈ m ∧ x.1.2 ∈ m) →
      (l.map ((fun k : Row α => (if k.a = m.idxOf n then k.w * (vec m φ k.a - vec m φ k.b) else 0) +
        (if k.b = m.idxOf n then k.w * (vec m φ k.b - vec m φ k.a) else 0)) ∘
        fun x => (⟨m.idxOf x.1.1, m.idxOf x.1.2, ε x.1 * x.2, x.2⟩ : Row α))).sum -
      (l.map ((fun k : Row α => (if k.a = m.idxOf n then k.e else 0) - (if k.b = m.idxOf n then k.e else 0)) ∘
        fun x => (⟨m.idxOf x.1.1, m.idxOf x.1.2, ε x.1 * x.2, x.2⟩ : Row α))).sum =
      -((l.map fun x => if x.1.1 = n then x.2 * corr ε φ x.1 else 0).sum -
      (l.map fun x => if x.1.2 = n then x.2 * corr ε φ x.1 else 0).sum) := by
    intro l
    induction l with
    | nil => simp
    | cons x l ih =>
      intro hl
      have ih := ih fun y hy => hl y (List.mem_cons_of_mem _ hy)
      obtain ⟨h1, h2⟩ := hl x List.mem_cons_self
      simp only [List.map_cons, List.sum_cons, Function.comp_apply, idx_eq h1, idx_eq h2, vec_idx φ h1, vec_idx φ h2] at ih ⊢
      unfold corr at ih ⊢
      split_ifs <;> linear_combination ih
  exact this _ fun x hx => (mem_inner hx).2

theorem balanced_imbalance {φ : ℕ → α} : Balanced E m ε φ ↔ ∀ n ∈ m, imbalance E m ε φ n = 0 := by
  unfold Balanced imbalance
  refine forall_congr' fun n => forall_congr' fun _ => ?_
  rw [sub_eq_zero]

/-- sums over labels and over casts -/
theorem sum_labels (hm : m.Nodup) (href : mref ∈ m) (f : ℕ → α) :
    ∑ r ∈ (range m.length).erase (m.idxOf mref), f r = ∑ n ∈ m.toFinset.erase mref, f (m.idxOf n) := by
  symm
  apply Finset.sum_bij (fun n _ => m.idxOf n)
  · intro n hn
    rw [mem_erase, List.mem_toFinset] at hn
    rw [mem_erase, mem_range]
    exact ⟨fun h => hn.1 ((idx_eq hn.2).1 h), List.idxOf_lt_length_of_mem hn.2⟩
  · intro a ha b _ h
    rw [mem_erase, List.mem_toFinset] at ha
    exact (idx_eq ha.2).1 h
  · intro r hr
    rw [mem_erase, mem_range] at hr
    refine ⟨m[r], ?_, hm.idxOf_getElem r hr.2⟩
    rw [mem_erase, List.mem_toFinset]
    refine ⟨fun h => hr.1 ?_, List.getElem_mem hr.2⟩
    rw [← h]; exact (hm.idxOf_getElem r hr.2).symm
  · intro _ _; rfl

/-- The difference of two corrections across an edge, one of them balanced. -/
theorem edge_difference (hm : m.Nodup) (hpos : ∀ x ∈ inner E m, 0 < x.2) (href : mref ∈ m) {φ ψ : ℕ → α} (hψ : Balanced E m ε ψ)
    {x : (ℕ × ℕ) × α} (hx : x ∈ inner E m) :
    x.2 * |(φ x.1.1 - ψ x.1.1) - (φ x.1.2 - ψ x.1.2)| ≤ ∑ n ∈ m.toFinset.erase mref, |imbalance E m ε φ n| := by
  have h := edge_current (ref := m.idxOf mref) (rows_lt (E := E) (m := m) (ε := ε)) (rows_pos (ε := ε) hpos)
    (fun i => -1 * vec m ψ i + vec m φ i) (List.mem_map.2 ⟨x, hx, rfl⟩ : _ ∈ rowsOf E m ε)
  obtain ⟨_, h1, h2⟩ := mem_inner hx
  dsimp only at h
  rw [vec_idx _ h1, vec_idx _ h1, vec_idx _ h2, vec_idx _ h2, sum_labels hm href] at h
  have e : -1 * ψ x.1.1 + φ x.1.1 - (-1 * ψ x.1.2 + φ x.1.2) = φ x.1.1 - ψ x.1.1 - (φ x.1.2 - ψ x.1.2) := by ring
  rw [e] at h
  refine h.trans (le_of_eq (Finset.sum_congr rfl fun n hn => ?_))
  rw [mem_erase, List.mem_toFinset] at hn
  rw [lap_lin]
  have i1 := imbalance_lap (E := E) (m := m) (ε := ε) φ n
  have i2 := imbalance_lap (E := E) (m := m) (ε := ε) ψ n
  rw [balanced_imbalance.1 hψ n hn.2] at i2
  have : -1 * lap (rowsOf E m ε) (vec m ψ) (m.idxOf n) + lap (rowsOf E m ε) (vec m φ) (m.idxOf n) = -imbalance E m ε φ n := by linear_combination i1 - i2
  rw [this, abs_neg]

/-- **C138** Whatever correction `φ` a solver returns, relative to the pinning cast it differs from the exact one at a cast by no more than
the resistance of any route to that cast times what `φ` leaves unbalanced. -/
theorem correction_accuracy (hm : m.Nodup) (hpos : ∀ x ∈ inner E m, 0 < x.2) (href : mref ∈ m) {φ ψ : ℕ → α} (hψ : Balanced E m ε ψ)
    {n k : ℕ} {R : α} (h : Route E m mref n k R) :
    |(φ n - φ mref) - (ψ n - ψ mref)| ≤ R * ∑ n ∈ m.toFinset.erase mref, |imbalance E m ε φ n| := by
  induction h with
  | here => simp
  | @along a b k R x _ hx hab ih =>
    have hw := hpos x hx
    have he := edge_difference hm hpos href (φ := φ) hψ hx
    set B := ∑ n ∈ m.toFinset.erase mref, |imbalance E m ε φ n| with hB
    have he' : |(φ b - ψ b) - (φ a - ψ a)| ≤ 1 / x.2 * B := by
      rw [one_div, ← div_eq_inv_mul, le_div_iff₀ hw, mul_comm]
      rcases hab with h | h <;> rw [h] at he
      · rw [abs_sub_comm]; exact he
      · exact he
    calc |(φ b - φ mref) - (ψ b - ψ mref)| = |((φ a - φ mref) - (ψ a - ψ mref)) + ((φ b - ψ b) - (φ a - ψ a))| := by congr 1; ring
      _ ≤ _ := abs_add_le _ _
      _ ≤ R * B + 1 / x.2 * B := add_le_add ih he'
      _ = _ := by ring

theorem Route.nonneg (hpos : ∀ x ∈ inner E m, 0 < x.2) {n k : ℕ} {R : α} (h : Route E m mref n k R) : 0 ≤ R := by
  induction h with
  | here => exact le_rfl
  | along _ hx _ ih => have := hpos _ hx; positivity

/-- **C138** If every weight is at least `w`, there is a route to every cast of the region with fewer edges than casts, hence resistance at most
`(casts - 1) / w`. -/
theorem route_exists (H : Region E m mref eos s t p ε) {w : α} (hw : 0 < w) (hmin : ∀ x ∈ inner E m, w ≤ x.2) {n : ℕ} (hn : n ∈ m) :
    ∃ k R, Route E m mref n k R ∧ k < m.length ∧ R ≤ k / w := by
  let G : SimpleGraph {n // n ∈ m} := SimpleGraph.fromRel fun a b => ∃ x ∈ inner E m, x.1 = (a.1, b.1) ∨ x.1 = (b.1, a.1)
  have hadj : ∀ a b : {n // n ∈ m}, G.Adj a b → ∃ x ∈ inner E m, x.1 = (a.1, b.1) ∨ x.1 = (b.1, a.1) := by
    intro a b h
    rcases ((SimpleGraph.fromRel_adj _ a b).1 h).2 with h | ⟨x, h1, h2⟩
    · exact h
    · exact ⟨x, h1, h2.symm⟩
  have hreach : ∀ n (hn : n ∈ m), G.Reachable ⟨n, hn⟩ ⟨mref, H.ref⟩ := by
    intro n hn
    have h := H.conn n hn
    induction h with
    | refl => exact SimpleGraph.Reachable.refl _
    | @tail a b _ hab ih =>
      obtain ⟨ha, hb, x, hx, hx'⟩ := hab
      have hin : x ∈ inner E m := List.mem_filter.2 ⟨hx, by rcases hx' with h | h <;> rw [h] <;> simp [ha, hb]⟩
      by_cases hab : b = a
      · subst hab; exact ih ha
      · refine SimpleGraph.Reachable.trans ?_ (ih ha)
        apply SimpleGraph.Adj.reachable
        refine (SimpleGraph.fromRel_adj _ _ _).2 ⟨fun h => hab (Subtype.mk.inj h), Or.inr ⟨x, hin, hx'⟩⟩
  obtain ⟨W⟩ := hreach n hn
  let Q := W.toPath
  have hlen : Q.1.length < m.length := by
    have h1 := Q.2.length_lt
    have h2 : Fintype.card {n // n ∈ m} ≤ m.length := by
      rw [Fintype.card_of_subtype m.toFinset (fun x => List.mem_toFinset)]
      exact List.toFinset_card_le m
    exact lt_of_lt_of_le h1 h2
  have main : ∀ (a : {n // n ∈ m}) (V : G.Walk a ⟨mref, H.ref⟩), ∃ R, Route E m mref a.1 V.length R ∧ R ≤ V.length / w := by
    intro a V
    generalize hr : (⟨mref, H.ref⟩ : {n // n ∈ m}) = r at V
    induction V with
    | nil => subst hr; exact ⟨0, .here, by simp⟩
    | @cons u v _ h V ih =>
      obtain ⟨R, h1, h2⟩ := ih hr
      obtain ⟨x, hx, hx'⟩ := hadj _ _ h
      refine ⟨R + 1 / x.2, .along h1 hx hx'.symm, ?_⟩
      have h3 : 1 / x.2 ≤ 1 / w := one_div_le_one_div_of_le hw (hmin x hx)
      rw [SimpleGraph.Walk.length_cons, Nat.cast_add, Nat.cast_one, add_div]
      exact add_le_add h2 h3
  obtain ⟨R, h1, h2⟩ := main _ Q.1
  exact ⟨_, R, h1, hlen, h2⟩

/-- **C138** Sensitivity to the errors: corrections for errors `ε` and `ε'` differ by no more than the resistance times twice the total weighted
difference of the errors. -/
theorem correction_sensitivity (hm : m.Nodup) (hpos : ∀ x ∈ inner E m, 0 < x.2) (href : mref ∈ m) {ε' : ℕ × ℕ → α} {φ ψ : ℕ → α}
    (hφ : Balanced E m ε' φ) (hψ : Balanced E m ε ψ) {n k : ℕ} {R : α} (h : Route E m mref n k R) :
    |(φ n - φ mref) - (ψ n - ψ mref)| ≤ R * (2 * ((inner E m).map fun x => x.2 * |ε x.1 - ε' x.1|).sum) := by
  have hR : 0 ≤ R := h.nonneg hpos
  refine (correction_accuracy hm hpos href (φ := φ) hψ h).trans (mul_le_mul_of_nonneg_left ?_ hR)
  have hb := balanced_imbalance.1 hφ
  have hi : ∀ n ∈ m, |imbalance E m ε φ n| ≤ ((inner E m).map fun x => (if x.1.1 = n then x.2 * |ε x.1 - ε' x.1| else 0) +
      (if x.1.2 = n then x.2 * |ε x.1 - ε' x.1| else 0)).sum := by
    intro n hn
    have h0 := hb n hn
    have e : imbalance E m ε φ n = imbalance E m ε φ n - imbalance E m ε' φ n := by rw [h0, sub_zero]
    rw [e]
    unfold imbalance
    clear h0 e hb
    have : ∀ l : List ((ℕ × ℕ) × α), (∀ x ∈ l, 0 < x.2) → |(l.map fun x => if x.1.1 = n then x.2 * corr ε φ x.1 else 0).sum -
        (l.map fun x => if x.1.2 = n then x.2 * corr ε φ x.1 else 0).sum - ((l.map fun x => if x.1.1 = n then x.2 * corr ε' φ x.1 else 0).sum -
        (l.map fun x => if x.1.2 = n then x.2 * corr ε' φ x.1 else 0).sum)| ≤ (l.map fun x => (if x.1.1 = n then x.2 * |ε x.1 - ε' x.1| else 0) +
      (if x.1.2 = n then x.2 * |ε x.1 - ε' x.1| else 0)).sum := by
      intro l
      induction l with
      | nil => simp
      | cons x l ih =>
        intro hl
        have ih := abs_le.1 (ih fun y hy => hl y (List.mem_cons_of_mem _ hy))
        have hx := hl x List.mem_cons_self
        simp only [List.map_cons, List.sum_cons]
        have h1 := mul_le_mul_of_nonneg_left (neg_abs_le (ε x.1 - ε' x.1)) hx.le
        have h2 := mul_le_mul_of_nonneg_left (le_abs_self (ε x.1 - ε' x.1)) hx.le
        unfold corr at ih ⊢
        rw [abs_le]
        split_ifs <;> constructor <;> linarith [ih.1, ih.2]
    exact this _ hpos
  refine (Finset.sum_le_sum fun n hn => hi n (List.mem_toFinset.1 (mem_of_mem_erase hn))).trans ?_
  have hsub : ∀ f : ℕ → α, (∀ n, 0 ≤ f n) → ∑ n ∈ m.toFinset.erase mref, f n ≤ ∑ n ∈ m.toFinset, f n :=
    fun f hf => Finset.sum_le_sum_of_subset_of_nonneg (erase_subset _ _) fun n _ _ => hf n
  have hin : ∀ x ∈ inner E m, x.1.1 ∈ m ∧ x.1.2 ∈ m := fun x hx => (mem_inner hx).2
  refine (hsub _ fun n => ?_).trans ?_
  · apply List.sum_nonneg
    intro y hy
    obtain ⟨x, hx, rfl⟩ := List.mem_map.1 hy
    have := hpos x hx
    positivity
  · generalize inner E m = l at hin
    induction l with
    | nil => simp
    | cons x l ih =>
      have ih := ih fun y hy => hin y (List.mem_cons_of_mem _ hy)
      obtain ⟨h1, h2⟩ := hin x List.mem_cons_self
      simp only [List.map_cons, List.sum_cons, Finset.sum_add_distrib] at ih ⊢
      rw [Finset.sum_ite_eq, Finset.sum_ite_eq, if_pos (List.mem_toFinset.2 h1), if_pos (List.mem_toFinset.2 h2)]
      linarith

/-- **C138** The Poisson formulation with a solver of residual `η`: the correction is zero at the pinning cast, NaN outside the region, and within
`(1 + R) η` of the exact one at the end of a route of resistance `R`. -/
theorem poisson_accuracy (H : Region E m mref eos s t p ε) {η : α} {spsolve : ℕ → (ℕ → ℕ → Fl α) → (ℕ → Fl α) → ℕ → Fl α}
    (hs : NearSolve η spsolve) :
    ∃ φ : ℕ → α, poisson spsolve eos s t p (E.map Prod.fst) (.arr (E.map fun x => .fin x.2)) m mref =
        .ok (fun n => if n ∈ m then .fin (φ n) else nan) ∧ φ mref = 0 ∧
      ∀ ψ, Balanced E m ε ψ → ψ mref = 0 → ∀ n k R, Route E m mref n k R → |φ n - ψ n| ≤ (1 + R) * η := by
  obtain ⟨φ0, h1, h2, h3, h4⟩ := balanced_unique H
  have hR := rows_lt (E := E) (m := m) (ε := ε)
  have hw := rows_pos (ε := ε) H.pos
  have hc := rows_conn (ε := ε) H.nodup H.conn
  have href : m.idxOf mref < m.length := List.idxOf_lt_length_of_mem H.ref
  obtain ⟨D, L, e1, e2, e3⟩ := poissonSystem_exact (rowsOf E m ε) m.length (m.idxOf mref) hR href
  obtain ⟨z, hz, hη⟩ := hs m.length L D (vec m φ0) (fun r hr => by rw [e3 _ r hr, h3 r hr, e2]) (by
    intro y hy r hr
    have : ∀ r < m.length, pinned (rowsOf E m ε) (m.idxOf mref) (fun i => -1 * vec m φ0 i + y i) r = 0 := by
      intro r hr
      rw [pinned_lin, h3 r hr, ← e3 y r hr, hy r hr, e2]; ring
    have := pinned_inj hR hw href hc _ this r hr
    linear_combination this)
  have hη' : ∑ r ∈ range m.length, |pinned (rowsOf E m ε) (m.idxOf mref) z r - div (rowsOf E m ε) r| ≤ η := by
    refine le_trans (le_of_eq (Finset.sum_congr rfl fun r hr => ?_)) hη
    rw [e3 z r (mem_range.1 hr), e2]
  have hzr : |z (m.idxOf mref)| ≤ η := by
    have h : ∑ r ∈ range m.length, (pinned (rowsOf E m ε) (m.idxOf mref) z r - div (rowsOf E m ε) r) = z (m.idxOf mref) := by
      unfold pinned
      rw [Finset.sum_sub_distrib, Finset.sum_add_distrib, lap_sum hR, div_sum hR, Finset.sum_ite_eq', if_pos (mem_range.2 href)]
      ring
    rw [← h]
    exact (Finset.abs_sum_le_sum_abs _ _).trans hη'
  have hv : ∀ i < m.length, vec m (fun n => z (m.idxOf n)) i = z i := by
    intro i hi
    unfold vec
    dsimp only
    rw [List.getD_eq_getElem _ _ hi, H.nodup.idxOf_getElem]
  have himb : ∑ n ∈ m.toFinset.erase mref, |imbalance E m ε (fun n => z (m.idxOf n)) n| ≤ η := by
    have : ∀ n ∈ m.toFinset.erase mref, |imbalance E m ε (fun n => z (m.idxOf n)) n| =
        (fun r => |pinned (rowsOf E m ε) (m.idxOf mref) z r - div (rowsOf E m ε) r|) (m.idxOf n) := by
      intro n hn
      rw [mem_erase, List.mem_toFinset] at hn
      dsimp only
      rw [← abs_neg, ← imbalance_lap, lap_congr hR hv]
      unfold pinned
      rw [if_neg (fun h => hn.1 ((idx_eq hn.2).1 h)), add_zero]
    refine ((Finset.sum_congr rfl this).trans (sum_labels H.nodup H.ref fun r => |pinned (rowsOf E m ε) (m.idxOf mref) z r - div (rowsOf E m ε) r|).symm).le.trans ?_
    refine le_trans ?_ hη'
    exact Finset.sum_le_sum_of_subset_of_nonneg (erase_subset _ _) fun _ _ _ => abs_nonneg _
  have hη0 : 0 ≤ η := le_trans (abs_nonneg _) hzr
  refine ⟨fun n => if n = mref then 0 else z (m.idxOf n), ?_, if_pos rfl, ?_⟩
  · unfold poisson
    rw [if_neg (by have := H.two; omega), helper_eq H.nodup H.err, refOf_eq H.nodup H.ref, e1]
    show Res.ok _ = Res.ok _
    congr 1
    funext n
    by_cases hn : n = mref
    · subst hn
      rw [Function.update_self, if_pos H.ref, lit_eq, Rat.cast_zero]
      simp
    · rw [Function.update_of_ne hn, scatter_eq H.nodup]
      by_cases hm : n ∈ m
      · rw [if_pos hm, if_pos hm, hz _ (List.idxOf_lt_length_of_mem hm)]
        simp only [if_neg hn]
      · rw [if_neg hm, if_neg hm]
  · intro ψ hψ hψ0 n k R hroute
    have hR0 : 0 ≤ R := hroute.nonneg H.pos
    have h := correction_accuracy H.nodup H.pos H.ref (φ := fun n => z (m.idxOf n)) hψ hroute
    have h' := h.trans (mul_le_mul_of_nonneg_left himb hR0)
    dsimp only at h' ⊢
    by_cases hn : n = mref
    · rw [if_pos hn, hn, hψ0, sub_self, abs_zero]; positivity
    · rw [if_neg hn]
      rw [hψ0, sub_zero] at h'
      calc |z (m.idxOf n) - ψ n| = |(z (m.idxOf n) - z (m.idxOf mref) - ψ n) + z (m.idxOf mref)| := by congr 1; ring
        _ ≤ _ := abs_add_le _ _
        _ ≤ R * η + η := add_le_add h' hzr
        _ = _ := by ring

/-- If the cost of `φ` exceeds the least one by at most `g`, the square of the difference from the exact correction at the end of a route of `k`
edges and resistance `R` is at most `k R g`. -/
theorem cost_accuracy (H : Region E m mref eos s t p ε) {φ ψ : ℕ → α} (hψ : Balanced E m ε ψ) {g : α} (hg : cost E m ε φ ≤ cost E m ε ψ + g)
    {n k : ℕ} {R : α} (h : Route E m mref n k R) : ((φ n - φ mref) - (ψ n - ψ mref)) ^ 2 ≤ k * R * g := by
  have hsplit := cost_split H.nodup hψ φ
  have hen : energy (rowsOf E m ε) (vec m fun n => φ n - ψ n) ≤ g := by linarith
  have hg0 : 0 ≤ g := le_trans (energy_nonneg (rows_pos (ε := ε) H.pos) _) hen
  have hedge : ∀ x ∈ inner E m, x.2 * ((φ x.1.1 - ψ x.1.1) - (φ x.1.2 - ψ x.1.2)) ^ 2 ≤ g := by
    intro x hx
    refine le_trans ?_ hen
    unfold energy rowsOf
    rw [List.map_map]
    obtain ⟨_, h1, h2⟩ := mem_inner hx
    refine le_trans (le_of_eq ?_) (List.single_le_sum ?_ _ (List.mem_map.2 ⟨x, hx, rfl⟩))
    · simp only [Function.comp_apply, vec_idx _ h1, vec_idx _ h2]
    · intro y hy
      obtain ⟨x', hx', rfl⟩ := List.mem_map.1 hy
      have := H.pos x' hx'
      simp only [Function.comp_apply]
      positivity
  have hR := h.nonneg H.pos
  induction h with
  | here => simp
  | @along a b k R x hr hx hab ih =>
    have hw := H.pos x hx
    have hR0 := hr.nonneg H.pos
    have ih := ih hR0
    have he : ((φ b - ψ b) - (φ a - ψ a)) ^ 2 ≤ 1 / x.2 * g := by
      have h := hedge x hx
      rw [one_div, ← div_eq_inv_mul, le_div_iff₀ hw, mul_comm]
      rcases hab with h' | h' <;> rw [h'] at h
      · convert h using 2; ring
      · exact h
    set A := (φ a - φ mref) - (ψ a - ψ mref) with hA
    set C := (φ b - ψ b) - (φ a - ψ a) with hC
    have e : φ b - φ mref - (ψ b - ψ mref) = A + C := by rw [hA, hC]; ring
    rw [e]
    generalize 1 / x.2 = u at *
    have hu : 0 ≤ u * g := le_trans (sq_nonneg _) he
    -- (A + C)² ≤ (1 + 1/k) A² + (1 + k) C²
    rcases Nat.eq_zero_or_pos k with hk | hk
    · subst hk
      have hA0 : A ^ 2 ≤ 0 := by simpa using ih
      have hA0 : A = 0 := by
        have := le_antisymm hA0 (sq_nonneg A)
        exact pow_eq_zero_iff two_ne_zero |>.1 this
      rw [hA0, zero_add]
      push_cast
      have : 0 ≤ R * g := mul_nonneg hR0 hg0
      linarith
    · have hk' : (0 : α) < k := by exact_mod_cast hk
      have hyoung : 2 * A * C ≤ A ^ 2 / k + k * C ^ 2 := by
        have : 0 ≤ (A - k * C) ^ 2 / k := by positivity
        have e : (A - k * C) ^ 2 / k = A ^ 2 / k - 2 * A * C + k * C ^ 2 := by field_simp; ring
        linarith
      have hA1 : A ^ 2 / k ≤ R * g := by
        rw [div_le_iff₀ hk']
        linarith
      have hC1 : k * C ^ 2 ≤ k * (u * g) := mul_le_mul_of_nonneg_left he hk'.le
      push_cast
      calc (A + C) ^ 2 = A ^ 2 + 2 * A * C + C ^ 2 := by ring
        _ ≤ k * R * g + (R * g + k * (u * g)) + u * g := by linarith
        _ = _ := by ring

/-- **C138** The gradient formulation with a least squares solver that comes within `g` of the least sum of squares. -/
theorem gradient_accuracy (V : List ((ℕ × ℕ) × α)) (H : Region (squared V) m mref eos s t p ε) {g : α}
    {lsqr : ℕ → ℕ → (ℕ → ℕ → Fl α) → (ℕ → Fl α) → ℕ → Fl α} (hl : NearLsqr g lsqr) :
    ∃ φ : ℕ → α, gradient lsqr eos s t p (V.map Prod.fst) (.arr (V.map fun x => .fin x.2)) m mref =
        .ok (fun n => if n ∈ m then .fin (φ n) else nan) ∧ φ mref = 0 ∧
      ∀ ψ, Balanced (squared V) m ε ψ → ψ mref = 0 → ∀ n k R, Route (squared V) m mref n k R → (φ n - ψ n) ^ 2 ≤ k * R * g := by
  obtain ⟨φ0, h2, h3, _, _⟩ := balanced_unique H
  have herr : ∀ x ∈ inner V m, Ntp.epsErr eos s t p x.1 = .fin (ε x.1) := by
    intro x hx
    have : (x.1, x.2 ^ 2) ∈ inner (squared V) m := by rw [inner_squared]; exact List.mem_map.2 ⟨x, hx, rfl⟩
    exact H.err (x.1, x.2 ^ 2) this
  have hR := rows_lt (E := V) (m := m) (ε := ε)
  have href : m.idxOf mref < m.length := List.idxOf_lt_length_of_mem H.ref
  obtain ⟨M, b, g1, g2⟩ := gradientSystem_exact (rowsOf V m ε) m.length (m.idxOf mref) hR href
  have hcost : ∀ x : ℕ → α, rss ((rowsOf V m ε).length + 1) m.length M b x =
      cost (squared V) m ε (fun n => x (m.idxOf n)) + (x (m.idxOf mref) / 100) ^ 2 := by
    intro x
    rw [g2]
    congr 1
    unfold cost rowsOf
    rw [inner_squared, List.map_map, List.map_map]
    congr 1
    apply List.map_congr_left
    intro y _
    simp only [Function.comp_apply, corr]
    ring
  have hvec : ∀ n ∈ m, vec m φ0 (m.idxOf n) = φ0 n := fun n hn => vec_idx φ0 hn
  have hcv : cost (squared V) m ε (fun n => vec m φ0 (m.idxOf n)) = cost (squared V) m ε φ0 := by
    unfold cost
    congr 1
    apply List.map_congr_left
    intro x hx
    obtain ⟨_, i1, i2⟩ := mem_inner hx
    unfold corr
    dsimp only
    rw [hvec _ i1, hvec _ i2]
  obtain ⟨z, hz, hg⟩ := hl ((rowsOf V m ε).length + 1) m.length M b (vec m φ0) (by
      intro y
      rw [hcost, hcost, hcv, hvec _ H.ref, h2]
      have := (poisson_minimises H h3 fun n => y (m.idxOf n)).1
      have := sq_nonneg (y (m.idxOf mref) / 100)
      linarith [show ((0 : α) / 100) ^ 2 = 0 by simp]) (by
      intro y hy c hc
      rw [hcost, hcost, hcv, hvec _ H.ref, h2] at hy
      have p1 := poisson_minimises H h3 fun n => y (m.idxOf n)
      have p2 := sq_nonneg (y (m.idxOf mref) / 100)
      have p3 : ((0 : α) / 100) ^ 2 = 0 := by simp
      have p4 : (y (m.idxOf mref) / 100) ^ 2 = 0 := by linarith [p1.1]
      have p5 : y (m.idxOf mref) = 0 := by
        have := pow_eq_zero_iff two_ne_zero |>.1 p4
        rcases div_eq_zero_iff.1 this with h | h
        · exact h
        · norm_num at h
      obtain ⟨k, hk⟩ := p1.2.1 (by linarith)
      have hk0 : k = 0 := by
        have := hk mref H.ref
        rw [p5, h2] at this
        linear_combination -this
      have := hk m[c] (List.getElem_mem hc)
      rw [hk0, add_zero, H.nodup.idxOf_getElem] at this
      unfold vec
      rw [List.getD_eq_getElem _ _ hc, this])
  rw [hcost, hcost, hcv, hvec _ H.ref, h2] at hg
  have hg' : cost (squared V) m ε (fun n => z (m.idxOf n)) ≤ cost (squared V) m ε φ0 + g := by
    have := sq_nonneg (z (m.idxOf mref) / 100)
    linarith [show ((0 : α) / 100) ^ 2 = 0 by simp]
  refine ⟨fun n => z (m.idxOf n) - z (m.idxOf mref), ?_, sub_self _, ?_⟩
  · unfold gradient
    rw [if_neg (by have := H.two; omega)]
    simp only [helper_eq H.nodup herr, refOf_eq H.nodup H.ref, g1, List.length_map]
    congr 1
    funext n
    rw [scatter_eq H.nodup]
    by_cases hn : n ∈ m
    · rw [if_pos hn, if_pos hn, hz _ (List.idxOf_lt_length_of_mem hn), hz _ href, fin_sub]
    · rw [if_neg hn, if_neg hn]
  · intro ψ hψ hψ0 n k R hroute
    have hcψ : cost (squared V) m ε φ0 ≤ cost (squared V) m ε ψ := (poisson_minimises H h3 ψ).1
    have := cost_accuracy H hψ (φ := fun n => z (m.idxOf n)) (g := g) (by linarith) hroute
    rw [hψ0, sub_zero] at this
    exact this

/-- An exact solver has residual zero. -/
theorem ExactSolve.near {spsolve : ℕ → (ℕ → ℕ → Fl α) → (ℕ → Fl α) → ℕ → Fl α} (h : ExactSolve spsolve) : NearSolve 0 spsolve := by
  intro N L D x h1 h2
  refine ⟨x, h N L D x h1 h2, le_of_eq (Finset.sum_eq_zero fun r hr => ?_)⟩
  rw [h1 r (mem_range.1 hr), sub_self, abs_zero]

theorem ExactLsqr.near {lsqr : ℕ → ℕ → (ℕ → ℕ → Fl α) → (ℕ → Fl α) → ℕ → Fl α} (h : ExactLsqr lsqr) : NearLsqr 0 lsqr := by
  intro R C M b x h1 h2
  exact ⟨x, h R C M b x h1 h2, by rw [add_zero]⟩

/-! ## Examples -/

/-- A route to cast 0 in the triangle of `demo_region`, by way of cast 2; the bound with a solver of residual `1/100`. -/
example {spsolve : ℕ → (ℕ → ℕ → Fl ℚ) → (ℕ → Fl ℚ) → ℕ → Fl ℚ} (hs : NearSolve (1 / 100) spsolve) :
    ∃ φ ψ : ℕ → ℚ, φ 1 = 0 ∧ ψ 1 = 0 ∧ |φ 0 - ψ 0| ≤ 1 / 40 := by
  obtain ⟨ψ, h1, h2, -, -⟩ := balanced_unique demo_region
  obtain ⟨φ, -, h3, h4⟩ := poisson_accuracy demo_region hs
  have r2 : Route demoE [0, 1, 2] 1 2 1 (0 + 1 / 2) := .along (x := ((1, 2), 2)) .here (by decide) (.inl rfl)
  have r0 : Route demoE [0, 1, 2] 1 0 2 (0 + 1 / 2 + 1 / 1) := .along (x := ((2, 0), 1)) r2 (by decide) (.inl rfl)
  refine ⟨φ, ψ, h3, h1, ?_⟩
  have := h4 ψ h2 h1 0 _ _ r0
  norm_num at this ⊢
  exact this

/-- There are solvers with a residual that is not zero. -/
example : ∃ f : ℕ → (ℕ → ℕ → Fl ℚ) → (ℕ → Fl ℚ) → ℕ → Fl ℚ, NearSolve (1 / 100) f := by
  obtain ⟨⟨f, hf⟩, _⟩ := exact_solvers_exist (α := ℚ)
  refine ⟨f, fun N L D x h1 h2 => ?_⟩
  obtain ⟨z, h3, h4⟩ := hf.near N L D x h1 h2
  exact ⟨z, h3, h4.trans (by norm_num)⟩

end OmegaMat
