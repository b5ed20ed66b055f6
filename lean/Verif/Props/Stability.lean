import Verif.Model.Stability
import Verif.Props.Interp
import Mathlib.Algebra.BigOperators.Intervals
import Mathlib.Algebra.BigOperators.Ring.Finset
import Mathlib.Algebra.Order.BigOperators.Group.Finset
import Mathlib.Data.List.GetD
import Mathlib.Tactic.LinearCombination

/-!
# Properties of the stabilisation routines (C59, C60, C86 - C89)
-/

set_option linter.unusedSectionVars false

namespace Stability
open FloatLike Interp
open Fl hiding nan

section anyArithmetic
variable {F : Type*} [FloatLike F] {eos : F → F → F → F} {mini : Minimiser F} {minG : ℕ → F} {S T P : Arr F}

/-- A cast meets the minimum stability: no pair of neighbouring bottles in the valid block has a gradient below
the minimum. -/
def Meets (eos : F → F → F → F) (minG S T P : ℕ → F) (k K : ℕ) : Prop :=
  ∀ i, k ≤ i → i + 1 < K → lt (grad eos S T P i) (minG i) = false

theorem grad_shift (S T P : ℕ → F) (k i : ℕ) :
    grad eos (fun i => S (k + i)) (fun i => T (k + i)) (fun i => P (k + i)) i = grad eos S T P (k + i) := rfl

theorem unstable_iff (S T P minG : ℕ → F) (k K : ℕ) :
    unstable eos (fun i => S (k + i)) (fun i => T (k + i)) (fun i => P (k + i)) (fun i => minG (k + i)) (K - k) = false
      ↔ Meets eos minG S T P k K := by
  unfold unstable Meets
  rw [List.any_eq_false]
  constructor
  · intro h i h1 h2
    have := h (i - k) (by rw [List.mem_range]; omega)
    rw [grad_shift] at this
    simp only [show k + (i - k) = i by omega] at this
    simpa using this
  · intro h i hi
    rw [List.mem_range] at hi
    rw [grad_shift, h (k + i) (by omega) (by omega)]
    simp

/-- **C59** A cast that already meets the minimum stability is left exactly as it is, whatever the minimiser
does and in any arithmetic. -/
theorem cast_stable_unchanged (h : Meets eos minG S.get T.get P.get (validRange S).1 (validRange S).2) :
    castStep eos mini minG S T P = some (S, T) := by
  unfold castStep
  simp only
  have := (unstable_iff S.get T.get P.get minG _ _).mpr h
  rw [if_neg]
  rw [Bool.and_eq_true]
  rintro ⟨_, h2⟩
  exact absurd h2 (by rw [Bool.not_eq_true]; exact this)

/-- **C59** Casts with fewer than two valid bottles are left as they are. -/
theorem cast_short_unchanged (h : (validRange S).2 ≤ (validRange S).1 + 1) :
    castStep eos mini minG S T P = some (S, T) :=
  cast_stable_unchanged (fun i h1 h2 => by omega)

/-- **C59** Whatever happens, only the bottles of the first valid block change, and the sizes stay. -/
theorem cast_frame {S' T' : Arr F} (h : castStep eos mini minG S T P = some (S', T')) :
    S'.size = S.size ∧ T'.size = T.size ∧
    ∀ i, i < (validRange S).1 ∨ (validRange S).2 ≤ i → S'.get i = S.get i ∧ T'.get i = T.get i := by
  unfold castStep at h
  simp only at h
  split_ifs at h with hc
  · split at h
    · exact absurd h (by simp)
    · simp only [Option.some.injEq, Prod.mk.injEq] at h
      obtain ⟨h1, h2⟩ := h
      subst h1 h2
      refine ⟨rfl, rfl, ?_⟩
      intro i hi
      have : ¬ ((validRange S).1 ≤ i ∧ i < (validRange S).2) := by omega
      simp only [if_neg this]
      exact ⟨trivial, trivial⟩
  · simp only [Option.some.injEq, Prod.mk.injEq] at h
    obtain ⟨h1, h2⟩ := h
    subst h1 h2
    exact ⟨rfl, rfl, fun i _ => ⟨rfl, rfl⟩⟩

/-- A minimiser that only reports success at points where no constraint is negative, and with finite values. -/
def Feasible (eos : F → F → F → F) (mini : Minimiser F) : Prop :=
  ∀ n S T P m x, mini n S T P m = some x →
    (∀ i, i + 1 < n → lt (con eos S T P m n x i) (lit 0) = false) ∧ ∀ i, i < n → isFinite (S i + x i) = true

/-- `valid_range_1` of a cast in which finite values of the block were replaced by finite values. -/
theorem validRange_same (hfn : ∀ x : F, isFinite x = true → isNaN x = false) {S S' : Arr F} (hs : S'.size = S.size)
    (hout : ∀ i, i < (validRange S).1 ∨ (validRange S).2 ≤ i → S'.get i = S.get i)
    (hin : ∀ i, (validRange S).1 ≤ i → i < (validRange S).2 → isFinite (S'.get i) = true) :
    validRange S' = validRange S := by
  by_cases hk : (validRange S).1 < S.size
  · have hkk : (validRange S).1 = firstFrom (fun i => isFinite (S.get i)) 0 S.size := rfl
    have hKK : (validRange S).2 = firstFrom (fun i => isNaN (S.get i)) ((validRange S).1 + 1) S.size := rfl
    have hK : (validRange S).1 < (validRange S).2 := by
      rw [hKK]
      by_contra hc
      have hlt : firstFrom (fun i => isNaN (S.get i)) ((validRange S).1 + 1) S.size < S.size := by omega
      have := (firstFrom_at hlt).1
      omega
    have e1 : firstFrom (fun i => isFinite (S'.get i)) 0 S'.size = (validRange S).1 := by
      apply firstFrom_eq (by omega)
      · intro i _ hi
        rw [hout i (Or.inl hi)]
        rw [hkk] at hi
        exact firstFrom_before (p := fun i => isFinite (S.get i)) (Nat.zero_le i) hi
      · intro _
        exact ⟨Nat.zero_le _, hin _ (le_refl _) hK⟩
    have e2 : firstFrom (fun i => isNaN (S'.get i)) ((validRange S).1 + 1) S'.size = (validRange S).2 := by
      have hle : (validRange S).2 ≤ S.size := firstFrom_le _ _ _
      apply firstFrom_eq (by omega)
      · intro i h1 h2
        exact hfn _ (hin i (by omega) h2)
      · intro hlt
        rw [hs] at hlt
        rw [hout _ (Or.inr (le_refl _))]
        rw [hKK] at hlt
        have := firstFrom_at hlt
        rw [hKK]
        exact this
    unfold validRange
    simp only [e1, e2]
    rfl
  · have hle : (validRange S).1 ≤ S.size := firstFrom_le _ _ _
    have hall : ∀ i, i < S.size → S'.get i = S.get i := fun i hi => hout i (Or.inl (by omega))
    unfold validRange
    simp only
    have e1 : ∀ lo, firstFrom (fun i => isFinite (S'.get i)) lo S'.size = firstFrom (fun i => isFinite (S.get i)) lo S.size := by
      intro lo
      rw [hs]
      unfold firstFrom
      congr 1
      apply List.find?_congr
      intro i hi
      rw [List.mem_range'_1] at hi
      rw [hall i (by omega)]
    have e2 : ∀ lo, firstFrom (fun i => isNaN (S'.get i)) lo S'.size = firstFrom (fun i => isNaN (S.get i)) lo S.size := by
      intro lo
      rw [hs]
      unfold firstFrom
      congr 1
      apply List.find?_congr
      intro i hi
      rw [List.mem_range'_1] at hi
      rw [hall i (by omega)]
    rw [e1, e2]

/-- **C59** If the minimiser's point is feasible, the cast meets the minimum stability afterwards, and a second
call leaves it as it is (with any minimiser).  In any arithmetic in which `a < b` implies `a - b < 0`, such as IEEE. -/
theorem cast_stabilised (hfn : ∀ x : F, isFinite x = true → isNaN x = false)
    (hlt : ∀ a b : F, lt a b = true → lt (a - b) (lit 0) = true) (hm : Feasible eos mini) {S' T' : Arr F}
    (h : castStep eos mini minG S T P = some (S', T')) :
    Meets eos minG S'.get T'.get P.get (validRange S').1 (validRange S').2 ∧
    ∀ mini', castStep eos mini' minG S' T' P = some (S', T') := by
  have key : Meets eos minG S'.get T'.get P.get (validRange S').1 (validRange S').2 := by
    unfold castStep at h
    simp only at h
    split_ifs at h with hc
    · split at h
      · exact absurd h (by simp)
      · rename_i x hx
        obtain ⟨f1, f2⟩ := hm _ _ _ _ _ _ hx
        simp only [Option.some.injEq, Prod.mk.injEq] at h
        obtain ⟨h1, h2⟩ := h
        subst h1 h2
        have hvr : validRange (⟨S.size, fun i => if (validRange S).1 ≤ i ∧ i < (validRange S).2 then
            S.get i + x (i - (validRange S).1) else S.get i⟩ : Arr F) = validRange S := by
          refine validRange_same (S := S) (S' := ⟨S.size, _⟩) hfn rfl ?_ ?_
          · intro i hi
            exact if_neg (by omega)
          · intro i h1 h2
            show isFinite (if _ then _ else _) = true
            rw [if_pos ⟨h1, h2⟩]
            have := f2 (i - (validRange S).1) (by omega)
            have e : (S.slice (validRange S).1 (validRange S).2).get (i - (validRange S).1) = S.get i := by
              show S.get _ = _
              congr 1; omega
            rw [e] at this
            exact this
        rw [hvr]
        intro i h1 h2
        have h3 := f1 (i - (validRange S).1) (by omega)
        rcases Bool.eq_false_or_eq_true (lt (grad eos _ _ P.get i) (minG i)) with h | h
        · exfalso
          have h4 := hlt _ _ h
          have : con eos (S.slice (validRange S).1 (validRange S).2).get (T.slice (validRange S).1 (validRange S).2).get
              (P.slice (validRange S).1 (validRange S).2).get (fun i => minG ((validRange S).1 + i))
              ((validRange S).2 - (validRange S).1) x (i - (validRange S).1) = grad eos
              (fun i => if (validRange S).1 ≤ i ∧ i < (validRange S).2 then S.get i + x (i - (validRange S).1) else S.get i)
              (fun i => if (validRange S).1 ≤ i ∧ i < (validRange S).2 then
                T.get i + x ((validRange S).2 - (validRange S).1 + (i - (validRange S).1)) else T.get i) P.get i - minG i := by
            unfold con grad Arr.slice
            simp only
            have c1 : (validRange S).1 ≤ i ∧ i < (validRange S).2 := ⟨h1, by omega⟩
            have c2 : (validRange S).1 ≤ i + 1 ∧ i + 1 < (validRange S).2 := ⟨by omega, h2⟩
            simp only [if_pos c1, if_pos c2, show (validRange S).1 + (i - (validRange S).1) = i by omega,
              show (validRange S).1 + (i - (validRange S).1 + 1) = i + 1 by omega,
              show i + 1 - (validRange S).1 = i - (validRange S).1 + 1 by omega]
          rw [this, h4] at h3
          exact absurd h3 (by simp)
        · exact h
    · simp only [Option.some.injEq, Prod.mk.injEq] at h
      obtain ⟨h1, h2⟩ := h
      subst h1 h2
      rw [Bool.and_eq_true, not_and_or] at hc
      rcases hc with hc | hc
      · intro i h1 h2
        simp only [decide_eq_true_eq] at hc
        omega
      · rw [Bool.not_eq_true] at hc
        exact (unstable_iff S.get T.get P.get minG _ _).mp hc
  exact ⟨key, fun mini' => cast_stable_unchanged key⟩

/-! ### The loop over casts -/

/-- **C59** What the loop does: it handles the casts in order, each on its own, until the first failure; from
there on casts are as they were. -/
theorem loop_spec (l : List (Arr F × Arr F × Arr F)) : (loop eos mini minG l).1.length = l.length ∧
    ∃ m, m ≤ l.length ∧ ((loop eos mini minG l).2 = true ↔ m = l.length) ∧
      ∀ (i : ℕ) (c : Arr F × Arr F × Arr F), l[i]? = some c →
        (i < m → (castStep eos mini minG c.1 c.2.1 c.2.2 = (loop eos mini minG l).1[i]? ∧
          (castStep eos mini minG c.1 c.2.1 c.2.2).isSome)) ∧
        (i = m → castStep eos mini minG c.1 c.2.1 c.2.2 = none) ∧
        (m ≤ i → (loop eos mini minG l).1[i]? = some (c.1, c.2.1)) := by
  induction l with
  | nil => exact ⟨rfl, 0, le_refl _, by simp [loop], by simp⟩
  | cons c cs ih =>
    obtain ⟨hl, m, hm, hok, hspec⟩ := ih
    cases hc : castStep eos mini minG c.1 c.2.1 c.2.2 with
    | none =>
      have e : loop eos mini minG (c :: cs) = ((c.1, c.2.1) :: cs.map (fun c => (c.1, c.2.1)), false) := by
        simp only [loop, hc]
      rw [e]
      refine ⟨by simp, 0, Nat.zero_le _, by simp, ?_⟩
      intro i d hd
      refine ⟨by omega, ?_, ?_⟩
      · intro hi
        subst hi
        simp only [List.getElem?_cons_zero, Option.some.injEq] at hd
        rw [← hd]; exact hc
      · intro _
        cases i with
        | zero =>
          simp only [List.getElem?_cons_zero, Option.some.injEq] at hd ⊢
          rw [← hd]
        | succ i =>
          rw [List.getElem?_cons_succ] at hd ⊢
          rw [List.getElem?_map, hd]; rfl
    | some st =>
      have e : loop eos mini minG (c :: cs) = (st :: (loop eos mini minG cs).1, (loop eos mini minG cs).2) := by
        simp only [loop, hc]
      rw [e]
      refine ⟨by simp [hl], m + 1, by simp; omega, by simp [hok], ?_⟩
      intro i d hd
      cases i with
      | zero =>
        simp only [List.getElem?_cons_zero, Option.some.injEq] at hd
        subst hd
        refine ⟨fun _ => ⟨by rw [hc]; rfl, by rw [hc]; rfl⟩, by omega, by omega⟩
      | succ i =>
        rw [List.getElem?_cons_succ] at hd
        obtain ⟨a1, a2, a3⟩ := hspec i d hd
        refine ⟨fun h => ?_, fun h => a2 (by omega), fun h => ?_⟩
        · rw [List.getElem?_cons_succ]; exact a1 (by omega)
        · rw [List.getElem?_cons_succ]; exact a3 (by omega)

end anyArithmetic

/-! ### The objective and its Jacobian -/

section exact
variable {α : Type*} [Field α] [LinearOrder α] [IsStrictOrderedRing α]

theorem foldl_fin (g : ℕ → α) (n : ℕ) (a : α) :
    (List.range n).foldl (fun (s : Fl α) i => s + Fl.fin (g i)) (.fin a) = .fin (a + ∑ i ∈ Finset.range n, g i) := by
  induction n with
  | zero => simp
  | succ n ih => rw [List.range_succ, List.foldl_append, ih, Finset.sum_range_succ]; simp [add_assoc]

/-- The objective as a sum of squares. -/
theorem objective_fin (w : α) (m : ℕ) (x : ℕ → α) : objective (Fl.fin w) m (fun i => .fin (x i)) =
    .fin (∑ i ∈ Finset.range (m / 2), (w * x i ^ 2 + x (m / 2 + i) ^ 2)) := by
  unfold objective
  have : (fun (s : Fl α) i => s + (Fl.fin w * Fl.fin (x i) * Fl.fin (x i) + Fl.fin (x (m / 2 + i)) * Fl.fin (x (m / 2 + i)))) =
      fun s i => s + Fl.fin (w * x i ^ 2 + x (m / 2 + i) ^ 2) := by
    funext s i
    simp only [fin_mul, fin_add]
    congr 2
    ring
  rw [this, lit_eq, foldl_fin]
  simp

theorem jac_fin (w : α) (m : ℕ) (x : ℕ → α) (i : ℕ) : jac (Fl.fin w) m (fun i => .fin (x i)) i =
    .fin (if i < m / 2 then 2 * x i * w else 2 * x i) := by
  unfold jac
  split_ifs <;> simp

/-- **C86** The Jacobian handed to the minimiser is exactly the gradient of the objective: for every point,
direction and weight, `f(x + h) = f(x) + jac(x)·h + f(h)`, with `f(h)` quadratic in `h`. -/
theorem jac_is_gradient (w : α) (n : ℕ) (x h : ℕ → α) : ∃ fx fh fxh : α, ∃ J : ℕ → α,
    objective (Fl.fin w) (2 * n) (fun i => .fin (x i)) = .fin fx ∧
    objective (Fl.fin w) (2 * n) (fun i => .fin (h i)) = .fin fh ∧
    objective (Fl.fin w) (2 * n) (fun i => .fin (x i + h i)) = .fin fxh ∧
    (∀ i, jac (Fl.fin w) (2 * n) (fun i => .fin (x i)) i = .fin (J i)) ∧
    fxh = fx + ∑ i ∈ Finset.range (2 * n), J i * h i + fh ∧
    (∀ t : α, objective (Fl.fin w) (2 * n) (fun i => .fin (t * h i)) = .fin (t ^ 2 * fh)) := by
  refine ⟨_, _, _, _, objective_fin w (2 * n) x, objective_fin w (2 * n) h, objective_fin w (2 * n) (fun i => x i + h i),
    jac_fin w (2 * n) x, ?_, ?_⟩
  · simp only [show 2 * n / 2 = n by omega]
    rw [two_mul, Finset.sum_range_add]
    have e1 : ∑ i ∈ Finset.range n, (if i < n then 2 * x i * w else 2 * x i) * h i =
        ∑ i ∈ Finset.range n, 2 * x i * w * h i := by
      apply Finset.sum_congr rfl
      intro i hi
      rw [if_pos (Finset.mem_range.mp hi)]
    have e2 : ∑ i ∈ Finset.range n, (if n + i < n then 2 * x (n + i) * w else 2 * x (n + i)) * h (n + i) =
        ∑ i ∈ Finset.range n, 2 * x (n + i) * h (n + i) := by
      apply Finset.sum_congr rfl
      intro i hi
      rw [if_neg (by omega)]
    rw [e1, e2, ← Finset.sum_add_distrib, ← Finset.sum_add_distrib, ← Finset.sum_add_distrib]
    apply Finset.sum_congr rfl
    intro i _
    ring
  · intro t
    rw [objective_fin w (2 * n) (fun i => t * h i), Finset.mul_sum]
    congr 1
    apply Finset.sum_congr rfl
    intro i _
    ring

/-- **C86** With a positive weight the objective is never negative, and zero exactly for the zero perturbation. -/
theorem objective_zero_iff {w : α} (hw : 0 < w) (n : ℕ) (x : ℕ → α) : ∃ fx : α,
    objective (Fl.fin w) (2 * n) (fun i => .fin (x i)) = .fin fx ∧ 0 ≤ fx ∧ (fx = 0 ↔ ∀ i, i < 2 * n → x i = 0) := by
  refine ⟨_, objective_fin w (2 * n) x, ?_, ?_⟩
  · exact Finset.sum_nonneg fun i _ => add_nonneg (mul_nonneg hw.le (sq_nonneg _)) (sq_nonneg _)
  · rw [Finset.sum_eq_zero_iff_of_nonneg (fun i _ => add_nonneg (mul_nonneg hw.le (sq_nonneg _)) (sq_nonneg _))]
    simp only [show 2 * n / 2 = n by omega, Finset.mem_range]
    constructor
    · intro h
      have key : ∀ i, i < n → x i = 0 ∧ x (n + i) = 0 := by
        intro i hi
        have := (add_eq_zero_iff_of_nonneg (mul_nonneg hw.le (sq_nonneg (x i))) (sq_nonneg (x (n + i)))).mp (h i hi)
        refine ⟨?_, pow_eq_zero_iff (n := 2) (by norm_num) |>.mp this.2⟩
        rcases mul_eq_zero.mp this.1 with h0 | h0
        · exact absurd h0 hw.ne'
        · exact pow_eq_zero_iff (n := 2) (by norm_num) |>.mp h0
      intro i hi
      by_cases hin : i < n
      · exact (key i hin).1
      · have := (key (i - n) (by omega)).2
        rwa [show n + (i - n) = i by omega] at this
    · intro h i hi
      rw [h i (by omega), h (n + i) (by omega)]
      simp

/-! ### `count_unstable` -/

/-- **C87** For finite densities, `count_unstable` is zero exactly when the density referenced to the mid pressure
strictly increases from each bottle to the next. -/
theorem count_zero_iff {eos : Fl α → Fl α → Fl α → Fl α} {S T P : ℕ → Fl α} {nk : ℕ} (r : ℕ → α × α)
    (h1 : ∀ k, k + 1 < nk → eos (S k) (T k) ((P k + P (k + 1)) / lit 2) = .fin (r k).1)
    (h2 : ∀ k, k + 1 < nk → eos (S (k + 1)) (T (k + 1)) ((P k + P (k + 1)) / lit 2) = .fin (r k).2) :
    countPairs eos S T P nk = 0 ↔ ∀ k, k + 1 < nk → (r k).1 < (r k).2 := by
  unfold countPairs
  rw [List.countP_eq_zero]
  constructor
  · intro h k hk
    have := h k (by rw [List.mem_range]; omega)
    simp only [h1 k hk, h2 k hk, le_fin, decide_eq_true_eq, not_le] at this
    exact this
  · intro h k hk
    rw [List.mem_range] at hk
    simp only [h1 k (by omega), h2 k (by omega), le_fin, decide_eq_true_eq, not_le]
    exact h k (by omega)

/-- **C87** After a successful stabilisation with a positive minimum, of a cast without NaN and with increasing
pressures, `count_unstable` finds nothing. -/
theorem count_zero_after {eos : Fl α → Fl α → Fl α → Fl α} {S T P : ℕ → Fl α} {minG : ℕ → Fl α} {nk : ℕ}
    (hm : Meets eos minG S T P 0 nk) (p g : ℕ → α) (r : ℕ → α × α)
    (hP : ∀ k, k < nk → P k = .fin (p k)) (hp : ∀ k, k + 1 < nk → p k < p (k + 1))
    (hg : ∀ k, k + 1 < nk → minG k = .fin (g k) ∧ 0 < g k)
    (h1 : ∀ k, k + 1 < nk → eos (S k) (T k) ((P k + P (k + 1)) / lit 2) = .fin (r k).1)
    (h2 : ∀ k, k + 1 < nk → eos (S (k + 1)) (T (k + 1)) ((P k + P (k + 1)) / lit 2) = .fin (r k).2) :
    countPairs eos S T P nk = 0 := by
  rw [count_zero_iff r h1 h2]
  intro k hk
  have := hm k (Nat.zero_le _) hk
  unfold grad at this
  have hd : p (k + 1) - p k ≠ 0 := by have := hp k hk; intro h; linarith
  dsimp only at this
  rw [h1 k hk, h2 k hk, hP k (by omega), hP (k + 1) hk, fin_sub, fin_sub, (hg k hk).1] at this
  rw [fin_div _ _ hd, lt_fin, decide_eq_false_iff_not, not_lt] at this
  have hpos : 0 < ((r k).2 - (r k).1) / (p (k + 1) - p k) := lt_of_lt_of_le (hg k hk).2 this
  have hpp : 0 < p (k + 1) - p k := by have := hp k hk; linarith
  have := (div_pos_iff_of_pos_right hpp).mp hpos
  linarith


/-- Slope of the piece that `count_unstable` looks at for bottle `k`: the piece above, or the first piece for the
first bottle. -/
def slopeAbove (a y : ℕ → α) (k : ℕ) : α := (y (k - 1 + 1) - y (k - 1)) / (a (k - 1 + 1) - a (k - 1))

/-- **C88** With linear interpolation, `count_unstable` tests, for each bottle but the deepest, the piece *above* it
(the first piece for the first two bottles). -/
theorem count_interp_spec {S T P : Arr (Fl α)} {a s t : ℕ → α} {nk : ℕ} (hn : S.size = nk)
    (BS : Block P S 0 nk a s) (BT : Block P T 0 nk a t) (eosST : Fl α → Fl α → Fl α → Fl α × Fl α)
    (rs rt : ℕ → α) (hr : ∀ k, k + 1 < nk → eosST (S.get k) (T.get k) (P.get k) = (.fin (rs k), .fin (rt k))) :
    countInterp (ppinterp1Two linearCoeffsI) eosST S T P =
      (List.range (nk - 1)).countP fun k => decide (rs k * slopeAbove a s k + rt k * slopeAbove a t k < 0) := by
  unfold countInterp
  rw [hn]
  apply List.countP_congr
  intro k hk
  rw [List.mem_range] at hk
  have h1 : ∀ {Y : Arr (Fl α)} {y : ℕ → α}, Block P Y 0 nk a y →
      ppinterp1 linearCoeffsI (P.get k) P Y 1 = some (.fin (slopeAbove a y k)) := by
    intro Y y B
    rw [B.hX k (Nat.zero_le _) (by omega)]
    rcases Nat.eq_zero_or_pos k with h0 | h0
    · subst h0
      exact ((linear_chord B (i := 0) (x := a 0) (le_refl _) (by omega) (le_refl _)
        (B.inc 0 (le_refl _) (by omega)).le).2.2 (Or.inr rfl)).2
    · have hi := B.inc (k - 1) (Nat.zero_le _) (by omega)
      rw [show k - 1 + 1 = k by omega] at hi
      exact ((linear_chord B (i := k - 1) (x := a k) (Nat.zero_le _) (by omega) hi.le
        (by rw [show k - 1 + 1 = k by omega])).2.2 (Or.inl hi)).2
  have h2 : ppinterp1Two linearCoeffsI (P.get k) P S T 1 =
      some (.fin (slopeAbove a s k), .fin (slopeAbove a t k)) := by
    exact (ppinterp1Two_eq (by rw [BS.vr, BT.vr]) _ _ _ _).mpr ⟨h1 BS, h1 BT⟩
  rw [h2, hr k (by omega)]
  simp

/-- **C88** Hence, with linear interpolation, the deepest bottle never counts: two casts of at least three bottles
that agree except for the deepest bottle's salinity and temperature get the same count. -/
theorem count_interp_ignores_deepest {S T S' T' P : Arr (Fl α)} {a s t s' t' : ℕ → α} {nk : ℕ} (h3 : 3 ≤ nk)
    (hn : S.size = nk) (hn' : S'.size = nk)
    (BS : Block P S 0 nk a s) (BT : Block P T 0 nk a t) (BS' : Block P S' 0 nk a s') (BT' : Block P T' 0 nk a t')
    (hs : ∀ k, k + 1 < nk → s k = s' k) (ht : ∀ k, k + 1 < nk → t k = t' k)
    (eosST : Fl α → Fl α → Fl α → Fl α × Fl α) (rs rt : α → α → α → α)
    (hr : ∀ x y z, eosST (.fin x) (.fin y) (.fin z) = (.fin (rs x y z), .fin (rt x y z))) :
    countInterp (ppinterp1Two linearCoeffsI) eosST S T P = countInterp (ppinterp1Two linearCoeffsI) eosST S' T' P := by
  rw [count_interp_spec hn BS BT eosST (fun k => rs (s k) (t k) (a k)) (fun k => rt (s k) (t k) (a k))
      (fun k hk => by rw [BS.hX k (Nat.zero_le _) (by omega), BS.hY k (Nat.zero_le _) (by omega),
        BT.hY k (Nat.zero_le _) (by omega), hr]),
    count_interp_spec hn' BS' BT' eosST (fun k => rs (s' k) (t' k) (a k)) (fun k => rt (s' k) (t' k) (a k))
      (fun k hk => by rw [BS'.hX k (Nat.zero_le _) (by omega), BS'.hY k (Nat.zero_le _) (by omega),
        BT'.hY k (Nat.zero_le _) (by omega), hr])]
  apply List.countP_congr
  intro k hk
  rw [List.mem_range] at hk
  unfold slopeAbove
  rw [hs k (by omega), ht k (by omega), hs (k - 1) (by omega), ht (k - 1) (by omega),
    hs (k - 1 + 1) (by omega), ht (k - 1 + 1) (by omega)]

end exact

/-! ### The caller's arrays -/

section memory
variable {F : Type*} [FloatLike F]

theorem cStrides_length (sh : List ℕ) : (cStrides sh).length = sh.length := by
  induction sh with
  | nil => rfl
  | cons a r ih => simp [cStrides, ih]

theorem cStrides_getD (sh : List ℕ) : ∀ v, v < sh.length → (cStrides sh).getD v 0 = (sh.drop (v + 1)).prod := by
  induction sh with
  | nil => intro v h; simp at h
  | cons a r ih =>
    intro v h
    cases v with
    | zero => simp [cStrides]
    | succ v =>
      simp only [cStrides, List.getD_cons_succ, List.drop_succ_cons]
      exact ih v (by simpa using h)

theorem prod_ge_two {l : List ℕ} (h2 : ∀ n ∈ l, 2 ≤ n) (hne : l ≠ []) : 2 ≤ l.prod := by
  induction l with
  | nil => exact absurd rfl hne
  | cons a r ih =>
    rw [List.prod_cons]
    have ha := h2 a (by simp)
    by_cases hr : r = []
    · subst hr; simpa using ha
    · have := ih (fun n hn => h2 n (by simp [hn])) hr
      nlinarith

/-- An array in C order whose vertical axis is moved to the end is no longer in C order. -/
theorem moved_not_C {sh : List ℕ} {v : ℕ} (h2 : ∀ n ∈ sh, 2 ≤ n) (hv : v + 1 < sh.length) :
    isC (moveLast sh v) (moveLast (cStrides sh) v) = false := by
  unfold isC moveLast
  rw [List.zip_append (by rw [List.length_eraseIdx_of_lt (by omega), List.length_eraseIdx_of_lt (by rw [cStrides_length]; omega),
    cStrides_length]), List.reverse_append]
  simp only [List.zip_cons_cons, List.zip_nil_left, List.reverse_cons, List.reverse_nil, List.nil_append, List.singleton_append]
  unfold contigRev
  have hg : 2 ≤ sh.getD v 0 := by
    rw [List.getD_eq_getElem _ _ (by omega)]
    exact h2 _ (List.getElem_mem _)
  rw [if_neg (by omega), cStrides_getD _ _ (by omega)]
  have := prod_ge_two (l := sh.drop (v + 1)) (fun n hn => h2 n (List.mem_of_mem_drop hn))
    (by rw [Ne, List.drop_eq_nil_iff]; omega)
  rw [decide_eq_false (by omega)]
  rfl

/-- **C60** (violated) Arrays in C order with the vertical dimension first (or anywhere but last) are *not* mutated:
`stabilize_ST` works on a copy that is thrown away, whatever the cast, the minimiser and the outcome. -/
theorem stabilize_lost (eos : F → F → F → F) (mini : Minimiser F) (minG : ℕ → F) (S T : Ndarray F) (P : ℕ → Arr F)
    {sh : List ℕ} {v : ℕ} (hS : S.shape = sh) (hS' : S.strides = cStrides sh) (hT : T.shape = sh)
    (hT' : T.strides = cStrides sh) (h2 : ∀ n ∈ sh, 2 ≤ n) (hv : v + 1 < sh.length) :
    (stabilizeST eos mini minG S T P v).1 = S.data ∧ (stabilizeST eos mini minG S T P v).2.1 = T.data := by
  have key : ∀ A : Ndarray F, A.shape = sh → A.strides = cStrides sh → (contiguous A v).2.2 = false := by
    intro A h h'
    unfold contiguous
    rw [h, h']
    simp only [decide_eq_true (show 1 < sh.length by omega), decide_eq_true (show v ≠ sh.length - 1 by omega), Bool.and_self,
      if_true, moved_not_C h2 hv, Bool.and_false]
  unfold stabilizeST
  simp only [key S hS hS', key T hT hT']
  exact ⟨rfl, rfl⟩

/-- **C60** (violated) Arrays whose dtype is not `float64` are not mutated either. -/
theorem stabilize_lost_dtype (eos : F → F → F → F) (mini : Minimiser F) (minG : ℕ → F) (S T : Ndarray F) (P : ℕ → Arr F)
    (v : ℕ) (hS : S.f64 = false) (hT : T.f64 = false) :
    (stabilizeST eos mini minG S T P v).1 = S.data ∧ (stabilizeST eos mini minG S T P v).2.1 = T.data := by
  have key : ∀ A : Ndarray F, A.f64 = false → (contiguous A v).2.2 = false := by
    intro A h
    unfold contiguous
    simp only [h, Bool.false_and]
  unfold stabilizeST
  simp only [key S hS, key T hT]
  exact ⟨rfl, rfl⟩

theorem contigRev_append (l : List (ℕ × ℕ)) (n s : ℕ) : ∀ e, contigRev e (l ++ [(n, s)]) =
    (contigRev e l && (decide (n = 1) || decide (s = e * (l.map Prod.fst).prod))) := by
  induction l with
  | nil =>
    intro e
    by_cases h : n = 1 <;> simp [contigRev, h]
  | cons c r ih =>
    intro e
    obtain ⟨m, u⟩ := c
    rw [List.cons_append]
    unfold contigRev
    by_cases h : m = 1
    · rw [if_pos h, if_pos h, ih, h]; simp
    · rw [if_neg h, if_neg h, ih]
      simp only [List.map_cons, List.prod_cons, mul_assoc, Bool.and_assoc]

theorem cStrides_isC (sh : List ℕ) : isC sh (cStrides sh) = true := by
  unfold isC
  induction sh with
  | nil => rfl
  | cons a r ih =>
    unfold cStrides
    rw [List.zip_cons_cons, List.reverse_cons, contigRev_append, ih]
    rw [List.map_reverse, List.prod_reverse, List.map_fst_zip (by rw [cStrides_length])]
    simp

theorem offset_unravel (sh : List ℕ) : ∀ j, j < sh.prod →
    (List.zipWith (· * ·) (cStrides sh) (unravel sh j)).sum = j := by
  induction sh with
  | nil => intro j h; simp at h; simp [cStrides, unravel, h]
  | cons a r ih =>
    intro j h
    rw [List.prod_cons] at h
    have hr : 0 < r.prod := by
      rcases Nat.eq_zero_or_pos r.prod with h0 | h0
      · rw [h0] at h; simp at h
      · exact h0
    unfold cStrides unravel
    rw [List.zipWith_cons_cons, List.sum_cons, ih _ (Nat.mod_lt _ hr)]
    exact Nat.div_add_mod j r.prod

theorem prod_split {sh : List ℕ} (hne : sh ≠ []) : sh.prod = sh.dropLast.prod * sh.getLastD 0 := by
  conv_lhs => rw [← List.dropLast_append_getLast hne]
  rw [List.prod_append, List.prod_singleton, List.getLastD_eq_getLast?, List.getLast?_eq_some_getLast hne]
  rfl

/-- In C order, level `i` of cast `c` is at position `c * nk + i` of the memory. -/
theorem castOf_get (data : ℕ → F) {sh : List ℕ} (hne : sh ≠ []) {c i : ℕ} (hc : c < sh.dropLast.prod)
    (hi : i < sh.getLastD 0) : (castOf data sh (cStrides sh) c).get i = data (c * sh.getLastD 0 + i) := by
  unfold castOf entry
  dsimp only
  rw [offset_unravel]
  rw [prod_split hne]
  calc c * sh.getLastD 0 + i < c * sh.getLastD 0 + sh.getLastD 0 := by omega
    _ = (c + 1) * sh.getLastD 0 := by ring
    _ ≤ _ := Nat.mul_le_mul_right _ hc

/-- **C60** (the part that holds) `float64` arrays in C order with the vertical dimension last are mutated in place:
if `stabilize_ST` returns, each cast has become what stabilising that cast alone gives. -/
theorem stabilize_in_place_partial (eos : F → F → F → F) (mini : Minimiser F) (minG : ℕ → F) (S T : Ndarray F) (P : ℕ → Arr F)
    {sh : List ℕ} (hne : sh ≠ []) (hS : S.shape = sh) (hS' : S.strides = cStrides sh) (hSf : S.f64 = true) (hT : T.shape = sh)
    (hT' : T.strides = cStrides sh) (hTf : T.f64 = true)
    (hok : (stabilizeST eos mini minG S T P (sh.length - 1)).2.2 = true) {c : ℕ} (hc : c < sh.dropLast.prod) :
    ∃ S' T' : Arr F, castStep eos mini minG (castOf S.data sh (cStrides sh) c) (castOf T.data sh (cStrides sh) c) (P c) =
        some (S', T') ∧
      ∀ i, i < sh.getLastD 0 →
        (stabilizeST eos mini minG S T P (sh.length - 1)).1 (c * sh.getLastD 0 + i) = S'.get i ∧
        (stabilizeST eos mini minG S T P (sh.length - 1)).2.1 (c * sh.getLastD 0 + i) = T'.get i := by
  have key : ∀ A : Ndarray F, A.shape = sh → A.strides = cStrides sh → A.f64 = true →
      contiguous A (sh.length - 1) = (sh, cStrides sh, true) := by
    intro A h h' hf
    unfold contiguous
    rw [h, h', hf]
    simp [cStrides_isC]
  unfold stabilizeST at hok ⊢
  simp only [key S hS hS' hSf, key T hT hT' hTf] at hok ⊢
  generalize hl : (List.map (fun c => (castOf S.data sh (cStrides sh) c, castOf T.data sh (cStrides sh) c, P c))
    (List.range sh.dropLast.prod)) = l at hok ⊢
  have hlen : l.length = sh.dropLast.prod := by rw [← hl]; simp
  obtain ⟨e1, m, hm, hm', hspec⟩ := loop_spec (eos := eos) (mini := mini) (minG := minG) l
  have hml : m = l.length := hm'.mp hok
  have hlc : l[c]? = some (castOf S.data sh (cStrides sh) c, castOf T.data sh (cStrides sh) c, P c) := by
    rw [← hl, List.getElem?_map, List.getElem?_range hc]; rfl
  obtain ⟨g1, g2⟩ := (hspec c _ hlc).1 (by omega)
  rw [Option.isSome_iff_exists] at g2
  obtain ⟨⟨S', T'⟩, g2⟩ := g2
  refine ⟨S', T', g2, ?_⟩
  rw [g2] at g1
  intro i hi
  have hp : c * sh.getLastD 0 + i < sh.prod := by
    rw [prod_split hne]
    calc c * sh.getLastD 0 + i < c * sh.getLastD 0 + sh.getLastD 0 := by omega
      _ = (c + 1) * sh.getLastD 0 := by ring
      _ ≤ _ := Nat.mul_le_mul_right _ hc
  have hd : (c * sh.getLastD 0 + i) / sh.getLastD 0 = c := by
    rw [Nat.mul_comm, Nat.mul_add_div (by omega), Nat.div_eq_of_lt hi, Nat.add_zero]
  have hmod : (c * sh.getLastD 0 + i) % sh.getLastD 0 = i := by
    rw [Nat.mul_comm, Nat.mul_add_mod, Nat.mod_eq_of_lt hi]
  unfold writeBack
  simp only [if_true, if_pos hp, hd, hmod]
  rw [List.getD_eq_getElem?_getD, List.getD_eq_getElem?_getD, List.getElem?_map, List.getElem?_map, ← g1]
  exact ⟨rfl, rfl⟩

end memory

/-! ### Instances -/

/-- Density growing with salinity only. -/
def demoEos (s _ _ : Fl ℚ) : Fl ℚ := s

/-- Three bottles, the two upper ones inverted. -/
def demoS : Arr (Fl ℚ) := Arr.ofList [.fin 2, .fin 1, .fin 3]
/-- Constant temperature. -/
def demoT : Arr (Fl ℚ) := Arr.ofList [.fin 0, .fin 0, .fin 0]
/-- Pressures. -/
def demoP : Arr (Fl ℚ) := Arr.ofList [.fin 0, .fin 1, .fin 2]

/-- A minimiser that changes the second bottle's salinity by 3/2, when that is feasible. -/
def demoMini : Minimiser (Fl ℚ) := fun n S T P m =>
  let x : ℕ → Fl ℚ := fun i => if i = 1 then .fin (3 / 2) else .fin 0
  if (List.range n).all (fun i => (i + 1 < n → lt (con demoEos S T P m n x i) (lit 0) = false) ∧ isFinite (S i + x i) = true)
  then some x else none

/-- The law used by `cast_stabilised` holds in exact arithmetic, infinities included. -/
theorem sub_neg_of_lt {α : Type*} [Field α] [LinearOrder α] [IsStrictOrderedRing α] (a b : Fl α) (h : lt a b = true) :
    lt (a - b) (lit 0) = true := by
  cases a <;> cases b <;> first | rfl | exact absurd h Bool.false_ne_true | skip
  rename_i x y
  rw [lt_fin, decide_eq_true_eq] at h
  rw [fin_sub, lit_eq, lt_fin, decide_eq_true_eq]
  simpa using h

/-- Hypotheses of `cast_stabilised` hold for a minimiser that does repair the demo cast. -/
example : Feasible demoEos demoMini ∧ (∀ a b : Fl ℚ, lt a b = true → lt (a - b) (lit 0) = true) ∧
    (castStep demoEos demoMini (fun _ => .fin (1 / 100)) demoS demoT demoP).map (fun r => [r.1.get 0, r.1.get 1, r.1.get 2])
      = some [.fin 2, .fin (5 / 2), .fin 3] := by
  refine ⟨?_, sub_neg_of_lt, by decide +kernel⟩
  intro n S T P m x h
  unfold demoMini at h
  dsimp only at h
  split_ifs at h with hc
  rw [Option.some.injEq] at h
  rw [List.all_eq_true] at hc
  subst h
  constructor
  · intro i hi
    have := hc i (by rw [List.mem_range]; omega)
    simp only [decide_eq_true_eq] at this
    exact this.1 hi
  · intro i hi
    have := hc i (by rw [List.mem_range]; omega)
    simp only [decide_eq_true_eq] at this
    exact this.2

/-- A cast that meets the minimum, so that `cast_stable_unchanged` applies. -/
example : Meets demoEos (fun _ => .fin (1 / 100)) demoT.get demoT.get demoP.get 0 1 ∧
    Meets demoEos (fun _ => .fin (1 / 100)) (fun i => .fin i) demoT.get demoP.get 0 3 := by
  constructor
  · intro i h1 h2; omega
  · intro i h1 h2
    have : i = 0 ∨ i = 1 := by omega
    rcases this with h | h <;> subst h <;> decide +kernel

/-- A failing cast in the middle: the first cast is changed, the third is not looked at, and the call raises. -/
example : ((loop demoEos demoMini (fun _ => .fin (1 / 100)) [(demoS, demoT, demoP),
      (Arr.ofList [.fin 9, .fin 0], Arr.ofList [.fin 0, .fin 0], Arr.ofList [.fin 0, .fin 1]), (demoS, demoT, demoP)]).1.map
      (fun r => [r.1.get 0, r.1.get 1]), (loop demoEos demoMini (fun _ => .fin (1 / 100)) [(demoS, demoT, demoP),
      (Arr.ofList [.fin 9, .fin 0], Arr.ofList [.fin 0, .fin 0], Arr.ofList [.fin 0, .fin 1]), (demoS, demoT, demoP)]).2)
    = ([[.fin 2, .fin (5 / 2)], [.fin 9, .fin 0], [.fin 2, .fin 1]], false) := by decide +kernel

/-- Vertical dimension first in a 3 by 2 array: the memory is left as it was although the cast is unstable, while the
same casts with the vertical dimension last are repaired. -/
example : let sh := [3, 2]
    let A : Ndarray (Fl ℚ) := ⟨sh, cStrides sh, true, (Arr.ofList [.fin 2, .fin 2, .fin 1, .fin 1, .fin 3, .fin 3]).get⟩
    let B : Ndarray (Fl ℚ) := ⟨sh, cStrides sh, true, fun _ => .fin 0⟩
    (∀ n ∈ sh, 2 ≤ n) ∧ 0 + 1 < sh.length ∧ (stabilizeST demoEos demoMini (fun _ => .fin (1 / 100)) A B (fun _ => demoP) 0).1 2 = .fin 1 := by
  decide +kernel

example : let sh := [2, 3]
    let A : Ndarray (Fl ℚ) := ⟨sh, cStrides sh, true, (Arr.ofList [.fin 2, .fin 1, .fin 3, .fin 2, .fin 1, .fin 3]).get⟩
    let B : Ndarray (Fl ℚ) := ⟨sh, cStrides sh, true, fun _ => .fin 0⟩
    let r := stabilizeST demoEos demoMini (fun _ => .fin (1 / 100)) A B (fun _ => demoP) 1
    r.2.2 = true ∧ r.1 1 = .fin (5 / 2) ∧ r.1 4 = .fin (5 / 2) ∧ r.1 3 = .fin 2 := by
  decide +kernel

/-- **C88** An unstable deepest pair that the count with linear interpolation misses, although the count by pairs
finds it; and one unstable pair at the surface that it counts twice. -/
theorem count_interp_false : ∃ S S' T P : Arr (Fl ℚ), S.size = 3 ∧ S'.size = 3 ∧ T.size = 3 ∧ P.size = 3 ∧
    countPairs demoEos S.get T.get P.get 3 = 1 ∧
    countInterp (ppinterp1Two linearCoeffsI) (fun _ _ _ => (.fin 1, .fin 0)) S T P = 0 ∧
    countPairs demoEos S'.get T.get P.get 3 = 1 ∧
    countInterp (ppinterp1Two linearCoeffsI) (fun _ _ _ => (.fin 1, .fin 0)) S' T P = 2 :=
  ⟨Arr.ofList [.fin 0, .fin 1, .fin 0], demoS, demoT, demoP, by decide +kernel⟩

end Stability
