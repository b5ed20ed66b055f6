import Verif.Model.Ntp
import Mathlib.Data.Real.Sqrt
import Mathlib.Tactic.FinCases
import Mathlib.Data.List.Perm.Basic
import Mathlib.Algebra.BigOperators.Group.List.Basic

/-! # Properties of `/repo/neutralocean/ntp.py` -/

namespace Ntp
open FloatLike

set_option linter.unusedSectionVars false

/-! ## C33: single errors -/

/-- Sign symmetries of arithmetic; they hold for IEEE `float64` in round-to-nearest (up to the sign of zero and NaN
payloads) as well as in exact arithmetic. -/
class SignSymm (F : Type*) [FloatLike F] : Prop where
  add_comm : ∀ x y : F, x + y = y + x
  sub_swap : ∀ x y : F, y - x = -(x - y)
  mul_neg : ∀ x y : F, x * (-y) = -(x * y)
  neg_add : ∀ x y : F, -x + -y = -(x + y)

/-- **C33.** Reversing an edge negates its error, with any rounding and any equation of state. -/
theorem epsErr_reverse {F : Type*} [FloatLike F] [SignSymm F] (eos : EosST F) (s t p : ℕ → F) (a b : ℕ) :
    epsErr eos s t p (b, a) = -(epsErr eos s t p (a, b)) := by
  unfold epsErr
  simp only
  rw [SignSymm.add_comm (s b) (s a), SignSymm.add_comm (t b) (t a), SignSymm.add_comm (p b) (p a),
    SignSymm.sub_swap (s b) (s a), SignSymm.sub_swap (t b) (t a), SignSymm.mul_neg, SignSymm.mul_neg, SignSymm.neg_add]

section
variable {α : Type*} [Field α] [LinearOrder α] [IsStrictOrderedRing α]
open Fl hiding nan

instance : SignSymm (Fl α) where
  add_comm x y := by
    cases x <;> cases y <;> first | rfl | (show fin _ = fin _; rw [_root_.add_comm])
  sub_swap x y := by
    show Fl.add y (Fl.neg x) = Fl.neg (Fl.add x (Fl.neg y))
    cases x <;> cases y <;> simp [Fl.add, Fl.neg, _root_.add_comm]
  mul_neg x y := by
    show Fl.mul x (Fl.neg y) = Fl.neg (Fl.mul x y)
    cases x <;> cases y <;> simp only [Fl.mul, Fl.neg, Left.neg_pos_iff, Left.neg_neg_iff, _root_.mul_neg] <;> split_ifs <;> first | rfl | (exfalso; linarith)
  neg_add x y := by
    show Fl.add (Fl.neg x) (Fl.neg y) = Fl.neg (Fl.add x y)
    cases x <;> cases y <;> simp [Fl.add, Fl.neg, _root_.add_comm]

/-- **C33.** Two parcels with equal (finite) salinity and temperature have error 0, whatever their pressures, if the
equation of state is finite there. -/
theorem epsErr_zero (eos : EosST (Fl α)) (s t p : ℕ → Fl α) (a b : ℕ) (s0 t0 rs rt : α) (hs : s a = .fin s0) (hs' : s b = .fin s0)
    (ht : t a = .fin t0) (ht' : t b = .fin t0)
    (he : eos (.fin s0) (.fin t0) (lit (1/2) * (p a + p b)) = (.fin rs, .fin rt)) :
    epsErr eos s t p (a, b) = .fin 0 := by
  unfold epsErr
  have h2 : ∀ x : α, (lit (1/2) * (Fl.fin x + Fl.fin x) : Fl α) = .fin x := by
    intro x; simp; ring
  simp only [hs, hs', ht, ht', h2]
  rw [he]
  simp

/-- The error in exact arithmetic. -/
theorem epsErr_value (eos : EosST (Fl α)) (s t p : ℕ → Fl α) (a b : ℕ) (s1 t1 p1 s2 t2 p2 rs rt : α)
    (h1 : s a = .fin s1 ∧ t a = .fin t1 ∧ p a = .fin p1) (h2 : s b = .fin s2 ∧ t b = .fin t2 ∧ p b = .fin p2)
    (he : eos (.fin ((s1 + s2) / 2)) (.fin ((t1 + t2) / 2)) (.fin ((p1 + p2) / 2)) = (.fin rs, .fin rt)) :
    epsErr eos s t p (a, b) = .fin (rs * (s2 - s1) + rt * (t2 - t1)) := by
  unfold epsErr
  have h : ∀ x y : α, (lit (1/2) * (Fl.fin x + Fl.fin y) : Fl α) = .fin ((x + y) / 2) := by
    intro x y; simp; ring
  simp only [h1, h2, h]
  simp only [he, fin_sub, fin_mul, fin_add]

/-- **C33.** If `s` or `t` is NaN at an end, the error is NaN (dry casts give no error). -/
theorem epsErr_nan (eos : EosST (Fl α)) (s t p : ℕ → Fl α) (a b : ℕ)
    (h : s a = .nan ∨ s b = .nan ∨ t a = .nan ∨ t b = .nan) : epsErr eos s t p (a, b) = .nan := by
  unfold epsErr
  rcases h with h | h | h | h <;> simp [h]
end

/-- **C33.** `ntp_epsilon_errors` has one entry per edge, and entry `i` depends only on edge `i`, its distance, and the data
at its two ends. -/
theorem epsilonErrors_local {F : Type*} [FloatLike F] (eos : EosST F) (s t p s' t' p' : ℕ → F) (g g' : Grid F)
    (e e' : List F) (h : epsilonErrors eos s t p (.dict g) = .ok e) (h' : epsilonErrors eos s' t' p' (.dict g') = .ok e')
    (d d' : List F) (hd : g.dist = some d) (hd' : g'.dist = some d')
    (i a b : ℕ) (hi : g.edges[i]? = some (a, b)) (hi' : g'.edges[i]? = some (a, b)) (hdi : d'[i]? = d[i]?)
    (ha : s' a = s a ∧ t' a = t a ∧ p' a = p a) (hb : s' b = s b ∧ t' b = t b ∧ p' b = p b) :
    e.length = g.edges.length ∧ ∃ x, d[i]? = some x ∧ e[i]? = some (epsErr eos s t p (a, b) / x) ∧ e'[i]? = e[i]? := by
  simp only [epsilonErrors, hd, hd', zipR] at h h'
  split_ifs at h h' with h1 h2
  obtain rfl := Res.ok.inj h
  obtain rfl := Res.ok.inj h'
  have hie : i < d.length := by
    rw [← h1]; simp only [epsErrs, List.length_map]
    exact (List.getElem?_eq_some_iff.1 hi).1
  refine ⟨by simp [← h1, epsErrs], d[i], by simp [hie], ?_, ?_⟩
  · simp [List.getElem?_zipWith, epsErrs, hi, hie]
  · have hx : epsErr eos s' t' p' (a, b) = epsErr eos s t p (a, b) := by
      simp only [epsErr, ha, hb]
    simp [List.getElem?_zipWith, epsErrs, hi, hi', hdi, hx]

/-! ## C34: norms -/

section norms
variable {α : Type*} [Field α] [LinearOrder α] [IsStrictOrderedRing α]
open Fl hiding nan

/-- Specification: total weight `Σ d q` over edges with a finite error; each entry is `(e, d, q)`. -/
def weight : List (Fl α × α × α) → α
  | [] => 0
  | (.fin _, d, q) :: l => d * q + weight l
  | (_, _, _) :: l => weight l

/-- Specification: `Σ w |ε|` with area weights `w = d q` and errors `ε = e / d`, over edges with a finite error. -/
def absSum : List (Fl α × α × α) → α
  | [] => 0
  | (.fin e, d, q) :: l => (d * q) * |e / d| + absSum l
  | (_, _, _) :: l => absSum l

/-- Specification: `Σ w ε²`. -/
def sqSum : List (Fl α × α × α) → α
  | [] => 0
  | (.fin e, d, q) :: l => (d * q) * (e / d) ^ 2 + sqSum l
  | (_, _, _) :: l => sqSum l

/-- The data as the program sees it. -/
def embed (l : List (Fl α × α × α)) : List (Fl α × Fl α × Fl α) := l.map fun x => (x.1, .fin x.2.1, .fin x.2.2)

/-- errors are NaN or finite, distances positive -/
def Good (l : List (Fl α × α × α)) : Prop := ∀ x ∈ l, (x.1 = .nan ∨ ∃ e, x.1 = .fin e) ∧ 0 < x.2.1 ∧ 0 < x.2.2

theorem sum_fin (f : Fl α × α × α → Fl α) (g : List (Fl α × α × α) → α) (l : List (Fl α × α × α)) (g0 : g [] = 0)
    (h : ∀ x l', x ∈ l → ∃ v, f x = .fin v ∧ g (x :: l') = v + g l') : sum (l.map f) = .fin (g l) := by
  have key : ∀ (l : List (Fl α × α × α)) (a : α), (∀ x l', x ∈ l → ∃ v, f x = .fin v ∧ g (x :: l') = v + g l') →
      (l.map f).foldl (· + ·) (Fl.fin a) = .fin (a + g l) := by
    intro l
    induction l with
    | nil => intro a _; simp [g0]
    | cons x l ih =>
      intro a hl
      obtain ⟨v, h1, h2⟩ := hl x l (by simp)
      rw [List.map_cons, List.foldl_cons, h1, fin_add, ih _ (fun y l' hy => hl y l' (by simp [hy])), h2, add_assoc]
  have := key l 0 h
  rw [zero_add] at this
  unfold sum
  rw [← this]; simp

theorem denom_eq (l : List (Fl α × α × α)) (h : Good l) :
    sum ((embed l).map fun x => (x.2.1 * x.2.2) * (if isFinite x.1 then lit 1 else lit 0)) = .fin (weight l) := by
  unfold embed
  rw [List.map_map]
  refine sum_fin _ weight l rfl ?_
  rintro ⟨e, d, q⟩ l' hx
  rcases (h _ hx).1 with h1 | ⟨e', h1⟩ <;> simp only at h1 <;> subst h1 <;> simp [weight]

theorem abs_eq' (l : List (Fl α × α × α)) (h : Good l) :
    nansum ((embed l).map fun x => x.2.2 * FloatLike.abs x.1) = .fin (absSum l) := by
  unfold embed nansum
  rw [List.map_map, List.map_map]
  refine sum_fin _ absSum l rfl ?_
  rintro ⟨e, d, q⟩ l' hx
  have hd : 0 < d := (h _ hx).2.1
  have hd' : d ≠ 0 := hd.ne'
  rcases (h _ hx).1 with h1 | ⟨e', h1⟩ <;> simp only at h1 <;> subst h1
  · simp [absSum]
  · simp only [Function.comp, absSum, abs_fin, fin_mul, isNaN_fin, Bool.false_eq_true, if_false]
    refine ⟨q * |e'|, rfl, ?_⟩
    rw [abs_div, abs_of_pos hd]
    field_simp

theorem sq_eq (l : List (Fl α × α × α)) (h : Good l) :
    nansum ((embed l).map fun x => x.2.2 / x.2.1 * (x.1 * x.1)) = .fin (sqSum l) := by
  unfold embed nansum
  rw [List.map_map, List.map_map]
  refine sum_fin _ sqSum l rfl ?_
  rintro ⟨e, d, q⟩ l' hx
  have hd : 0 < d := (h _ hx).2.1
  have hd' : d ≠ 0 := hd.ne'
  rcases (h _ hx).1 with h1 | ⟨e', h1⟩ <;> simp only at h1 <;> subst h1
  · simp [sqSum]
  · simp only [Function.comp, sqSum, fin_mul, fin_div _ _ hd', isNaN_fin, Bool.false_eq_true, if_false]
    refine ⟨q / d * (e' * e'), rfl, ?_⟩
    field_simp

theorem sums_sign (l : List (Fl α × α × α)) (h : Good l) :
    0 ≤ weight l ∧ 0 ≤ absSum l ∧ 0 ≤ sqSum l ∧ ((∃ x ∈ l, ∃ e, x.1 = .fin e) → 0 < weight l) ∧
    ((¬ ∃ x ∈ l, ∃ e, x.1 = .fin e) → weight l = 0) := by
  induction l with
  | nil => simp [weight, absSum, sqSum]
  | cons x l ih =>
    obtain ⟨i1, i2, i3, i4, i5⟩ := ih (fun y hy => h y (by simp [hy]))
    obtain ⟨h1, h2, h3⟩ := h x (by simp)
    obtain ⟨e, d, q⟩ := x
    have hw : 0 < d * q := mul_pos h2 h3
    rcases h1 with h1 | ⟨e', h1⟩ <;> simp only at h1 <;> subst h1
    · simp only [weight, absSum, sqSum, List.mem_cons]
      refine ⟨i1, i2, i3, ?_, ?_⟩
      · rintro ⟨y, rfl | hy, e, he⟩
        · simp at he
        · exact i4 ⟨y, hy, e, he⟩
      · intro hn
        exact i5 fun ⟨y, hy, e, he⟩ => hn ⟨y, Or.inr hy, e, he⟩
    · simp only [weight, absSum, sqSum]
      refine ⟨by linarith, ?_, ?_, fun _ => by linarith, fun hn => absurd ⟨_, List.mem_cons_self .., e', rfl⟩ hn⟩
      · have := mul_nonneg hw.le (abs_nonneg (e' / d)); linarith
      · have := mul_nonneg hw.le (sq_nonneg (e' / d)); linarith

/-- **C34.** The norms are the area weighted RMS and mean absolute value of the errors per distance over the edges with a
valid error; they are `(0, 0)` if there is no such edge. -/
theorem normsOf_value (sqrt : Fl α → Fl α) (l : List (Fl α × α × α)) (h : Good l) :
    ((∃ x ∈ l, ∃ e, x.1 = .fin e) → 0 < weight l ∧
      normsOf sqrt (embed l) = (sqrt (.fin (sqSum l / weight l)), .fin (absSum l / weight l))) ∧
    ((¬ ∃ x ∈ l, ∃ e, x.1 = .fin e) → normsOf sqrt (embed l) = (.fin 0, .fin 0)) := by
  obtain ⟨_, _, _, h4, h5⟩ := sums_sign l h
  constructor
  · intro hx
    have hw := h4 hx
    refine ⟨hw, ?_⟩
    unfold normsOf
    simp only [denom_eq l h, abs_eq' l h, sq_eq l h]
    rw [if_neg (by simp [hw.ne']), fin_div _ _ hw.ne', fin_div _ _ hw.ne']
  · intro hx
    unfold normsOf
    simp only [denom_eq l h, h5 hx]
    simp

/-- **C34.** `ntp_epsilon_errors_norms` returns exactly when both distances are given, one of each per edge; a missing distance is a `KeyError`, and
lengths that differ raise (any arithmetic). -/
theorem norms_returns {F : Type*} [FloatLike F] (sqrt : F → F) (eos : EosST F) (s t p : ℕ → F) (g : Grid F) :
    ((∃ r, norms sqrt eos s t p g = .ok r) ↔ ∃ d q, g.dist = some d ∧ g.distperp = some q ∧ d.length = g.edges.length ∧ q.length = g.edges.length) ∧
    (norms sqrt eos s t p g = .keyError ↔ g.dist = none ∨ g.distperp = none) := by
  obtain ⟨edges, d, q⟩ := g
  unfold norms epsilonErrors
  dsimp only
  cases d with
  | none => simp
  | some d =>
    cases q with
    | none => simp
    | some q =>
      simp only [List.length_map, epsErrs, Option.some.injEq, reduceCtorEq, or_self, iff_false]
      constructor
      · constructor
        · rintro ⟨r, h⟩
          split_ifs at h with hl
          exact ⟨d, q, rfl, rfl, hl.2, hl.1.symm.trans hl.2⟩
        · rintro ⟨_, _, rfl, rfl, h1, h2⟩
          exact ⟨_, if_pos ⟨h1.trans h2.symm, h1⟩⟩
      · split_ifs <;> simp

/-- **C34.** The norms of the errors of a surface: area weighted RMS and mean absolute value of the errors per distance over the edges whose errors are numbers. -/
theorem norms_value (sqrt : Fl α → Fl α) (eos : EosST (Fl α)) (s t p : ℕ → Fl α) (E : List ((ℕ × ℕ) × α × α)) (hpos : ∀ x ∈ E, 0 < x.2.1 ∧ 0 < x.2.2)
    (herr : ∀ x ∈ E, epsErr eos s t p x.1 = .nan ∨ ∃ e, epsErr eos s t p x.1 = .fin e) {l : List (Fl α × α × α)}
    (hl : l = E.map fun x => (epsErr eos s t p x.1, x.2.1, x.2.2)) :
    ∃ r, norms sqrt eos s t p ⟨E.map Prod.fst, some (E.map fun x => .fin x.2.1), some (E.map fun x => .fin x.2.2)⟩ = .ok r ∧
      ((∃ x ∈ E, ∃ e, epsErr eos s t p x.1 = .fin e) → r = (sqrt (.fin (sqSum l / weight l)), .fin (absSum l / weight l))) ∧
      ((¬ ∃ x ∈ E, ∃ e, epsErr eos s t p x.1 = .fin e) → r = (.fin 0, .fin 0)) := by
  have hone : ∀ x ∈ E, epsErr eos s t p x.1 / lit 1 = epsErr eos s t p x.1 := by
    intro x hx
    rcases herr x hx with h | ⟨e, h⟩ <;> rw [h]
    · simp
    · rw [lit_eq, fin_div _ _ (by norm_num)]
      simp
  have hz : ((((E.map Prod.fst).map (epsErr eos s t p)).map (· / lit 1)).zip ((E.map fun x => (Fl.fin x.2.1 : Fl α)).zip (E.map fun x => Fl.fin x.2.2))) = embed l := by
    rw [hl]
    unfold embed
    clear hl herr hpos
    induction E with
    | nil => rfl
    | cons x E ih =>
      simp only [List.map_cons, List.zip_cons_cons, hone x (by simp)]
      rw [ih fun y hy => hone y (by simp [hy])]
  have hg : Good l := by
    rw [hl]
    intro x hx
    obtain ⟨y, hy, rfl⟩ := List.mem_map.1 hx
    exact ⟨herr y hy, hpos y hy⟩
  have hiff : (∃ x ∈ l, ∃ e, x.1 = .fin e) ↔ ∃ x ∈ E, ∃ e, epsErr eos s t p x.1 = .fin e := by
    rw [hl]; simp
  unfold norms epsilonErrors epsErrs
  dsimp only
  rw [if_pos (by simp), hz]
  obtain ⟨h1, h2⟩ := normsOf_value sqrt l hg
  rw [hiff] at h1 h2
  exact ⟨_, rfl, fun h => (h1 h).2, h2⟩

example (sqrt : Fl ℚ → Fl ℚ) : norms sqrt (fun _ _ _ => (.fin 1, .fin 0)) (fun n => if n = 2 then .nan else .fin n) (fun _ => .fin 0) (fun _ => .fin 0)
    ⟨[(0, 1), (1, 2), (3, 0)], some [.fin 1, .fin 1, .fin 3], some [.fin 2, .fin 1, .fin 2]⟩ = .ok (sqrt (.fin 1), .fin 1) := by
  obtain ⟨r, h, h', -⟩ := norms_value sqrt (fun _ _ _ => (.fin 1, .fin 0)) (fun n => if n = 2 then .nan else .fin (n : ℚ)) (fun _ => .fin 0) (fun _ => .fin 0)
    [((0, 1), 1, 2), ((1, 2), 1, 1), ((3, 0), 3, 2)] (by simp) (by simp [epsErr]) rfl
  have h' := h' ⟨((0, 1), 1, 2), by simp, 1, by simp [epsErr]⟩
  simp only [List.map_cons, List.map_nil] at h
  rw [h, h']
  norm_num [epsErr, weight, absSum, sqSum]

theorem perm_sums {l l' : List (Fl α × α × α)} (h : l.Perm l') :
    weight l = weight l' ∧ absSum l = absSum l' ∧ sqSum l = sqSum l' := by
  induction h with
  | nil => simp
  | cons x _ ih =>
    obtain ⟨i1, i2, i3⟩ := ih
    obtain ⟨e, d, q⟩ := x
    cases e <;> simp [weight, absSum, sqSum, i1, i2, i3]
  | swap x y l =>
    obtain ⟨e, d, q⟩ := x
    obtain ⟨e', d', q'⟩ := y
    cases e <;> cases e' <;> simp [weight, absSum, sqSum] <;> refine ⟨?_, ?_, ?_⟩ <;> ring
  | trans _ _ i1 i2 => exact ⟨i1.1.trans i2.1, i1.2.1.trans i2.2.1, i1.2.2.trans i2.2.2⟩

/-- **C34.** The norms do not depend on the order of the edges. -/
theorem normsOf_perm (sqrt : Fl α → Fl α) (l l' : List (Fl α × α × α)) (h : Good l) (hp : l.Perm l') :
    normsOf sqrt (embed l) = normsOf sqrt (embed l') := by
  have h' : Good l' := fun x hx => h x (hp.mem_iff.2 hx)
  obtain ⟨e1, e2, e3⟩ := perm_sums hp
  unfold normsOf
  simp only [denom_eq l h, abs_eq' l h, sq_eq l h, denom_eq l' h', abs_eq' l' h', sq_eq l' h', e1, e2, e3]

/-- **C34.** Edges with NaN errors have no effect. -/
theorem normsOf_drop_nan (sqrt : Fl α → Fl α) (l : List (Fl α × α × α)) (h : Good l) :
    normsOf sqrt (embed l) = normsOf sqrt (embed (l.filter fun x => isFinite x.1)) := by
  have h' : Good (l.filter fun x => isFinite x.1) := fun x hx => h x (List.mem_filter.1 hx).1
  have key : weight l = weight (l.filter fun x => isFinite x.1) ∧ absSum l = absSum (l.filter fun x => isFinite x.1) ∧
      sqSum l = sqSum (l.filter fun x => isFinite x.1) := by
    clear h h'
    induction l with
    | nil => simp
    | cons x l ih =>
      obtain ⟨e, d, q⟩ := x
      cases e <;> simp [weight, absSum, sqSum, ih, List.filter_cons]
  unfold normsOf
  simp only [denom_eq l h, abs_eq' l h, sq_eq l h, denom_eq _ h', abs_eq' _ h', sq_eq _ h', ← key.1, ← key.2.1, ← key.2.2]

/-- **C34.** Reversing any edges (negating their errors) has no effect. -/
theorem normsOf_reverse (sqrt : Fl α → Fl α) (l : List (Fl α × Fl α × Fl α)) (flip : Fl α × Fl α × Fl α → Bool) :
    normsOf sqrt (l.map fun x => if flip x then (-x.1, x.2) else x) = normsOf sqrt l := by
  have e1 : ∀ x : Fl α, isFinite (-x) = isFinite x := by
    intro x; cases x <;> rfl
  have e2 : ∀ x : Fl α, FloatLike.abs (-x) = FloatLike.abs x := by
    intro x; cases x <;> first | rfl | simp
  have e3 : ∀ x : Fl α, -x * -x = x * x := by
    intro x; cases x <;> first | rfl | simp
  unfold normsOf
  simp only [List.map_map]
  have a1 : ((fun x : Fl α × Fl α × Fl α => (x.2.1 * x.2.2) * (if isFinite x.1 then lit 1 else lit 0)) ∘
      fun x => if flip x then (-x.1, x.2) else x) = fun x => (x.2.1 * x.2.2) * (if isFinite x.1 then lit 1 else lit 0) := by
    funext x; by_cases h : flip x <;> simp [h, e1]
  have a2 : ((fun x : Fl α × Fl α × Fl α => x.2.2 / x.2.1 * (x.1 * x.1)) ∘
      fun x => if flip x then (-x.1, x.2) else x) = fun x => x.2.2 / x.2.1 * (x.1 * x.1) := by
    funext x; by_cases h : flip x <;> simp [h, e3]
  have a3 : ((fun x : Fl α × Fl α × Fl α => x.2.2 * FloatLike.abs x.1) ∘
      fun x => if flip x then (-x.1, x.2) else x) = fun x => x.2.2 * FloatLike.abs x.1 := by
    funext x; by_cases h : flip x <;> simp [h, e2]
  rw [a1, a2, a3]

theorem absSum_sq_le (l : List (Fl α × α × α)) (h : Good l) : absSum l ^ 2 ≤ sqSum l * weight l := by
  induction l with
  | nil => simp [weight, absSum, sqSum]
  | cons x l ih =>
    have hl : Good l := fun y hy => h y (by simp [hy])
    have ih := ih hl
    obtain ⟨i1, i2, i3, _, _⟩ := sums_sign l hl
    obtain ⟨h1, h2, h3⟩ := h x (by simp)
    obtain ⟨e, d, q⟩ := x
    have hw : 0 < d * q := mul_pos h2 h3
    rcases h1 with h1 | ⟨e', h1⟩ <;> simp only at h1 <;> subst h1
    · simpa [weight, absSum, sqSum] using ih
    · simp only [weight, absSum, sqSum]
      rw [← sq_abs (e' / d)]
      set x := |e' / d|
      have hx : 0 ≤ x := abs_nonneg _
      set w := d * q
      have k : 2 * x * absSum l ≤ sqSum l + x ^ 2 * weight l := by
        apply abs_le_of_sq_le_sq' _ (by positivity) |>.2
        nlinarith [sq_nonneg (sqSum l - x ^ 2 * weight l), mul_le_mul_of_nonneg_left ih (sq_nonneg x)]
      nlinarith [mul_le_mul_of_nonneg_left k hw.le]

end norms

/-- The square root as a program function on exact reals. -/
noncomputable def rsqrt : Fl ℝ → Fl ℝ
  | .fin x => if 0 ≤ x then .fin (Real.sqrt x) else .nan
  | .pinf => .pinf
  | _ => .nan

/-- **C34.** For positive distances and errors that are finite or NaN, both norms are finite and `0 ≤ e_MAV ≤ e_RMS`. -/
theorem normsOf_order (l : List (Fl ℝ × ℝ × ℝ)) (h : Good l) :
    ∃ r m : ℝ, normsOf rsqrt (embed l) = (.fin r, .fin m) ∧ 0 ≤ m ∧ m ≤ r := by
  by_cases hx : ∃ x ∈ l, ∃ e, x.1 = .fin e
  · obtain ⟨hw, h1⟩ := (normsOf_value rsqrt l h).1 hx
    obtain ⟨_, i2, i3, _, _⟩ := sums_sign l h
    refine ⟨Real.sqrt (sqSum l / weight l), absSum l / weight l, ?_, by positivity, ?_⟩
    · rw [h1]; simp only [rsqrt]; rw [if_pos (by positivity)]
    · apply Real.le_sqrt_of_sq_le
      rw [div_pow, div_le_div_iff₀ (by positivity) hw]
      have := absSum_sq_le l h
      nlinarith [mul_le_mul_of_nonneg_right this hw.le]
  · exact ⟨0, 0, (normsOf_value rsqrt l h).2 hx, le_refl _, le_refl _⟩

/-! From the data: `ntp_epsilon_errors_norms` applies `normsOf` to the errors of the edges. -/

section link
variable {α : Type*} [Field α] [LinearOrder α] [IsStrictOrderedRing α]
open Fl hiding nan

/-- The call with one distance pair for each edge. -/
def gridOf (r : List ((ℕ × ℕ) × α × α)) : Grid (Fl α) :=
  ⟨r.map (·.1), some (r.map fun x => .fin x.2.1), some (r.map fun x => .fin x.2.2)⟩

/-- **C34.** On a grid with distances for each edge the call succeeds, and its result is that of `normsOf` on the errors of
the edges at distance 1. -/
theorem norms_eq (sqrt : Fl α → Fl α) (eos : EosST (Fl α)) (s t p : ℕ → Fl α) (r : List ((ℕ × ℕ) × α × α)) :
    norms sqrt eos s t p (gridOf r) = .ok (normsOf sqrt (embed (r.map fun x => (epsErr eos s t p x.1, x.2)))) := by
  have hd : ∀ x : Fl α, x / lit 1 = x := by
    intro x
    cases x with
    | fin x => simp [fin_div]
    | nan => simp
    | ninf => show Fl.div _ (fin _) = _; simp only [Fl.div, Rat.cast_one]; rw [if_neg (by linarith [zero_lt_one' α])]
    | pinf => show Fl.div _ (fin _) = _; simp only [Fl.div, Rat.cast_one]; rw [if_neg (by linarith [zero_lt_one' α])]
  unfold norms epsilonErrors gridOf
  simp only [List.length_map, epsErrs, and_self, if_true, hd, List.map_map, embed]
  congr 2
  induction r with
  | nil => rfl
  | cons x r ih =>
    simp only [List.map_cons, List.zip_cons_cons, Function.comp]
    rw [List.cons.injEq]
    exact ⟨rfl, ih⟩

/-- **C34.** Reordering the edges (with their distances) does not change the norms. -/
theorem norms_perm (sqrt : Fl α → Fl α) (eos : EosST (Fl α)) (s t p : ℕ → Fl α) (r r' : List ((ℕ × ℕ) × α × α))
    (hp : r.Perm r') (hd : ∀ x ∈ r, 0 < x.2.1 ∧ 0 < x.2.2)
    (he : ∀ x ∈ r, epsErr eos s t p x.1 = .nan ∨ ∃ e, epsErr eos s t p x.1 = .fin e) :
    norms sqrt eos s t p (gridOf r) = norms sqrt eos s t p (gridOf r') := by
  rw [norms_eq, norms_eq, normsOf_perm _ _ _ _ (hp.map _)]
  intro x hx
  obtain ⟨y, hy, rfl⟩ := List.mem_map.1 hx
  exact ⟨he y hy, hd y hy⟩

/-- **C34.** Reversing any set of edges does not change the norms. -/
theorem norms_reverse (sqrt : Fl α → Fl α) (eos : EosST (Fl α)) (s t p : ℕ → Fl α) (r : List ((ℕ × ℕ) × α × α))
    (flip : ℕ × ℕ → Bool) :
    norms sqrt eos s t p (gridOf (r.map fun x => if flip x.1 then ((x.1.2, x.1.1), x.2) else x)) =
      norms sqrt eos s t p (gridOf r) := by
  rw [norms_eq, norms_eq]
  congr 1
  have key : ∀ r : List ((ℕ × ℕ) × α × α), ∃ fl : List Bool, fl.length = r.length ∧
      ((r.map fun x => if flip x.1 then ((x.1.2, x.1.1), x.2) else x).map fun x => (epsErr eos s t p x.1, x.2)) =
      ((r.map fun x => (epsErr eos s t p x.1, x.2)).zip fl).map fun y => if y.2 then (-y.1.1, y.1.2) else y.1 := by
    intro r
    refine ⟨r.map fun x => flip x.1, by simp, ?_⟩
    induction r with
    | nil => rfl
    | cons x r ih =>
      simp only [List.map_cons, List.zip_cons_cons, List.cons.injEq]
      refine ⟨?_, ih⟩
      by_cases h : flip x.1 <;> simp [h, epsErr_reverse]
  obtain ⟨fl, hl, h⟩ := key r
  rw [h]
  -- negation of the errors at the marked positions
  have e1 : ∀ x : Fl α, isFinite (-x) = isFinite x := by
    intro x; cases x <;> rfl
  have e2 : ∀ x : Fl α, FloatLike.abs (-x) = FloatLike.abs x := by
    intro x; cases x <;> first | rfl | simp
  have e3 : ∀ x : Fl α, -x * -x = x * x := by
    intro x; cases x <;> first | rfl | simp
  have gen : ∀ (f : Fl α × Fl α × Fl α → Fl α), (∀ e d q, f (-e, d, q) = f (e, d, q)) →
      ∀ (l : List (Fl α × α × α)) (fl : List Bool), fl.length = l.length →
      (embed ((l.zip fl).map fun y => if y.2 then (-y.1.1, y.1.2) else y.1)).map f = (embed l).map f := by
    intro f hf l
    induction l with
    | nil => intro fl _; simp [embed]
    | cons x l ih =>
      intro fl hl
      obtain ⟨b, fl, rfl⟩ := List.exists_cons_of_length_pos (by rw [hl]; simp : 0 < fl.length)
      have := ih fl (by simpa using hl)
      unfold embed at this ⊢
      simp only [List.zip_cons_cons, List.map_cons, List.cons.injEq]
      refine ⟨?_, this⟩
      cases b <;> simp [hf]
  unfold normsOf
  rw [gen (fun x => (x.2.1 * x.2.2) * (if isFinite x.1 then lit 1 else lit 0)) (by intro e d q; simp [e1]) _ _ (by simpa using hl),
    gen (fun x => x.2.2 / x.2.1 * (x.1 * x.1)) (by intro e d q; simp only [e3]) _ _ (by simpa using hl),
    gen (fun x => x.2.2 * FloatLike.abs x.1) (by intro e d q; simp only [e2]) _ _ (by simpa using hl)]
end link

/-! ## C35: missing distances -/

/-- **C35, the part that holds.** `ntp_epsilon_errors` takes the distances as 1 if they are missing or if only the edges are
given. -/
theorem epsilonErrors_default_partial {α : Type*} [Field α] [LinearOrder α] [IsStrictOrderedRing α] (eos : EosST (Fl α)) (s t p : ℕ → Fl α) (edges : List (ℕ × ℕ))
    (q : Option (List (Fl α))) :
    epsilonErrors eos s t p (.dict ⟨edges, none, q⟩) =
      epsilonErrors eos s t p (.dict ⟨edges, some (List.replicate edges.length (.fin 1)), q⟩) ∧
    epsilonErrors eos s t p (.tuple edges) = epsilonErrors eos s t p (.dict ⟨edges, none, q⟩) := by
  refine ⟨?_, rfl⟩
  unfold epsilonErrors
  simp only [zipR, epsErrs, List.length_map, List.length_replicate, if_true]
  congr 1
  induction edges with
  | nil => rfl
  | cons x l ih =>
    simp only [List.map_cons, List.length_cons, List.replicate_succ, List.zipWith_cons_cons, Fl.lit_eq, Rat.cast_one] at ih ⊢
    rw [ih]

/-- **C35 is false as documented.** `ntp_epsilon_errors_norms` raises `KeyError` for every grid without `dist` or without
`distperp`, whatever the data. -/
theorem norms_default_false {F : Type*} [FloatLike F] (sqrt : F → F) (eos : EosST F) (s t p : ℕ → F) (g : Grid F)
    (h : g.dist = none ∨ g.distperp = none) : norms sqrt eos s t p g = .keyError := by
  unfold norms epsilonErrors
  rcases h with h | h
  · simp [h]
  · cases hd : g.dist <;> simp [h]

/-! ## Non-vacuity -/

def exSq : Fl ℚ → Fl ℚ := fun x => x
/-- linear equation of state: derivatives 1 and -2 -/
def exEos : EosST (Fl ℚ) := fun _ _ _ => (.fin 1, .fin (-2))
def exS : ℕ → Fl ℚ := fun i => if i = 3 then .nan else .fin i
example : epsErr exEos exS exS exS (0, 2) = .fin (-2) := by decide +kernel
example : epsErr exEos exS exS exS (0, 3) = .nan := by decide +kernel
example : norms exSq exEos exS exS exS (gridOf [((0, 1), 1, 2), ((1, 2), 2, 1), ((2, 3), 1, 1)]) =
    .ok (.fin (5/8), .fin (3/4)) := by decide +kernel
example : ∀ x ∈ ([((0, 1), 1, 2), ((1, 2), 2, 1), ((2, 3), 1, 1)] : List ((ℕ × ℕ) × ℚ × ℚ)),
    (0 < x.2.1 ∧ 0 < x.2.2) ∧ (epsErr exEos exS exS exS x.1 = .nan ∨ ∃ e, epsErr exEos exS exS exS x.1 = .fin e) := by
  intro x hx
  fin_cases hx
  · exact ⟨by norm_num, Or.inr ⟨-1, by decide +kernel⟩⟩
  · exact ⟨by norm_num, Or.inr ⟨-1, by decide +kernel⟩⟩
  · exact ⟨by norm_num, Or.inl (by decide +kernel)⟩
example : Good ([(.fin 1, 1, 2), (.nan, 1, 1)] : List (Fl ℝ × ℝ × ℝ)) := by
  intro x hx
  fin_cases hx
  · exact ⟨Or.inr ⟨1, rfl⟩, by norm_num, by norm_num⟩
  · exact ⟨Or.inl rfl, by norm_num, by norm_num⟩

end Ntp
