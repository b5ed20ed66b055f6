import Verif.Model.Fzero

/-! # Multiplication of exact numbers by a positive constant, and the root finder under it -/

set_option linter.unusedSectionVars false

namespace Fl
open FloatLike
variable {α : Type*} [Field α] [LinearOrder α] [IsStrictOrderedRing α]

/-- `x` in other units: times `k` -/
def sc (k : α) (x : Fl α) : Fl α := fin k * x

section
variable {k : α}

theorem scneg (hk : 0 < k) {x : α} : k * x < 0 ↔ x < 0 := by
  constructor
  · intro h
    by_contra hx
    exact absurd (mul_nonneg hk.le (not_lt.mp hx)) (not_le.mpr h)
  · exact fun h => mul_neg_of_pos_of_neg hk h

@[simp] theorem sc_fin (x : α) : sc k (fin x) = fin (k * x) := rfl
@[simp] theorem sc_nan : sc k (nan : Fl α) = nan := rfl
theorem sc_pinf (hk : 0 < k) : sc k (pinf : Fl α) = pinf := by
  show (if 0 < k then _ else _) = _
  rw [if_pos hk]
theorem sc_ninf (hk : 0 < k) : sc k (ninf : Fl α) = ninf := by
  show (if 0 < k then _ else _) = _
  rw [if_pos hk]
theorem sc_zero : sc k (fin 0) = fin 0 := by simp

theorem sc_lt (hk : 0 < k) (x y : Fl α) : lt (sc k x) (sc k y) = lt x y := by
  cases x <;> cases y <;> simp only [sc_fin, sc_nan, sc_pinf hk, sc_ninf hk] <;> try rfl
  simp [hk]

theorem sc_feq (hk : 0 < k) (x y : Fl α) : feq (sc k x) (sc k y) = feq x y := by
  cases x <;> cases y <;> simp only [sc_fin, sc_nan, sc_pinf hk, sc_ninf hk] <;> try rfl
  simp [hk.ne']

theorem sc_le (hk : 0 < k) (x y : Fl α) : le (sc k x) (sc k y) = le x y := by
  have h1 := sc_lt hk x y
  have h2 := sc_feq hk x y
  show (lt (sc k x) (sc k y) || feq (sc k x) (sc k y)) = (lt x y || feq x y)
  rw [h1, h2]

theorem sc_lt_zero (hk : 0 < k) (x : Fl α) : lt (fin 0) (sc k x) = lt (fin 0) x := by
  rw [← sc_lt hk (fin 0) x, sc_zero]
theorem sc_zero_lt (hk : 0 < k) (x : Fl α) : lt (sc k x) (fin 0) = lt x (fin 0) := by
  rw [← sc_lt hk x (fin 0), sc_zero]
theorem sc_le_zero (hk : 0 < k) (x : Fl α) : le (sc k x) (fin 0) = le x (fin 0) := by
  rw [← sc_le hk x (fin 0), sc_zero]
theorem sc_feq_zero (hk : 0 < k) (x : Fl α) : feq (sc k x) (fin 0) = feq x (fin 0) := by
  rw [← sc_feq hk x (fin 0), sc_zero]

theorem sc_isNaN (hk : 0 < k) (x : Fl α) : isNaN (sc k x) = isNaN x := by
  cases x <;> simp only [sc_fin, sc_nan, sc_pinf hk, sc_ninf hk] <;> rfl
theorem sc_isFinite (hk : 0 < k) (x : Fl α) : isFinite (sc k x) = isFinite x := by
  cases x <;> simp only [sc_fin, sc_nan, sc_pinf hk, sc_ninf hk] <;> rfl

theorem sc_abs (hk : 0 < k) (x : Fl α) : FloatLike.abs (sc k x) = sc k (FloatLike.abs x) := by
  cases x
  · rfl
  · rw [sc_ninf hk]; exact (sc_pinf hk).symm
  · rw [sc_pinf hk]; exact (sc_pinf hk).symm
  · simp [abs_mul, abs_of_pos hk]

theorem sc_neg (hk : 0 < k) (x : Fl α) : -(sc k x) = sc k (-x) := by
  cases x
  · rfl
  · rw [sc_ninf hk]; exact (sc_pinf hk).symm
  · rw [sc_pinf hk]; exact (sc_ninf hk).symm
  · simp

theorem sc_add (hk : 0 < k) (x y : Fl α) : sc k x + sc k y = sc k (x + y) := by
  cases x <;> cases y <;> simp only [sc_fin, sc_nan, sc_pinf hk, sc_ninf hk, fin_add, mul_add] <;>
    first | rfl | exact (sc_pinf hk).symm | exact (sc_ninf hk).symm

theorem sub_def (x y : Fl α) : x - y = x + -y := rfl

theorem sc_sub (hk : 0 < k) (x y : Fl α) : sc k x - sc k y = sc k (x - y) := by
  rw [sub_def, sub_def, sc_neg hk, sc_add hk]

theorem sc_mul (hk : 0 < k) (x y : Fl α) : sc k x * y = sc k (x * y) := by
  cases x <;> cases y <;> simp only [sc_fin, sc_nan, sc_pinf hk, sc_ninf hk, fin_mul, nan_mul, mul_nan, mul_assoc]
  case ninf.ninf => exact (sc_pinf hk).symm
  case ninf.pinf => exact (sc_ninf hk).symm
  case pinf.ninf => exact (sc_ninf hk).symm
  case pinf.pinf => exact (sc_pinf hk).symm
  case ninf.fin y =>
    show (if 0 < y then ninf else if y < 0 then pinf else nan : Fl α) = sc k (if 0 < y then ninf else if y < 0 then pinf else nan)
    split_ifs <;> simp [sc_pinf hk, sc_ninf hk]
  case pinf.fin y =>
    show (if 0 < y then pinf else if y < 0 then ninf else nan : Fl α) = sc k (if 0 < y then pinf else if y < 0 then ninf else nan)
    split_ifs <;> simp [sc_pinf hk, sc_ninf hk]
  case fin.ninf x =>
    show (if 0 < k * x then ninf else if k * x < 0 then pinf else nan : Fl α) = sc k (if 0 < x then ninf else if x < 0 then pinf else nan)
    simp only [mul_pos_iff_of_pos_left hk, scneg hk]
    split_ifs <;> simp [sc_pinf hk, sc_ninf hk]
  case fin.pinf x =>
    show (if 0 < k * x then pinf else if k * x < 0 then ninf else nan : Fl α) = sc k (if 0 < x then pinf else if x < 0 then ninf else nan)
    simp only [mul_pos_iff_of_pos_left hk, scneg hk]
    split_ifs <;> simp [sc_pinf hk, sc_ninf hk]

theorem mul_comm' (x y : Fl α) : x * y = y * x := by
  cases x <;> cases y <;> try rfl
  simp [mul_comm]

theorem mul_sc (hk : 0 < k) (x y : Fl α) : x * sc k y = sc k (x * y) := by
  rw [mul_comm', sc_mul hk, mul_comm']

theorem sc_div (hk : 0 < k) (x y : Fl α) : sc k x / y = sc k (x / y) := by
  cases x <;> cases y <;> simp only [sc_fin, sc_nan, sc_pinf hk, sc_ninf hk, nan_div, div_nan] <;> try rfl
  case ninf.fin y =>
    show (if y < 0 then pinf else ninf : Fl α) = sc k (if y < 0 then pinf else ninf)
    split_ifs <;> simp [sc_pinf hk, sc_ninf hk]
  case pinf.fin y =>
    show (if y < 0 then ninf else pinf : Fl α) = sc k (if y < 0 then ninf else pinf)
    split_ifs <;> simp [sc_pinf hk, sc_ninf hk]
  case fin.ninf x => show fin 0 = sc k (fin 0); simp
  case fin.pinf x => show fin 0 = sc k (fin 0); simp
  case fin.fin x y =>
    show (if y = 0 then (if 0 < k * x then pinf else if k * x < 0 then ninf else nan) else fin (k * x / y) : Fl α)
      = sc k (if y = 0 then (if 0 < x then pinf else if x < 0 then ninf else nan) else fin (x / y))
    simp only [mul_pos_iff_of_pos_left hk, scneg hk]
    split_ifs <;> simp [sc_pinf hk, sc_ninf hk, mul_div_assoc]

theorem sc_div_sc (hk : 0 < k) (x y : Fl α) : sc k x / sc k y = x / y := by
  cases x <;> cases y <;> simp only [sc_fin, sc_nan, sc_pinf hk, sc_ninf hk, nan_div, div_nan] <;> try rfl
  case ninf.fin y =>
    show (if k * y < 0 then pinf else ninf : Fl α) = (if y < 0 then pinf else ninf)
    simp only [scneg hk]
  case pinf.fin y =>
    show (if k * y < 0 then ninf else pinf : Fl α) = (if y < 0 then ninf else pinf)
    simp only [scneg hk]
  case fin.fin x y =>
    show (if k * y = 0 then (if 0 < k * x then pinf else if k * x < 0 then ninf else nan) else fin (k * x / (k * y)) : Fl α)
      = (if y = 0 then (if 0 < x then pinf else if x < 0 then ninf else nan) else fin (x / y))
    simp only [mul_pos_iff_of_pos_left hk, scneg hk, mul_eq_zero, hk.ne', false_or,
      mul_div_mul_left _ _ hk.ne']

theorem sc_ite (p : Prop) [Decidable p] (x y : Fl α) : (if p then sc k x else sc k y) = sc k (if p then x else y) := by
  split_ifs <;> rfl

theorem sc_fmax (hk : 0 < k) (x y : Fl α) : fmax (sc k x) (sc k y) = sc k (fmax x y) := by
  unfold fmax
  rw [sc_lt hk, sc_ite]
theorem sc_fmin (hk : 0 < k) (x y : Fl α) : fmin (sc k x) (sc k y) = sc k (fmin x y) := by
  unfold fmin
  rw [sc_lt hk, sc_ite]

theorem sc_sc_pos (hk : 0 < k) (x y : Fl α) : lt (fin 0) (sc k x * sc k y) = lt (fin 0) (x * y) := by
  rw [sc_mul hk, sc_lt_zero hk, mul_sc hk, sc_lt_zero hk]

end
end Fl

namespace Fzero
open FloatLike Fl
variable {α : Type*} [Field α] [LinearOrder α] [IsStrictOrderedRing α]

/-- the result with a function applied to the returned value -/
def Outcome.map {R Q : Type*} (g : R → Q) (r : Outcome R) : Outcome Q := r.bind fun x => .ret (g x)

/-- the loop state of `brent` in other units of its argument (`h`) and its value (`k`) -/
def BrentSt.sc (h k : α) (s : BrentSt (Fl α)) : BrentSt (Fl α) :=
  ⟨Fl.sc h s.a, Fl.sc h s.b, Fl.sc h s.c, Fl.sc h s.d, Fl.sc h s.e, Fl.sc k s.fa, Fl.sc k s.fb, Fl.sc k s.fc⟩

variable {h k : α} (hh : 0 < h) (hk : 0 < k)
include hh hk

theorem brentSwap_sc (s : BrentSt (Fl α)) : brentSwap (s.sc h k) = (brentSwap s).sc h k := by
  unfold brentSwap BrentSt.sc
  dsimp only
  rw [sc_abs hk, sc_abs hk, sc_lt hk]
  split_ifs <;> rfl

theorem brentChoose_sc (s : BrentSt (Fl α)) (tol m : Fl α) :
    brentChoose (s.sc h k) (Fl.sc h tol) (Fl.sc h m) = (brentChoose s tol m).map fun x => (Fl.sc h x.1, Fl.sc h x.2) := by
  unfold brentChoose BrentSt.sc isZero
  dsimp only
  simp only [lit_eq, Rat.cast_zero, sc_abs hk, sc_abs hh, sc_lt hh, sc_le hk, sc_feq_zero hk, sc_div_sc hk, sc_feq hh, mul_sc hh, sc_mul hh, sc_sub hh]
  by_cases h1 : (lt (abs s.e) tol || le (abs s.fa) (abs s.fb)) = true
  · simp only [if_pos h1, Option.map_some]
  simp only [if_neg h1]
  by_cases h2 : feq s.fa (fin 0) = true
  · simp only [if_pos h2, Option.map_none]
  simp only [if_neg h2]
  have key : ∀ P Q : Fl α,
      (match some (Fl.sc h P, Q) with
        | none => none
        | some (p, q) =>
          if (lt (fin ((2 : ℚ) : α) * (if lt (fin 0) p = true then p else -p)) (Fl.sc h (fin ((3 : ℚ) : α) * m * (if lt (fin 0) p = true then -q else q))
              - Fl.sc h (FloatLike.abs (tol * (if lt (fin 0) p = true then -q else q)))) &&
            lt (if lt (fin 0) p = true then p else -p) (Fl.sc h (FloatLike.abs (fin ((1/2 : ℚ) : α) * s.e * (if lt (fin 0) p = true then -q else q))))) = true then
            if feq (if lt (fin 0) p = true then -q else q) (fin 0) = true then none
            else some (Fl.sc h s.d, (if lt (fin 0) p = true then p else -p) / (if lt (fin 0) p = true then -q else q))
          else some (Fl.sc h m, Fl.sc h m)) =
      Option.map (fun x : Fl α × Fl α => (Fl.sc h x.1, Fl.sc h x.2)) (match some (P, Q) with
        | none => none
        | some (p, q) =>
          if (lt (fin ((2 : ℚ) : α) * (if lt (fin 0) p = true then p else -p)) (fin ((3 : ℚ) : α) * m * (if lt (fin 0) p = true then -q else q)
              - FloatLike.abs (tol * (if lt (fin 0) p = true then -q else q))) &&
            lt (if lt (fin 0) p = true then p else -p) (FloatLike.abs (fin ((1/2 : ℚ) : α) * s.e * (if lt (fin 0) p = true then -q else q)))) = true then
            if feq (if lt (fin 0) p = true then -q else q) (fin 0) = true then none
            else some (s.d, (if lt (fin 0) p = true then p else -p) / (if lt (fin 0) p = true then -q else q))
          else some (m, m)) := by
    intro P Q
    dsimp only
    rw [sc_lt_zero hh]
    by_cases h5 : lt (fin 0) P = true
    · simp only [if_pos h5, mul_sc hh, sc_sub hh, sc_lt hh, sc_div hh]
      split_ifs <;> rfl
    · simp only [if_neg h5, sc_neg hh, mul_sc hh, sc_sub hh, sc_lt hh, sc_div hh]
      split_ifs <;> rfl
  by_cases h3 : feq s.a s.c = true
  · simp only [if_pos h3]
    have := key (fin ((2 : ℚ) : α) * m * (s.fb / s.fa)) (fin ((1 : ℚ) : α) - s.fb / s.fa)
    simp only [sc_sub hh] at this ⊢
    exact this
  simp only [if_neg h3]
  by_cases h4 : feq s.fc (fin 0) = true
  · simp only [if_pos h4, Option.map_none]
  simp only [if_neg h4]
  have := key (s.fb / s.fa * (fin ((2 : ℚ) : α) * m * (s.fa / s.fc) * (s.fa / s.fc - s.fb / s.fc) - (s.b - s.a) * (s.fb / s.fc - fin ((1 : ℚ) : α))))
    ((s.fa / s.fc - fin ((1 : ℚ) : α)) * (s.fb / s.fc - fin ((1 : ℚ) : α)) * (s.fb / s.fa - fin ((1 : ℚ) : α)))
  simp only [sc_sub hh] at this ⊢
  exact this

theorem brentMove_sc {f f' : Fl α → Fl α} (hf : ∀ x, f' (Fl.sc h x) = Fl.sc k (f x)) (s : BrentSt (Fl α)) (tol m e d : Fl α) :
    brentMove f' (s.sc h k) (Fl.sc h tol) (Fl.sc h m) (Fl.sc h e) (Fl.sc h d) = (brentMove f s tol m e d).sc h k := by
  unfold brentMove BrentSt.sc
  dsimp only
  simp only [lit_eq, Rat.cast_zero, sc_abs hh, sc_lt hh, sc_lt_zero hh, sc_add hh, sc_sub hh, sc_ite, hf, sc_lt_zero hk, sc_le_zero hk]
  split_ifs <;> rfl

theorem brentStep_sc {f f' : Fl α → Fl α} (hf : ∀ x, f' (Fl.sc h x) = Fl.sc k (f x)) (t : Fl α) (s : BrentSt (Fl α)) :
    brentStep f' (Fl.sc h t) (s.sc h k) =
      match brentStep f t s with
      | .done b => .done (Fl.sc h b)
      | .zeroDiv => .zeroDiv
      | .next s' => .next (s'.sc h k) := by
  unfold brentStep
  rw [brentSwap_sc hh hk]
  generalize brentSwap s = s
  have ht : lit 2 * lit eps64 * FloatLike.abs (s.sc h k).b + Fl.sc h t = Fl.sc h (lit 2 * lit eps64 * FloatLike.abs s.b + t) := by
    show lit 2 * lit eps64 * FloatLike.abs (Fl.sc h s.b) + _ = _
    rw [sc_abs hh, mul_sc hh, sc_add hh]
  have hm : lit (1/2) * ((s.sc h k).c - (s.sc h k).b) = Fl.sc h (lit (1/2) * (s.c - s.b)) := by
    show lit (1/2) * (Fl.sc h s.c - Fl.sc h s.b) = _
    rw [sc_sub hh, mul_sc hh]
  have hb : (s.sc h k).fb = Fl.sc k s.fb := rfl
  have hb' : (s.sc h k).b = Fl.sc h s.b := rfl
  dsimp only
  rw [ht, hm, hb, hb', sc_abs hh, sc_le hh]
  simp only [lit_eq, Rat.cast_zero, sc_feq_zero hk]
  split_ifs with h1
  · rfl
  · rw [brentChoose_sc hh hk]
    cases brentChoose s (fin ((2 : ℚ) : α) * fin (eps64 : α) * FloatLike.abs s.b + t) (fin ((1/2 : ℚ) : α) * (s.c - s.b)) with
    | none => rfl
    | some x => simp only [Option.map_some, brentMove_sc hh hk hf]

theorem brentLoop_sc {f f' : Fl α → Fl α} (hf : ∀ x, f' (Fl.sc h x) = Fl.sc k (f x)) (t : Fl α) (n : ℕ) :
    ∀ s : BrentSt (Fl α), brentLoop f' (Fl.sc h t) n (s.sc h k) = (brentLoop f t n s).map (Fl.sc h) := by
  induction n with
  | zero => intro s; rfl
  | succ n ih =>
    intro s
    unfold brentLoop
    rw [brentStep_sc hh hk hf]
    cases brentStep f t s with
    | done b => rfl
    | zeroDiv => rfl
    | next s' => exact ih s'

/-- `brent` of a function in other units of its argument and of its value. -/
theorem brent_sc {f f' : Fl α → Fl α} (hf : ∀ x, f' (Fl.sc h x) = Fl.sc k (f x)) (fuel : ℕ) (a b t : Fl α) :
    brent fuel f' (Fl.sc h a) (Fl.sc h b) (Fl.sc h t) = (brent fuel f a b t).map (Fl.sc h) := by
  unfold brent
  dsimp only
  rw [sc_isNaN hh, sc_isNaN hh, sc_lt hh, hf, hf]
  simp only [lit_eq, Rat.cast_zero, sc_sc_pos hk, sc_sub hh]
  split_ifs
  · rfl
  · rfl
  · exact brentLoop_sc hh hk hf t fuel ⟨a, b, a, b - a, b - a, f a, f b, f a⟩

/-- the loop state of `guess_to_bounds` in other units of the argument -/
def GtbSt.sc (h : α) (s : GtbSt (Fl α)) : GtbSt (Fl α) :=
  ⟨Fl.sc h s.a, Fl.sc h s.b, Fl.sc h s.dxm, Fl.sc h s.dxp, s.fapos, s.fbpos⟩

omit hh hk in
/-- half a pass in other units -/
def GtbStep.sc (h : α) : GtbStep (Fl α) → GtbStep (Fl α)
  | .ret a b => .ret (Fl.sc h a) (Fl.sc h b)
  | .next s => .next (s.sc h)
  | .unbound => .unbound

omit [IsStrictOrderedRing α] hh hk in
theorem gtbTest_sc (s : GtbSt (Fl α)) (r : GtbStep (Fl α)) : gtbTest (s.sc h) (r.sc h) = (gtbTest s r).sc h := by
  unfold gtbTest GtbSt.sc
  dsimp only
  cases s.fapos with
  | none => rfl
  | some p =>
    cases s.fbpos with
    | none => rfl
    | some q =>
      dsimp only
      split_ifs <;> rfl

theorem gtbLeft_sc {f f' : Fl α → Fl α} (hf : ∀ x, f' (Fl.sc h x) = Fl.sc k (f x)) (x A B : Fl α) (s : GtbSt (Fl α)) :
    gtbLeft f' (Fl.sc h x) (Fl.sc h A) (Fl.sc h B) (s.sc h) = (gtbLeft f x A B s).sc h := by
  unfold gtbLeft
  have e1 : (s.sc h).a = Fl.sc h s.a := rfl
  have e2 : (s.sc h).b = Fl.sc h s.b := rfl
  have e3 : (s.sc h).dxm = Fl.sc h s.dxm := rfl
  dsimp only
  rw [e1, e2, e3, sc_lt hh, sc_feq hh]
  simp only [sc_mul hh, sc_sub hh, sc_fmax hh, hf, lit_eq, Rat.cast_zero, sc_lt_zero hk]
  split_ifs
  · rw [← gtbTest_sc]
    rfl
  · exact gtbTest_sc (h := h) s (.ret Fl.nan Fl.nan)
  · rfl

theorem gtbRight_sc {f f' : Fl α → Fl α} (hf : ∀ x, f' (Fl.sc h x) = Fl.sc k (f x)) (x A B : Fl α) (s : GtbSt (Fl α)) :
    gtbRight f' (Fl.sc h x) (Fl.sc h A) (Fl.sc h B) (s.sc h) = (gtbRight f x A B s).sc h := by
  unfold gtbRight
  have e1 : (s.sc h).a = Fl.sc h s.a := rfl
  have e2 : (s.sc h).b = Fl.sc h s.b := rfl
  have e3 : (s.sc h).dxp = Fl.sc h s.dxp := rfl
  dsimp only
  rw [e1, e2, e3, sc_lt hh, sc_feq hh]
  simp only [sc_mul hh, sc_add hh, sc_fmin hh, hf, lit_eq, Rat.cast_zero, sc_lt_zero hk]
  split_ifs
  · rw [← gtbTest_sc]
    rfl
  · exact gtbTest_sc (h := h) s (.ret Fl.nan Fl.nan)
  · rfl

theorem gtbLoop_sc {f f' : Fl α → Fl α} (hf : ∀ x, f' (Fl.sc h x) = Fl.sc k (f x)) (x A B : Fl α) (n : ℕ) :
    ∀ s : GtbSt (Fl α), gtbLoop f' (Fl.sc h x) (Fl.sc h A) (Fl.sc h B) n (s.sc h) =
      (gtbLoop f x A B n s).map fun ab => (Fl.sc h ab.1, Fl.sc h ab.2) := by
  induction n with
  | zero => intro s; rfl
  | succ n ih =>
    intro s
    unfold gtbLoop
    rw [gtbLeft_sc hh hk hf]
    cases gtbLeft f x A B s with
    | ret a b => rfl
    | unbound => rfl
    | next s =>
      simp only [GtbStep.sc, gtbRight_sc hh hk hf]
      cases gtbRight f x A B s with
      | ret a b => rfl
      | unbound => rfl
      | next s => exact ih s

theorem gtbInit_sc {f f' : Fl α → Fl α} (hf : ∀ x, f' (Fl.sc h x) = Fl.sc k (f x)) (x A B : Fl α) :
    gtbInit f' (Fl.sc h x) (Fl.sc h A) (Fl.sc h B) = (gtbInit f x A B).sc h := by
  unfold gtbInit
  simp only [sc_sub hh, sc_div hh, lit_eq, Rat.cast_zero, sc_feq_zero hh, sc_ite, sc_lt hh, sc_feq hh, hf, sc_lt_zero hk]
  split_ifs <;> rfl

/-- `guess_to_bounds` of a function in other units of its argument and of its value. -/
theorem guessToBounds_sc {f f' : Fl α → Fl α} (hf : ∀ x, f' (Fl.sc h x) = Fl.sc k (f x)) (fuel : ℕ) (x A B : Fl α) :
    guessToBounds fuel f' (Fl.sc h x) (Fl.sc h A) (Fl.sc h B) =
      (guessToBounds fuel f x A B).map fun ab => (Fl.sc h ab.1, Fl.sc h ab.2) := by
  unfold guessToBounds
  simp only [hf, lit_eq, Rat.cast_zero, sc_feq_zero hk, sc_fmax hh, sc_fmin hh]
  split_ifs
  · rfl
  · rfl
  · rw [gtbInit_sc hh hk hf]
    exact gtbLoop_sc hh hk hf _ _ _ _ _

end Fzero
