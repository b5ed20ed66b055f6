import Verif.Lemmas.Pchip
import Verif.Lemmas.InterpPad
import Mathlib.Analysis.Calculus.Deriv.Pow
import Mathlib.Analysis.Calculus.Deriv.Mul
import Mathlib.Analysis.Calculus.Deriv.Add
import Mathlib.Topology.Order.Basic

/-!
# Properties of the interpolation routines (C08 - C17)
-/

set_option linter.unusedSectionVars false

namespace Interp
open FloatLike
open Fl hiding nan

/-! ## C08 valid ranges -/

section C08
variable {F : Type*} [FloatLike F]

/-- Specification of the first contiguous block of data: `ok i` says site `i` is finite, `bad i` that it has a NaN. -/
def IsFirstBlock (ok bad : ℕ → Prop) (n k K : ℕ) : Prop :=
  k ≤ K ∧ K ≤ n ∧ (∀ i, i < k → ¬ ok i) ∧ (k < n → ok k ∧ k < K) ∧ (∀ i, k ≤ i → i < K → ¬ bad i) ∧ (K < n → bad K)

/-- The specification has one solution. -/
theorem IsFirstBlock.unique {ok bad : ℕ → Prop} {n k K k' K' : ℕ} (h : IsFirstBlock ok bad n k K)
    (h' : IsFirstBlock ok bad n k' K') : k = k' ∧ K = K' := by
  obtain ⟨a1, a2, a3, a4, a5, a6⟩ := h
  obtain ⟨b1, b2, b3, b4, b5, b6⟩ := h'
  have hk : k = k' := by
    rcases lt_trichotomy k k' with h | h | h
    · exact absurd (a4 (by omega)).1 (b3 k h)
    · exact h
    · exact absurd (b4 (by omega)).1 (a3 k' h)
  refine ⟨hk, ?_⟩
  rcases lt_trichotomy K K' with h | h | h
  · exact absurd (a6 (by omega)) (b5 K (by omega) h)
  · exact h
  · exact absurd (b6 (by omega)) (a5 K' (by omega) h)

/-- **C08** `valid_range_1` returns the first contiguous block of data (in any arithmetic in which finite numbers
are not NaN). -/
theorem validRange_spec (hfn : ∀ x : F, isFinite x = true → isNaN x = false) (X : Arr F) :
    IsFirstBlock (fun i => isFinite (X.get i) = true) (fun i => isNaN (X.get i) = true) X.size
      (validRange X).1 (validRange X).2 := by
  set k := (validRange X).1 with hk
  set K := (validRange X).2 with hK
  have hk' : k = firstFrom (fun i => isFinite (X.get i)) 0 X.size := rfl
  have hK' : K = firstFrom (fun i => isNaN (X.get i)) (k + 1) X.size := rfl
  have l1 : k ≤ X.size := hk' ▸ firstFrom_le _ _ _
  have l2 : K ≤ X.size := hK' ▸ firstFrom_le _ _ _
  have hkK : k < X.size → k < K := by
    intro h
    by_cases h2 : K < X.size
    · have := (firstFrom_at (p := fun i => isNaN (X.get i)) (lo := k + 1) (n := X.size) (by rw [← hK']; exact h2)).1
      rw [← hK'] at this; omega
    · omega
  have hat : k < X.size → isFinite (X.get k) = true := by
    intro h
    have := (firstFrom_at (p := fun i => isFinite (X.get i)) (lo := 0) (n := X.size) (by rw [← hk']; exact h)).2
    rw [← hk'] at this; exact this
  refine ⟨?_, l2, ?_, fun h => ⟨hat h, hkK h⟩, ?_, ?_⟩
  · by_cases h : k < X.size
    · exact (hkK h).le
    · by_contra hc
      have h2 : K < X.size := by omega
      have := (firstFrom_at (p := fun i => isNaN (X.get i)) (lo := k + 1) (n := X.size) (by rw [← hK']; exact h2)).1
      rw [← hK'] at this; omega
  · intro i hi
    rw [hk'] at hi
    have := firstFrom_before (p := fun i => isFinite (X.get i)) (Nat.zero_le _) hi
    simpa using this
  · intro i h1 h2
    by_cases h3 : i = k
    · subst h3
      show ¬ isNaN (X.get k) = true
      rw [hfn _ (hat (by omega))]; simp
    · rw [hK'] at h2
      have := firstFrom_before (p := fun i => isNaN (X.get i)) (by omega : k + 1 ≤ i) h2
      simpa using this
  · intro h
    have := (firstFrom_at (p := fun i => isNaN (X.get i)) (lo := k + 1) (n := X.size) (by rw [← hK']; exact h)).2
    rw [← hK'] at this; exact this

/-- **C08** `valid_range_1_two` does the same for a pair of arrays. -/
theorem validRange2_spec (hfn : ∀ x : F, isFinite x = true → isNaN x = false) (X Y : Arr F) :
    IsFirstBlock (fun i => isFinite (X.get i) = true ∧ isFinite (Y.get i) = true)
      (fun i => isNaN (X.get i) = true ∨ isNaN (Y.get i) = true) X.size
      (validRange2 X Y).1 (validRange2 X Y).2 := by
  have l1 : (validRange2 X Y).1 ≤ X.size := firstFrom_le _ _ _
  have l2 := validRange2_K_le X Y
  have hge : (validRange2 X Y).2 < X.size → (validRange2 X Y).1 < (validRange2 X Y).2 := by
    intro h
    have := (firstFrom_at (p := fun i => isNaN (X.get i) || isNaN (Y.get i)) h).1
    exact this
  refine ⟨by omega, l2, ?_, fun h => ⟨validRange2_first X Y h, by omega⟩, ?_, fun h => validRange2_after X Y h⟩
  · rintro i hi ⟨h1, h2⟩
    rcases validRange2_before X Y hi with h | h
    · rw [h1] at h; cases h
    · rw [h2] at h; cases h
  · intro i h1 h2
    show ¬ (isNaN (X.get i) = true ∨ isNaN (Y.get i) = true)
    by_cases h3 : i = (validRange2 X Y).1
    · have := validRange2_first X Y (by omega)
      rw [h3, hfn _ this.1, hfn _ this.2]; simp
    · have := validRange2_in X Y (by omega : (validRange2 X Y).1 < i) h2
      rw [this.1, this.2]; simp

/-- hypotheses met; a block in the middle: `[nan, 1, 2, nan, 3]` gives `(1, 3)`. -/
example : (∀ x : Fl ℚ, isFinite x = true → isNaN x = false) ∧
    validRange (Arr.ofList [Fl.nan, Fl.fin (1:ℚ), Fl.fin 2, Fl.nan, Fl.fin 3]) = (1, 3) :=
  ⟨by intro x; cases x <;> simp, by decide +kernel⟩

/-- **C64, violated** The docstring says "If X[i] is NaN for all i > k, then K = len(X)"; instead `K = k + 1`. -/
theorem validRange_doc_false : ∃ X : Arr (Fl ℚ), X.size = 3 ∧ (validRange X).1 = 0 ∧
    (∀ i, 0 < i → i < 3 → isNaN (X.get i) = true) ∧ (validRange X).2 ≠ X.size := by
  refine ⟨Arr.ofList [Fl.fin 1, Fl.nan, Fl.nan], rfl, by decide +kernel, ?_, by decide +kernel⟩
  intro i h1 h2
  have : i = 1 ∨ i = 2 := by omega
  rcases this with rfl | rfl <;> rfl

/-- **C64, what does hold** If the block does not reach the end, `K` points to a NaN; in particular when every
entry after `k` is NaN and there is one, `K = k + 1`. -/
theorem validRange_alone_partial (hfn : ∀ x : F, isFinite x = true → isNaN x = false) (X : Arr F)
    (hk : (validRange X).1 + 1 < X.size)
    (h : ∀ i, (validRange X).1 < i → i < X.size → isNaN (X.get i) = true) :
    (validRange X).2 = (validRange X).1 + 1 := by
  obtain ⟨a1, a2, a3, a4, a5, a6⟩ := validRange_spec hfn X
  have := (a4 (by omega)).2
  by_contra hc
  exact a5 ((validRange X).1 + 1) (by omega) (by omega) (h _ (by omega) hk)

end C08

/-! ## The data of an interpolation problem -/

section exact
variable {α : Type*} [Field α] [LinearOrder α] [IsStrictOrderedRing α]

/-- Any data without infinities that has at least two valid sites, strictly increasing there, forms a `Block`
(the hypothesis of the theorems below). -/
theorem exists_block {X Y : Arr (Fl α)} (hs : X.size = Y.size)
    (hX : ∀ i, i < X.size → X.get i = Fl.nan ∨ ∃ x, X.get i = Fl.fin x)
    (hY : ∀ i, i < X.size → Y.get i = Fl.nan ∨ ∃ x, Y.get i = Fl.fin x)
    (h2 : (validRange2 X Y).1 + 2 ≤ (validRange2 X Y).2)
    (hinc : ∀ i, (validRange2 X Y).1 ≤ i → i + 1 < (validRange2 X Y).2 → lt (X.get i) (X.get (i + 1)) = true) :
    ∃ a y, Block X Y (validRange2 X Y).1 (validRange2 X Y).2 a y := by
  have hfn : ∀ x : Fl α, isFinite x = true → isNaN x = false := by intro x; cases x <;> simp
  obtain ⟨a1, a2, a3, a4, a5, a6⟩ := validRange2_spec hfn X Y
  have key : ∀ i, (validRange2 X Y).1 ≤ i → i < (validRange2 X Y).2 →
      (∃ x, X.get i = Fl.fin x) ∧ ∃ x, Y.get i = Fl.fin x := by
    intro i h1 h3
    have hb := a5 i h1 h3
    push Not at hb
    constructor
    · rcases hX i (by omega) with h | h
      · rw [h] at hb; simp at hb
      · exact h
    · rcases hY i (by omega) with h | h
      · rw [h] at hb; simp at hb
      · exact h
  choose! a ha using fun i (h : (validRange2 X Y).1 ≤ i ∧ i < (validRange2 X Y).2) => (key i h.1 h.2).1
  choose! y hy using fun i (h : (validRange2 X Y).1 ≤ i ∧ i < (validRange2 X Y).2) => (key i h.1 h.2).2
  refine ⟨a, y, hs, rfl, h2, fun i h1 h3 => ha i ⟨h1, h3⟩, fun i h1 h3 => hy i ⟨h1, h3⟩, ?_⟩
  intro i h1 h3
  have := hinc i h1 h3
  rw [ha i ⟨h1, by omega⟩, ha (i + 1) ⟨by omega, h3⟩, lt_fin] at this
  simpa using this

/-- Example data: `X = [nan, 0, 1, 3, nan, 9]`, `Y = [7, 5, 6, 6, 2, 2]`; block `1:4`. -/
def exX : Arr (Fl ℚ) := Arr.ofList [Fl.nan, Fl.fin 0, Fl.fin 1, Fl.fin 3, Fl.nan, Fl.fin 9]
/-- Example data, see `exX`. -/
def exY : Arr (Fl ℚ) := Arr.ofList [Fl.fin 7, Fl.fin 5, Fl.fin 6, Fl.fin 6, Fl.fin 2, Fl.fin 2]

/-- `Block` is inhabited by a non-trivial case. -/
theorem exBlock : Block exX exY 1 4 (fun i => if i = 1 then 0 else if i = 2 then 1 else 3)
    (fun i => if i = 1 then 5 else 6) := by
  refine ⟨rfl, by decide +kernel, by omega, ?_, ?_, ?_⟩
  · intro i h1 h2
    have : i = 1 ∨ i = 2 ∨ i = 3 := by omega
    rcases this with rfl | rfl | rfl <;> rfl
  · intro i h1 h2
    have : i = 1 ∨ i = 2 ∨ i = 3 := by omega
    rcases this with rfl | rfl | rfl <;> rfl
  · intro i h1 h2
    have : i = 1 ∨ i = 2 := by omega
    rcases this with rfl | rfl <;> norm_num

/-! ## C09 -/

variable {X Y : Arr (Fl α)} {k K : ℕ} {a y : ℕ → α}

/-- **C09** Evaluation of any coefficient table of the data: NaN exactly when `x` is NaN or outside the range
of the valid sites; otherwise one polynomial piece whose interval contains `x` is used. -/
theorem ppval1_spec (B : Block X Y k K a y) {C : PPC (Fl α)} (hC : C.lastCol.get = Y.get) (d : ℕ) :
    ppval1 Fl.nan X C d = Fl.nan ∧
    (∀ x, x < a k ∨ a (K - 1) < x → ppval1 (Fl.fin x) X C d = Fl.nan) ∧
    (∀ x, a k ≤ x → x ≤ a (K - 1) → ∃ i, k ≤ i ∧ i + 1 < K ∧ a i ≤ x ∧ x ≤ a (i + 1) ∧ (i = k ∨ a i < x) ∧
      ppval1 (Fl.fin x) X C d = pval (Fl.fin (x - a i)) (C.row i) d) := by
  have hvr := B.vr_table hC
  refine ⟨?_, ?_, ?_⟩
  · rw [ppval1_eq hvr]; unfold outside; simp
  · intro x hx
    rw [ppval1_eq hvr]
    cases ho : outside X k K (Fl.fin x) with
    | true => rfl
    | false =>
      obtain ⟨h1, h2⟩ := (B.outside_iff x).mp ho
      rcases hx with h | h <;> linarith
  · intro x h1 h2
    have ho := (B.outside_iff x).mpr ⟨h1, h2⟩
    obtain ⟨e1, e2, e3, e4, e5⟩ := pieceIndex_bracket B.hX B.mono ho
    refine ⟨_, e1, by omega, e3, e4, e5, ?_⟩
    rw [ppval1_eq hvr, ho, B.hX _ e1 (by omega), fin_sub]
    rfl

/-- **C09** With fewer than two valid sites every evaluation is NaN, in any arithmetic. -/
theorem ppval1_few {F : Type*} [FloatLike F] {X : Arr F} {C : PPC F}
    (h : (validRange2 X C.lastCol).2 ≤ (validRange2 X C.lastCol).1 + 1) (x : F) (d : ℕ) :
    ppval1 x X C d = nan := by
  unfold ppval1 outside
  simp only
  rw [decide_eq_true (by omega)]; simp

/-- **C09** In any arithmetic and for any data (even unsorted), if the range test passes, the sites and
coefficients read have indices in the array: no out-of-range access. -/
theorem pieceIndex_range {F : Type*} [FloatLike F] (X Y : Arr F) (x : F)
    (h : outside X (validRange2 X Y).1 (validRange2 X Y).2 x = false) :
    (validRange2 X Y).1 ≤ pieceIndex X (validRange2 X Y).1 (validRange2 X Y).2 x ∧
    pieceIndex X (validRange2 X Y).1 (validRange2 X Y).2 x + 2 ≤ (validRange2 X Y).2 ∧
    (validRange2 X Y).2 ≤ X.size :=
  ⟨(pieceIndex_range' X _ _ x h).1, (pieceIndex_range' X _ _ x h).2, validRange2_K_le X Y⟩

example : outside exX 1 4 (Fl.fin 2) = false ∧ pieceIndex exX 1 4 (Fl.fin 2) = 2 ∧
    ppval1 (Fl.fin 2) exX (linearCoeffs1 exX exY) 0 = Fl.fin 6 := by decide +kernel
example : ppval1 (Fl.fin 4) exX (linearCoeffs1 exX exY) 0 = Fl.nan := by decide +kernel

/-! ## C10, C11: linear -/

/-- **C11** Linear interpolation (both ways of computing it) is the chord, its first derivative the chord slope,
and no division by zero occurs. -/
theorem linear_chord (B : Block X Y k K a y) {i : ℕ} {x : α} (h1 : k ≤ i) (h2 : i + 1 < K)
    (hx : a i ≤ x) (hx' : x ≤ a (i + 1)) :
    ppval1 (Fl.fin x) X (linearCoeffs1 X Y) 0
      = Fl.fin (y i + (x - a i) * ((y (i + 1) - y i) / (a (i + 1) - a i))) ∧
    linearInterp1 (Fl.fin x) X Y 0
      = some (Fl.fin (y i + (x - a i) * ((y (i + 1) - y i) / (a (i + 1) - a i)))) ∧
    (a i < x ∨ i = k → ppval1 (Fl.fin x) X (linearCoeffs1 X Y) 1 = Fl.fin ((y (i + 1) - y i) / (a (i + 1) - a i)) ∧
      linearInterp1 (Fl.fin x) X Y 1 = some (Fl.fin ((y (i + 1) - y i) / (a (i + 1) - a i)))) := by
  have hvr := B.vr_table (C := linearCoeffs1 X Y) (by rw [linearCoeffs1_lastCol])
  have ho : outside X k K (Fl.fin x) = false :=
    (B.outside_iff x).mpr ⟨le_trans (B.mono k i (le_refl _) h1 (by omega)) hx,
      le_trans hx' (B.mono (i + 1) (K - 1) (by omega) (by omega) (by omega))⟩
  have hrow : ∀ j, k ≤ j → j + 1 < K → (linearCoeffs1 X Y).row j = [Fl.fin (chord a y j), Fl.fin (y j)] := by
    intro j hj hj'
    show [(diffSame Y).get j / (diffSame X).get j, Y.get j] = _
    rw [B.chordδ hj hj', B.hY j hj (by omega)]
  have hcI : ∀ j, k ≤ j → j + 1 < K → linearCoeffsI X Y j = some [Fl.fin (chord a y j), Fl.fin (y j)] := by
    intro j hj hj'
    unfold linearCoeffsI
    rw [B.hX _ hj (by omega), B.hX (j + 1) (by omega) hj', B.hY _ hj (by omega), B.hY (j + 1) (by omega) hj',
      fin_sub, fin_sub, sdiv_fin (B.hpos hj hj').ne']
    rfl
  have p0 : ∀ u c b : α, pval (Fl.fin u) [Fl.fin c, Fl.fin b] 0 = Fl.fin (b + u * c) := by
    intro u c b; simp [pval]; ring
  have p1 : ∀ u c b : α, pval (Fl.fin u) [Fl.fin c, Fl.fin b] 1 = Fl.fin c := by
    intro u c b; simp [pval, multiplier, List.range']
  have hval : ∀ j, k ≤ j → j + 1 < K → ∀ e, pieceIndex X k K (Fl.fin x) = j →
      ppval1 (Fl.fin x) X (linearCoeffs1 X Y) e = pval (Fl.fin (x - a j)) [Fl.fin (chord a y j), Fl.fin (y j)] e ∧
      linearInterp1 (Fl.fin x) X Y e = some (pval (Fl.fin (x - a j)) [Fl.fin (chord a y j), Fl.fin (y j)] e) := by
    intro j hj hj' e he
    constructor
    · rw [ppval1_eq hvr, ho, he, hrow j hj hj', B.hX j hj (by omega), fin_sub]
      rfl
    · unfold linearInterp1 ppinterp1
      simp only [B.vr, ho, he, hcI j hj hj']
      rw [B.hX j hj (by omega), fin_sub]; rfl
  rcases B.piece_eq h1 (by omega) hx hx' with he | ⟨hxa, hki, he⟩
  · have v0 := hval i h1 h2 0 he
    have v1 := hval i h1 h2 1 he
    rw [p0] at v0
    rw [p1] at v1
    exact ⟨v0.1, v0.2, fun _ => v1⟩
  · have v0 := hval (i - 1) (by omega) (by omega) 0 he
    rw [p0] at v0
    have hp := (B.hpos (i := i - 1) (by omega) (by omega)).ne'
    unfold chord at v0
    rw [show i - 1 + 1 = i by omega] at hp v0
    have e : y (i - 1) + (x - a (i - 1)) * ((y i - y (i - 1)) / (a i - a (i - 1)))
        = y i + (x - a i) * ((y (i + 1) - y i) / (a (i + 1) - a i)) := by
      rw [hxa, sub_self, zero_mul, add_zero]
      field_simp
      ring
    rw [e] at v0
    refine ⟨v0.1, v0.2, ?_⟩
    rintro (h | h)
    · linarith
    · omega

/-- **C11** Linear interpolation stays between the neighbouring data. -/
theorem linear_between (B : Block X Y k K a y) {i : ℕ} {x : α} (h1 : k ≤ i) (h2 : i + 1 < K)
    (hx : a i ≤ x) (hx' : x ≤ a (i + 1)) :
    ∃ v, ppval1 (Fl.fin x) X (linearCoeffs1 X Y) 0 = Fl.fin v ∧ min (y i) (y (i + 1)) ≤ v ∧ v ≤ max (y i) (y (i + 1)) := by
  refine ⟨_, (linear_chord B h1 h2 hx hx').1, ?_⟩
  have hp := B.hpos h1 h2
  set w := (x - a i) / (a (i + 1) - a i) with hw
  have w0 : 0 ≤ w := div_nonneg (by linarith) hp.le
  have w1 : w ≤ 1 := by rw [hw, div_le_one hp]; linarith
  have e : y i + (x - a i) * ((y (i + 1) - y i) / (a (i + 1) - a i)) = (1 - w) * y i + w * y (i + 1) := by
    rw [hw]; field_simp; ring
  rw [e]
  constructor
  · nlinarith [mul_le_mul_of_nonneg_left (min_le_left (y i) (y (i + 1))) (by linarith : 0 ≤ 1 - w),
      mul_le_mul_of_nonneg_left (min_le_right (y i) (y (i + 1))) w0]
  · nlinarith [mul_le_mul_of_nonneg_left (le_max_left (y i) (y (i + 1))) (by linarith : 0 ≤ 1 - w),
      mul_le_mul_of_nonneg_left (le_max_right (y i) (y (i + 1))) w0]

/-- **C10** Linear interpolation passes through the data. -/
theorem linear_interpolates (B : Block X Y k K a y) {j : ℕ} (h1 : k ≤ j) (h2 : j < K) :
    ppval1 (X.get j) X (linearCoeffs1 X Y) 0 = Y.get j ∧ linearInterp1 (X.get j) X Y 0 = some (Y.get j) := by
  have htwo := B.two
  rw [B.hX j h1 h2, B.hY j h1 h2]
  by_cases h : j + 1 < K
  · have := linear_chord B h1 h (le_refl _) (B.inc j h1 h).le
    rw [sub_self, zero_mul, add_zero] at this
    exact ⟨this.1, this.2.1⟩
  · have hi := B.inc (j - 1) (by omega) (by omega)
    have := linear_chord B (i := j - 1) (x := a j) (by omega) (by omega)
      (by rw [show j - 1 + 1 = j by omega] at hi; exact hi.le) (by rw [show j - 1 + 1 = j by omega])
    have hp := (B.hpos (i := j - 1) (by omega) (by omega)).ne'
    rw [show j - 1 + 1 = j by omega] at this hp
    have e : y (j - 1) + (a j - a (j - 1)) * ((y j - y (j - 1)) / (a j - a (j - 1))) = y j := by
      field_simp; ring
    rw [e] at this
    exact ⟨this.1, this.2.1⟩

/-! ## C10, C12, C13: PCHIP -/

/-- **C10** The PCHIP coefficients of any strictly increasing data exist (no ZeroDivisionError) and the
interpolant passes through the data. -/
theorem pchip_interpolates (B : Block X Y k K a y) :
    ∃ C, pchipCoeffs1 X Y = some C ∧ ∀ j, k ≤ j → j < K → ppval1 (X.get j) X C 0 = Y.get j := by
  obtain ⟨C, d, hC, _, hrow⟩ := B.pchip
  have htwo := B.two
  refine ⟨C, hC, fun j h1 h2 => ?_⟩
  rw [B.hX j h1 h2, B.hY j h1 h2]
  by_cases h : j + 1 < K
  · rw [(B.pchip_val hC hrow h1 h (le_refl _) (B.inc j h1 h).le).1, sub_self, hermV_zero]
  · have hi := B.inc (j - 1) (by omega) (by omega)
    rw [show j - 1 + 1 = j by omega] at hi
    have := (B.pchip_val hC hrow (i := j - 1) (x := a j) (by omega) (by omega) hi.le
      (by rw [show j - 1 + 1 = j by omega])).1
    rw [show j - 1 + 1 = j by omega, hermV_end (by linarith)] at this
    rw [this]
    unfold chord
    rw [show j - 1 + 1 = j by omega]
    congr 1
    have : a j - a (j - 1) ≠ 0 := by linarith
    field_simp
    ring

/-- **C12** Between neighbouring sites PCHIP is monotone in the direction of the data and does not overshoot. -/
theorem pchip_shape (B : Block X Y k K a y) :
    ∃ C, pchipCoeffs1 X Y = some C ∧ ∀ i, k ≤ i → i + 1 < K →
      ∀ x x', a i ≤ x → x ≤ x' → x' ≤ a (i + 1) →
      ∃ v v', ppval1 (Fl.fin x) X C 0 = Fl.fin v ∧ ppval1 (Fl.fin x') X C 0 = Fl.fin v' ∧
        (y i ≤ y (i + 1) → y i ≤ v ∧ v ≤ v' ∧ v' ≤ y (i + 1)) ∧
        (y (i + 1) ≤ y i → y (i + 1) ≤ v' ∧ v' ≤ v ∧ v ≤ y i) := by
  obtain ⟨C, d, hC, hok, hrow⟩ := B.pchip
  refine ⟨C, hC, fun i h1 h2 x x' hx hxx hx' => ?_⟩
  have hp := B.hpos h1 h2
  have hend : ∀ d0 d1, hermV (a (i + 1) - a i) (chord a y i) d0 d1 (y i) (a (i + 1) - a i) = y (i + 1) := by
    intro d0 d1
    rw [hermV_end hp.ne']; unfold chord; field_simp; ring
  refine ⟨_, _, (B.pchip_val hC hrow h1 h2 hx (le_trans hxx hx')).1, (B.pchip_val hC hrow h1 h2 (le_trans hx hxx) hx').1, ?_, ?_⟩
  · intro hy
    have hδ : 0 ≤ chord a y i := div_nonneg (by linarith) hp.le
    have ok := hok i h1 h2
    refine ⟨?_, hermV_mono hp hδ ok.1 ok.2 (by linarith) (by linarith) (by linarith), ?_⟩
    · conv_lhs => rw [← hermV_zero (h := a (i + 1) - a i) (δ := chord a y i) (d0 := d i) (d1 := d (i + 1)) (y := y i)]
      exact hermV_mono hp hδ ok.1 ok.2 (le_refl _) (by linarith) (by linarith)
    · rw [← hend (d i) (d (i + 1))]
      exact hermV_mono hp hδ ok.1 ok.2 (by linarith) (by linarith) (le_refl _)
  · intro hy
    have hδ : chord a y i ≤ 0 := div_nonpos_of_nonpos_of_nonneg (by linarith) hp.le
    have ok := hok i h1 h2
    refine ⟨?_, hermV_anti hp hδ ok.1 ok.2 (by linarith) (by linarith) (by linarith), ?_⟩
    · rw [← hend (d i) (d (i + 1))]
      exact hermV_anti hp hδ ok.1 ok.2 (by linarith) (by linarith) (le_refl _)
    · conv_rhs => rw [← hermV_zero (h := a (i + 1) - a i) (δ := chord a y i) (d0 := d i) (d1 := d (i + 1)) (y := y i)]
      exact hermV_anti hp hδ ok.1 ok.2 (le_refl _) (by linarith) (by linarith)

example : (pchipCoeffs1 exX exY).map (fun C => (ppval1 (Fl.fin 1) exX C 0, ppval1 (Fl.fin (1/2)) exX C 0,
    ppval1 (Fl.fin 1) exX C 1)) = some (Fl.fin 6, Fl.fin (17/3), Fl.fin 0) := by decide +kernel

end exact

/-- **C13** PCHIP is continuously differentiable over the whole data range: `ppval_1` with `d = 1` is the
derivative of `ppval_1` with `d = 0`, and it is continuous. -/
theorem pchip_C1 {X Y : Arr (Fl ℝ)} {k K : ℕ} {a y : ℕ → ℝ} (B : Block X Y k K a y) :
    ∃ C, pchipCoeffs1 X Y = some C ∧ ∃ g g' : ℝ → ℝ,
      (∀ x ∈ Set.Icc (a k) (a (K - 1)), ppval1 (Fl.fin x) X C 0 = Fl.fin (g x) ∧
        ppval1 (Fl.fin x) X C 1 = Fl.fin (g' x)) ∧
      (∀ x ∈ Set.Ioo (a k) (a (K - 1)), HasDerivAt g (g' x) x) ∧
      ContinuousOn g' (Set.Icc (a k) (a (K - 1))) := by
  obtain ⟨C, d, hC, _, hrow⟩ := B.pchip
  have htwo := B.two
  let un : Fl ℝ → ℝ := fun z => match z with | Fl.fin r => r | _ => 0
  let V : ℕ → ℝ → ℝ := fun i x => hermV (a (i + 1) - a i) (chord a y i) (d i) (d (i + 1)) (y i) (x - a i)
  let D : ℕ → ℝ → ℝ := fun i x => hermD (a (i + 1) - a i) (chord a y i) (d i) (d (i + 1)) (y i) (x - a i)
  have hVD : ∀ i x, HasDerivAt (V i) (D i x) x := by
    intro i x
    have h0 : HasDerivAt (fun x => x - a i) 1 x := (hasDerivAt_id x).sub_const _
    have e : V i = fun x => (((d (i+1) - chord a y i) / (a (i+1) - a i) - (chord a y i - d i) / (a (i+1) - a i))
        / (a (i+1) - a i)) * (x - a i) ^ 3 + (2 * ((chord a y i - d i) / (a (i+1) - a i))
        - (d (i+1) - chord a y i) / (a (i+1) - a i)) * (x - a i) ^ 2 + d i * (x - a i) + y i := by
      funext z
      simp only [V, hermV, hermC, List.foldl]
      ring
    rw [e]
    refine (((((h0.pow 3).const_mul _).add ((h0.pow 2).const_mul _)).add (h0.const_mul _)).add_const _).congr_deriv ?_
    simp only [D, hermD]
    push_cast
    ring
  have hDc : ∀ i, Continuous (D i) := by
    intro i; simp only [D, hermD]; fun_prop
  have hV : ∀ i x, k ≤ i → i + 1 < K → a i ≤ x → x ≤ a (i + 1) →
      un (ppval1 (Fl.fin x) X C 0) = V i x ∧ un (ppval1 (Fl.fin x) X C 1) = D i x := by
    intro i x h1 h2 hx hx'
    have := B.pchip_val hC hrow h1 h2 hx hx'
    rw [this.1, this.2]
    exact ⟨rfl, rfl⟩
  -- a piece to the left and a piece to the right of every point
  have hleft : ∀ x, a k < x → x ≤ a (K - 1) → ∃ i, k ≤ i ∧ i + 1 < K ∧ a i < x ∧ x ≤ a (i + 1) := by
    intro x h1 h2
    have ho := (B.outside_iff x).mpr ⟨h1.le, h2⟩
    obtain ⟨e1, e2, e3, e4, e5⟩ := pieceIndex_bracket B.hX B.mono ho
    refine ⟨_, e1, by omega, ?_, e4⟩
    rcases e5 with h | h
    · rw [h]; exact h1
    · exact h
  have hright : ∀ x, a k ≤ x → x < a (K - 1) → ∃ i, k ≤ i ∧ i + 1 < K ∧ a i ≤ x ∧ x < a (i + 1) := by
    intro x h1 h2
    have hex : ∃ n, x < a (k + n) ∧ k + n < K := ⟨K - 1 - k, by rw [show k + (K - 1 - k) = K - 1 by omega]; exact ⟨h2, by omega⟩⟩
    classical
    have hm := Nat.find_spec hex
    have hmin := fun m => Nat.find_min hex (m := m)
    set n := Nat.find hex
    have hn0 : n ≠ 0 := by
      intro h; rw [h, add_zero] at hm; linarith [hm.1]
    refine ⟨k + (n - 1), by omega, by omega, ?_, ?_⟩
    · by_contra hc
      exact hmin (n - 1) (by omega) ⟨not_le.mp hc, by omega⟩
    · rw [show k + (n - 1) + 1 = k + n by omega]; exact hm.1
  refine ⟨C, hC, fun x => un (ppval1 (Fl.fin x) X C 0), fun x => un (ppval1 (Fl.fin x) X C 1), ?_, ?_, ?_⟩
  · rintro x ⟨h1, h2⟩
    have hp : ∃ i, k ≤ i ∧ i + 1 < K ∧ a i ≤ x ∧ x ≤ a (i + 1) := by
      rcases h1.lt_or_eq with h | h
      · obtain ⟨i, e1, e2, e3, e4⟩ := hleft x h h2
        exact ⟨i, e1, e2, e3.le, e4⟩
      · exact ⟨k, le_refl _, by omega, h1, by rw [← h]; exact (B.inc k (le_refl _) (by omega)).le⟩
    obtain ⟨i, e1, e2, e3, e4⟩ := hp
    have := B.pchip_val hC hrow e1 e2 e3 e4
    beta_reduce
    rw [this.1, this.2]
    exact ⟨rfl, rfl⟩
  · rintro x ⟨h1, h2⟩
    obtain ⟨i, e1, e2, e3, e4⟩ := hleft x h1 h2.le
    obtain ⟨j, f1, f2, f3, f4⟩ := hright x h1.le h2
    have L : HasDerivWithinAt (fun x => un (ppval1 (Fl.fin x) X C 0)) (un (ppval1 (Fl.fin x) X C 1)) (Set.Iic x) x := by
      rw [(hV i x e1 e2 e3.le e4).2]
      have : HasDerivWithinAt (fun x => un (ppval1 (Fl.fin x) X C 0)) (D i x) (Set.Icc (a i) x) x :=
        (hVD i x).hasDerivWithinAt.congr (fun z hz => (hV i z e1 e2 hz.1 (le_trans hz.2 e4)).1)
          (hV i x e1 e2 e3.le e4).1
      exact this.mono_of_mem_nhdsWithin (Icc_mem_nhdsLE e3)
    have R : HasDerivWithinAt (fun x => un (ppval1 (Fl.fin x) X C 0)) (un (ppval1 (Fl.fin x) X C 1)) (Set.Ici x) x := by
      rw [(hV j x f1 f2 f3 f4.le).2]
      have : HasDerivWithinAt (fun x => un (ppval1 (Fl.fin x) X C 0)) (D j x) (Set.Icc x (a (j + 1))) x :=
        (hVD j x).hasDerivWithinAt.congr (fun z hz => (hV j z f1 f2 (le_trans f3 hz.1) hz.2).1)
          (hV j x f1 f2 f3 f4.le).1
      exact this.mono_of_mem_nhdsWithin (Icc_mem_nhdsGE f4)
    have := L.union R
    rw [Set.Iic_union_Ici] at this
    exact hasDerivWithinAt_univ.mp this
  · rintro x ⟨h1, h2⟩
    have L : ContinuousWithinAt (fun x => un (ppval1 (Fl.fin x) X C 1)) (Set.Icc (a k) x) x := by
      rcases h1.lt_or_eq with h | h
      · obtain ⟨i, e1, e2, e3, e4⟩ := hleft x h h2
        have : ContinuousWithinAt (fun x => un (ppval1 (Fl.fin x) X C 1)) (Set.Icc (a i) x) x :=
          (hDc i).continuousWithinAt.congr (fun z hz => (hV i z e1 e2 hz.1 (le_trans hz.2 e4)).2)
            (hV i x e1 e2 e3.le e4).2
        refine (this.mono_of_mem_nhdsWithin (Icc_mem_nhdsLE e3)).mono ?_
        exact fun z hz => hz.2
      · rw [← h]
        have : Set.Icc (a k) (a k) = {a k} := Set.Icc_self _
        rw [this]; exact continuousWithinAt_singleton
    have R : ContinuousWithinAt (fun x => un (ppval1 (Fl.fin x) X C 1)) (Set.Icc x (a (K - 1))) x := by
      rcases h2.lt_or_eq with h | h
      · obtain ⟨j, f1, f2, f3, f4⟩ := hright x h1 h
        have : ContinuousWithinAt (fun x => un (ppval1 (Fl.fin x) X C 1)) (Set.Icc x (a (j + 1))) x :=
          (hDc j).continuousWithinAt.congr (fun z hz => (hV j z f1 f2 (le_trans f3 hz.1) hz.2).2)
            (hV j x f1 f2 f3 f4.le).2
        refine (this.mono_of_mem_nhdsWithin (Icc_mem_nhdsGE f4)).mono ?_
        exact fun z hz => hz.1
      · rw [h]
        have : Set.Icc (a (K - 1)) (a (K - 1)) = {a (K - 1)} := Set.Icc_self _
        rw [this]; exact continuousWithinAt_singleton
    have := L.union R
    rwa [Set.Icc_union_Icc_eq_Icc h1 h2] at this

/-- A block of real data exists. -/
example : ∃ (X Y : Arr (Fl ℝ)) (a y : ℕ → ℝ), Block X Y 0 3 a y := by
  refine ⟨⟨3, fun i => Fl.fin (i : ℝ)⟩, ⟨3, fun i => Fl.fin ((i : ℝ) ^ 2)⟩, fun i => i, fun i => (i : ℝ) ^ 2, rfl, ?_, by omega,
    fun _ _ _ => rfl, fun _ _ _ => rfl, ?_⟩
  · apply validRange2_eq <;> simp
  · intro i _ _; push_cast; linarith

/-! ## C14, C15: the different ways of computing agree, in any arithmetic -/

section generic
variable {F : Type*} [FloatLike F]

/-- **C14** PCHIP: interpolating on the fly equals evaluating the precomputed table, bit for bit, in any
arithmetic with commutative addition. -/
theorem pchip_onthefly_eq_table (hadd : ∀ a b : F, a + b = b + a) {X Y : Arr F} (P : Plain X Y)
    (hs : X.size = Y.size) {C : PPC F} (hC : pchipCoeffs1 X Y = some C) (x : F) (d : ℕ) :
    pchipInterp1 x X Y d = some (ppval1 x X C d) := by
  have hvr : validRange2 X C.lastCol = validRange2 X Y :=
    validRange2_congr rfl (fun _ _ => rfl) (fun i _ => by rw [(pchipAux_spec hC).2])
  unfold pchipInterp1 ppinterp1 ppval1
  simp only [hvr]
  cases ho : outside X (validRange2 X Y).1 (validRange2 X Y).2 x with
  | true => simp
  | false =>
    obtain ⟨h1, h2⟩ := pieceIndex_range' X _ _ x ho
    rw [pchipCoeffsI_eq hadd P hC hs h1 (by omega)]
    simp

/-- **C14** Linear: whenever the on-the-fly interpolation returns (does not raise ZeroDivisionError), it equals
the evaluation of the precomputed table, in any arithmetic whatever. -/
theorem linear_onthefly_eq_table {X Y : Arr F} (hs : X.size = Y.size) (x : F) (d : ℕ) {v : F}
    (hv : linearInterp1 x X Y d = some v) : v = ppval1 x X (linearCoeffs1 X Y) d := by
  unfold linearInterp1 ppinterp1 at hv
  unfold ppval1
  simp only [linearCoeffs1_lastCol] at hv ⊢
  have hK := validRange2_K_le X Y
  rcases Bool.eq_false_or_eq_true (outside X (validRange2 X Y).1 (validRange2 X Y).2 x) with ho | ho
  · rw [if_pos ho] at hv ⊢
    exact (Option.some.inj hv).symm
  · obtain ⟨h1, h2⟩ := pieceIndex_range' X _ _ x ho
    rw [if_neg (by rw [ho]; simp)] at hv ⊢
    generalize pieceIndex X (validRange2 X Y).1 (validRange2 X Y).2 x = i at *
    unfold linearCoeffsI sdiv at hv
    split_ifs at hv with hz
    · simp at hv
    · simp only [Option.bind_eq_bind, Option.bind_some, Option.pure_def, Option.some.injEq] at hv
      rw [← hv]
      show _ = pval _ [(diffSame Y).get i / (diffSame X).get i, Y.get i] d
      rw [diffSame_get (by omega), diffSame_get (by omega)]

/-- the hypotheses hold for exact numbers on the example data. -/
example : (∀ a b : Fl ℚ, a + b = b + a) ∧ Plain exX exY ∧ (pchipCoeffs1 exX exY).isSome = true ∧
    linearInterp1 (Fl.fin 2) exX exY 0 = some (Fl.fin 6) := by
  refine ⟨?_, ⟨?_, ?_, ?_⟩, by decide +kernel, by decide +kernel⟩
  · intro a b
    show Fl.add a b = Fl.add b a
    cases a <;> cases b <;> simp [Fl.add, add_comm]
  all_goals
    intro i hi
    have : i = 0 ∨ i = 1 ∨ i = 2 ∨ i = 3 ∨ i = 4 ∨ i = 5 := by
      have : i < 6 := hi
      omega
    rcases this with rfl | rfl | rfl | rfl | rfl | rfl <;> decide +kernel

/-- **C15** `ppval_1_two` is the pair of single evaluations when the two tables have the same valid range. -/
theorem ppval1Two_eq {X : Arr F} {C D : PPC F} (h : validRange2 X C.lastCol = validRange2 X D.lastCol) (x : F) (d : ℕ) :
    ppval1Two x X C D d = (ppval1 x X C d, ppval1 x X D d) := by
  unfold ppval1Two ppval1
  simp only [h]
  split_ifs <;> rfl

/-- **C15** `ppval_1_two`'s second output differs from a single evaluation only through the valid range: when `D`'s valid
range is different, the range of the *first* variable is used for both. -/
theorem ppval1Two_fst (X : Arr F) (C D : PPC F) (x : F) (d : ℕ) : (ppval1Two x X C D d).1 = ppval1 x X C d := by
  unfold ppval1Two ppval1
  simp only
  split_ifs <;> rfl

/-- **C15** `ppinterp_1_two` is the pair of single interpolations when the two variables have the same valid range. -/
theorem ppinterp1Two_eq {f : Arr F → Arr F → ℕ → Option (List F)} {X Y Z : Arr F}
    (h : validRange2 X Y = validRange2 X Z) (x : F) (d : ℕ) (v w : F) :
    ppinterp1Two f x X Y Z d = some (v, w) ↔ ppinterp1 f x X Y d = some v ∧ ppinterp1 f x X Z d = some w := by
  unfold ppinterp1Two ppinterp1
  simp only [h]
  split_ifs with ho
  · constructor
    · intro h; cases h; exact ⟨rfl, rfl⟩
    · rintro ⟨h1, h2⟩; cases h1; cases h2; rfl
  · cases h1 : f X Y (pieceIndex X (validRange2 X Z).1 (validRange2 X Z).2 x) <;>
    cases h2 : f X Z (pieceIndex X (validRange2 X Z).1 (validRange2 X Z).2 x) <;> simp

/-- **C15** Trimming to the valid range and using `ppval_1_nonan` equals `ppval_1`, in any arithmetic. -/
theorem ppval1Nonan_trim {X : Arr F} {C : PPC F} (x : F) (d : ℕ)
    (h2 : (validRange2 X C.lastCol).1 + 2 ≤ (validRange2 X C.lastCol).2) :
    ppval1Nonan x (X.slice (validRange2 X C.lastCol).1 (validRange2 X C.lastCol).2)
      (C.slice (validRange2 X C.lastCol).1 (validRange2 X C.lastCol).2) d = ppval1 x X C d := by
  unfold ppval1 ppval1Nonan
  simp only
  generalize (validRange2 X C.lastCol).1 = k at *
  generalize (validRange2 X C.lastCol).2 = K at *
  have e : (isNaN x || lt x ((X.slice k K).get 0) || lt ((X.slice k K).get ((X.slice k K).size - 1)) x)
      = outside X k K x := by
    unfold outside
    rw [decide_eq_false (by omega), Bool.false_or]
    show (isNaN x || lt x (X.get (k + 0)) || lt (X.get (k + (K - k - 1))) x) = _
    rw [show k + 0 = k by omega, show k + (K - k - 1) = K - 1 by omega]
  rw [e]
  split_ifs with ho
  · rfl
  · have hi : k + max 0 (searchsorted (X.slice k K) x - 1) = pieceIndex X k K x := by
      unfold pieceIndex
      omega
    show pval (x - X.get (k + max 0 (searchsorted (X.slice k K) x - 1))) (C.row (k + max 0 (searchsorted (X.slice k K) x - 1))) d = _
    rw [hi]

/-- **C15** `ppval_1_nonan_two` is the pair of `ppval_1_nonan`, always. -/
theorem ppval1NonanTwo_eq (X : Arr F) (C D : PPC F) (x : F) (d : ℕ) :
    ppval1NonanTwo x X C D d = (ppval1Nonan x X C d, ppval1Nonan x X D d) := by
  unfold ppval1NonanTwo ppval1Nonan
  split_ifs <;> rfl

/-- **C15** `pchip_coeffs_1_nonan` equals `pchip_coeffs_1` when there are no NaN's (and the first site is finite). -/
theorem pchipNonan_eq {X Y : Arr F} (hne : 0 < X.size)
    (h0 : isFinite (X.get 0) = true ∧ isFinite (Y.get 0) = true)
    (h : ∀ i, 0 < i → i < X.size → isNaN (X.get i) = false ∧ isNaN (Y.get i) = false) :
    pchipCoeffs1Nonan X Y = pchipCoeffs1 X Y := by
  unfold pchipCoeffs1Nonan pchipCoeffs1
  rw [validRange2_eq hne hne (le_refl _) (fun i hi => by omega) h0 h (fun hi => by omega)]

example : (validRange2 exX (linearCoeffs1 exX exY).lastCol).1 + 2 ≤ (validRange2 exX (linearCoeffs1 exX exY).lastCol).2 ∧
    ppval1Nonan (Fl.fin 2) (exX.slice 1 4) ((linearCoeffs1 exX exY).slice 1 4) 0 = Fl.fin 6 := by decide +kernel

end generic

/-! ## C16 -/

/-- **C16** `pval(x, C, d)` is the `d`-th derivative of the polynomial with coefficients `C`, highest power first. -/
theorem pval_derivative {α : Type*} [Field α] [LinearOrder α] [IsStrictOrderedRing α] (x : α) (C : List α) (d : ℕ) :
    pval (Fl.fin x) (C.map Fl.fin) d =
      Fl.fin ((Polynomial.derivative^[d] (∑ o ∈ Finset.range C.length,
        Polynomial.C (C.getD o 0) * Polynomial.X ^ (C.length - 1 - o))).eval x) := pval_fin x C d

/-- **C16** and it is `0` when `d` is at least the number of coefficients. -/
theorem pval_high {F : Type*} [FloatLike F] (x : F) (C : List F) (d : ℕ) (hd : 0 < d) (h : C.length ≤ d) :
    pval x C d = lit 0 := by
  unfold pval
  rw [if_neg (by omega), Nat.sub_eq_zero_of_le h]
  rfl

example : pval (Fl.fin (2:ℚ)) [Fl.fin 1, Fl.fin 5, Fl.fin 7, Fl.fin 9] 2 = Fl.fin (6 * 2 + 2 * 5) := by decide +kernel

/-! ## C17 -/

section pad
variable {F : Type*} [FloatLike F]

/-- **C17** NaN sites before the data, and a NaN site followed by anything after it, do not change linear
interpolation, in any arithmetic (if the data has no valid site at all, the padded data must not have one). -/
theorem linear_padding (hfn : ∀ x : F, isFinite x = true → isNaN x = false) {X Y X' Y' : Arr F} {m : ℕ}
    (P : Padded X Y X' Y' m)
    (hnone : (∀ i, i < X.size → isFinite (X.get i) = false ∨ isFinite (Y.get i) = false) →
      ∀ i, i < X'.size → isFinite (X'.get i) = false ∨ isFinite (Y'.get i) = false) (x : F) (d : ℕ) :
    linearInterp1 x X' Y' d = linearInterp1 x X Y d := by
  have hK := validRange2_K_le X Y
  exact P.ppinterp1 hfn hnone (fun i _ _ => P.linearCoeffsI (by omega)) x d

/-- **C17** The same for PCHIP. -/
theorem pchip_padding (hfn : ∀ x : F, isFinite x = true → isNaN x = false)
    (hn : ∀ a b : F, isNaN a = true ∨ isNaN b = true → isNaN (a + b) = true) {X Y X' Y' : Arr F} {m : ℕ}
    (P : Padded X Y X' Y' m)
    (hnone : (∀ i, i < X.size → isFinite (X.get i) = false ∨ isFinite (Y.get i) = false) →
      ∀ i, i < X'.size → isFinite (X'.get i) = false ∨ isFinite (Y'.get i) = false) (x : F) (d : ℕ) :
    pchipInterp1 x X' Y' d = pchipInterp1 x X Y d := by
  have hK := validRange2_K_le X Y
  exact P.ppinterp1 hfn hnone (fun i _ _ => P.pchipCoeffsI hn (by omega)) x d

/-- `exX`, `exY` are a padding of the block `[0, 1, 3]`, `[5, 6, 6]`. -/
example : Padded (Arr.ofList [Fl.fin (0:ℚ), Fl.fin 1, Fl.fin 3]) (Arr.ofList [Fl.fin 5, Fl.fin 6, Fl.fin 6]) exX exY 1 := by
  refine ⟨rfl, rfl, by decide, ?_, ?_, ?_, ?_⟩
  · intro i hi
    have : i < 3 := hi
    have : i = 0 ∨ i = 1 ∨ i = 2 := by omega
    rcases this with rfl | rfl | rfl <;> rfl
  · intro i hi
    have : i < 3 := hi
    have : i = 0 ∨ i = 1 ∨ i = 2 := by omega
    rcases this with rfl | rfl | rfl <;> rfl
  · intro j hj
    have : j = 0 := by omega
    subst this; exact Or.inl rfl
  · intro _; exact Or.inl rfl

end pad

end Interp
