import Verif.Lemmas.FzeroRound
import Mathlib.Tactic.IntervalCases
import Verif.Lemmas.PchipRound

/-! # Interpolation in rounded (floating point) arithmetic -/

set_option linter.unusedSectionVars false

namespace Interp
open FloatLike
variable {α : Type*} [Field α] [LinearOrder α] [IsStrictOrderedRing α]
variable {rnd : α → α}

/-- The valid block `k:K` of data held in rounded arithmetic (the tests that find it are comparisons and are
not affected by rounding). -/
def BlockR (X Y : Arr (Rfl rnd)) (k K : ℕ) (a y : ℕ → α) : Prop := Block (α := α) X Y k K a y

/-- Value of the straight line through `(a i, y i)` and `(a (i+1), y (i+1))`. -/
def lineThrough (a y : ℕ → α) (i : ℕ) (x : α) : α := y i + (x - a i) * ((y (i + 1) - y i) / (a (i + 1) - a i))

theorem bsearch_rnd (f : ℕ → Fl α) (x : Fl α) :
    ∀ n lo hi, bsearch (F := Rfl rnd) f x n lo hi = bsearch (F := Fl α) f x n lo hi := by
  intro n
  induction n with
  | zero => intro lo hi; rfl
  | succ n ih =>
    intro lo hi
    simp only [bsearch, ih]
    rfl

/-- The piece is found with comparisons only: rounding does not change it. -/
theorem pieceIndex_rnd (X : Arr (Rfl rnd)) (k K : ℕ) (x : α) :
    pieceIndex (F := Rfl rnd) X k K (Rfl.fin x) = pieceIndex (F := Fl α) X k K (Fl.fin x) := by
  unfold pieceIndex searchsorted
  congr 3
  exact bsearch_rnd _ _ _ _ _

theorem pval_lin_rnd (R : StdRound rnd) (u c b : α) :
    pval (Rfl.fin u : Rfl rnd) [Rfl.fin c, Rfl.fin b] 0 = Rfl.fin (rnd (rnd (rnd c * u) + b)) := by
  simp [pval, R.zero]

/-- The linear interpolant computed on piece `j`. -/
theorem linear_piece_rnd (R : StdRound rnd) {X Y : Arr (Rfl rnd)} {k K : ℕ} {a y : ℕ → α}
    (B : BlockR X Y k K a y) {x : α} (hx : a k ≤ x) (hx' : x ≤ a (K - 1)) {j : ℕ}
    (hj : pieceIndex (F := Rfl rnd) X k K (Rfl.fin x) = j) (h1 : k ≤ j) (h2 : j + 1 < K) :
    let v := rnd (rnd (rnd (rnd (rnd (y (j + 1) - y j) / rnd (a (j + 1) - a j))) * rnd (x - a j)) + y j)
    ppval1 (Rfl.fin x) X (linearCoeffs1 X Y) 0 = Rfl.fin v ∧
    linearInterp1 (Rfl.fin x) X Y 0 = some (Rfl.fin v) := by
  intro v
  have hsz : j + 1 < X.size := lt_of_lt_of_le h2 (Block.K_le B)
  have hszY : j + 1 < Y.size := by rw [← Block.size B]; exact hsz
  have ho : outside (F := Rfl rnd) X k K (Rfl.fin x) = false := (Block.outside_iff B x).mpr ⟨hx, hx'⟩
  have hpos : 0 < a (j + 1) - a j := sub_pos.mpr (Block.inc B j h1 h2)
  have hne : rnd (a (j + 1) - a j) ≠ 0 := ((R.pos_iff).mpr hpos).ne'
  have hX0 : X.get j = Rfl.fin (a j) := Block.hX B j h1 (by omega)
  have hX1 : X.get (j + 1) = Rfl.fin (a (j + 1)) := Block.hX B (j + 1) (by omega) h2
  have hY0 : Y.get j = Rfl.fin (y j) := Block.hY B j h1 (by omega)
  have hY1 : Y.get (j + 1) = Rfl.fin (y (j + 1)) := Block.hY B (j + 1) (by omega) h2
  have hvr : validRange2 (F := Rfl rnd) X (linearCoeffs1 X Y).lastCol = (k, K) := by
    rw [show (k, K) = validRange2 (F := Rfl rnd) X Y from (Block.vr B).symm]
    exact validRange2_congr rfl (fun _ _ => rfl) (fun i _ => rfl)
  constructor
  · have hrow : (linearCoeffs1 X Y).row j
        = [Rfl.fin (rnd (rnd (y (j + 1) - y j) / rnd (a (j + 1) - a j))), Rfl.fin (y j)] := by
      show [(diffSame Y).get j / (diffSame X).get j, Y.get j] = _
      simp only [diffSame]
      rw [if_neg (by omega), if_neg (by omega), hX0, hX1, hY0, hY1, Rfl.fin_sub, Rfl.fin_sub, Rfl.fin_div _ _ hne]
    unfold ppval1
    simp only [hvr]
    rw [ho, hj, hrow, hX0, Rfl.fin_sub, pval_lin_rnd R]
    rfl
  · unfold linearInterp1 ppinterp1
    have hvr' : validRange2 (F := Rfl rnd) X Y = (k, K) := Block.vr B
    simp only [hvr']
    rw [ho, hj]
    have hC : linearCoeffsI X Y j
        = some [Rfl.fin (rnd (rnd (y (j + 1) - y j) / rnd (a (j + 1) - a j))), Rfl.fin (y j)] := by
      unfold linearCoeffsI
      rw [hX0, hX1, hY0, hY1, Rfl.fin_sub, Rfl.fin_sub, sdiv_fin_rnd R hne]
      rfl
    simp only [hC]
    rw [hX0, Rfl.fin_sub, pval_lin_rnd R]
    rfl

/-- Error of the formula evaluated on a piece. -/
theorem line_err (R : StdRound rnd) {a0 a1 y0 y1 x : α} (h : a0 < a1) (hx : a0 ≤ x) (hx' : x ≤ a1) :
    |rnd (rnd (rnd (rnd (rnd (y1 - y0) / rnd (a1 - a0))) * rnd (x - a0)) + y0)
      - (y0 + (x - a0) * ((y1 - y0) / (a1 - a0)))| ≤ (15 * |y1 - y0| + max |y0| |y1|) / 2 ^ 53 := by
  have hd : 0 < a1 - a0 := sub_pos.mpr h
  have e1 : RelErr 2 (y1 - y0) (rnd (y1 - y0)) := (RelErr.refl _).round R (by norm_num)
  have e2 : RelErr 2 (a1 - a0) (rnd (a1 - a0)) := (RelErr.refl _).round R (by norm_num)
  have e3 : RelErr 2 (x - a0) (rnd (x - a0)) := (RelErr.refl _).round R (by norm_num)
  have e4 := ((e1.div e2 (by norm_num) (by norm_num) hd.ne').round R (by norm_num)).round R (by norm_num)
  have e5 := (e4.mul e3 (by norm_num) (by norm_num)).round R (by norm_num)
  norm_num at e5
  generalize rnd (rnd (rnd (rnd (y1 - y0) / rnd (a1 - a0))) * rnd (x - a0)) = P at e5
  have hP0 : |(y1 - y0) / (a1 - a0) * (x - a0)| ≤ |y1 - y0| := by
    rw [abs_mul, abs_div, abs_of_pos hd, abs_of_nonneg (sub_nonneg.mpr hx), div_mul_eq_mul_div, div_le_iff₀ hd]
    exact mul_le_mul_of_nonneg_left (by linarith) (abs_nonneg _)
  have hc : |(y1 - y0) / (a1 - a0) * (x - a0) + y0| ≤ max |y0| |y1| := by
    have : (y1 - y0) / (a1 - a0) * (x - a0) + y0
        = (1 - (x - a0) / (a1 - a0)) * y0 + (x - a0) / (a1 - a0) * y1 := by ring
    rw [this]
    set t := (x - a0) / (a1 - a0)
    have t0 : 0 ≤ t := div_nonneg (sub_nonneg.mpr hx) hd.le
    have t1 : t ≤ 1 := (div_le_one hd).mpr (by linarith)
    calc |(1 - t) * y0 + t * y1| ≤ |(1 - t) * y0| + |t * y1| := abs_add_le _ _
      _ = (1 - t) * |y0| + t * |y1| := by
          rw [abs_mul, abs_mul, abs_of_nonneg t0, abs_of_nonneg (sub_nonneg.mpr t1)]
      _ ≤ (1 - t) * max |y0| |y1| + t * max |y0| |y1| :=
          add_le_add (mul_le_mul_of_nonneg_left (le_max_left _ _) (sub_nonneg.mpr t1))
            (mul_le_mul_of_nonneg_left (le_max_right _ _) t0)
      _ = max |y0| |y1| := by ring
  rw [show y0 + (x - a0) * ((y1 - y0) / (a1 - a0)) = (y1 - y0) / (a1 - a0) * (x - a0) + y0 by ring]
  generalize (y1 - y0) / (a1 - a0) * (x - a0) = Q at e5 hP0 hc
  unfold RelErr at e5
  have e6 := R.err (P + y0)
  have e7 : |P + y0| ≤ |Q + y0| + |P - Q| := by
    have := abs_add_le (Q + y0) (P - Q)
    rwa [show Q + y0 + (P - Q) = P + y0 by ring] at this
  have e8 : |rnd (P + y0) - (Q + y0)| ≤ |rnd (P + y0) - (P + y0)| + |P - Q| := by
    have := abs_add_le (rnd (P + y0) - (P + y0)) (P - Q)
    rwa [show rnd (P + y0) - (P + y0) + (P - Q) = rnd (P + y0) - (Q + y0) by ring] at this
  have e9 : (14 : α) * (|Q| / 2 ^ 53) ≤ 14 * (|y1 - y0| / 2 ^ 53) := by
    gcongr
  push_cast at e5
  have hn := abs_nonneg (y1 - y0)
  generalize max |y0| |y1| = M at *
  generalize |rnd (P + y0) - (Q + y0)| = z1 at *
  generalize |rnd (P + y0) - (P + y0)| = z2 at *
  generalize |P + y0| = z3 at *
  generalize |Q + y0| = z4 at *
  generalize |P - Q| = z5 at *
  norm_num at e5 e6 e9 ⊢
  linarith

/-- **C121** Linear interpolation of finite, increasing data in floating point: inside the data the value is a
number within `(15 |Δy| + max |y|) 2^-53` of the straight line through two neighbouring data points around `x`
(`Δy` their difference), whether computed on the fly or from a table, the same number both ways; outside, NaN. -/
theorem linear_rounded (R : StdRound rnd) {X Y : Arr (Rfl rnd)} {k K : ℕ} {a y : ℕ → α}
    (B : BlockR X Y k K a y) (x : α) :
    (a k ≤ x ∧ x ≤ a (K - 1) → ∃ i v, k ≤ i ∧ i + 1 < K ∧ a i ≤ x ∧ x ≤ a (i + 1) ∧
      ppval1 (Rfl.fin x) X (linearCoeffs1 X Y) 0 = Rfl.fin v ∧
      linearInterp1 (Rfl.fin x) X Y 0 = some (Rfl.fin v) ∧
      |v - lineThrough a y i x| ≤ (15 * |y (i + 1) - y i| + max |y i| |y (i + 1)|) / 2 ^ 53) ∧
    (¬ (a k ≤ x ∧ x ≤ a (K - 1)) →
      ppval1 (Rfl.fin x) X (linearCoeffs1 X Y) 0 = (Rfl.qnan : Rfl rnd) ∧
      linearInterp1 (Rfl.fin x) X Y 0 = some (Rfl.qnan : Rfl rnd)) := by
  constructor
  · rintro ⟨hx, hx'⟩
    obtain ⟨h1, h2, h3, h4, _⟩ := pieceIndex_bracket (Block.hX B) (Block.mono B) ((Block.outside_iff B x).mpr ⟨hx, hx'⟩)
    rw [← pieceIndex_rnd] at h1 h2 h3 h4
    obtain ⟨v1, v2⟩ := linear_piece_rnd R B hx hx' rfl h1 (by omega)
    exact ⟨_, _, h1, by omega, h3, h4, v1, v2, line_err R (Block.inc B _ h1 (by omega)) h3 h4⟩
  · intro h
    have ho : outside (F := Rfl rnd) X k K (Rfl.fin x) = true := by
      rw [← Bool.not_eq_false]
      exact fun hf => h ((Block.outside_iff B x).mp hf)
    have hvr' : validRange2 (F := Rfl rnd) X Y = (k, K) := Block.vr B
    have hvr : validRange2 (F := Rfl rnd) X (linearCoeffs1 X Y).lastCol = (k, K) := by
      rw [← hvr']
      exact validRange2_congr rfl (fun _ _ => rfl) (fun i _ => rfl)
    constructor
    · unfold ppval1; simp only [hvr]; rw [ho]; rfl
    · unfold linearInterp1 ppinterp1; simp only [hvr']; rw [ho]; rfl

/-- **C122** At the first data site the datum is returned exactly. -/
theorem linear_rounded_first_partial (R : StdRound rnd) {X Y : Arr (Rfl rnd)} {k K : ℕ} {a y : ℕ → α}
    (B : BlockR X Y k K a y) (hy : rnd (y k) = y k) :
    ppval1 (Rfl.fin (a k)) X (linearCoeffs1 X Y) 0 = Rfl.fin (y k) ∧
    linearInterp1 (Rfl.fin (a k)) X Y 0 = some (Rfl.fin (y k)) := by
  have h2 := Block.two B
  have hx' : a k ≤ a (K - 1) := Block.mono B k (K - 1) (le_refl _) (by omega) (by omega)
  have hp : pieceIndex (F := Rfl rnd) X k K (Rfl.fin (a k)) = k := by
    rw [pieceIndex_rnd]
    rcases Block.piece_eq B (x := a k) (le_refl k) h2 (le_refl _) (Block.inc B k (le_refl _) (by omega)).le with h | h
    · exact h
    · omega
  obtain ⟨v1, v2⟩ := linear_piece_rnd R B (le_refl _) hx' hp (le_refl _) (by omega)
  rw [sub_self, R.zero, mul_zero, R.zero, zero_add, hy] at v1 v2
  exact ⟨v1, v2⟩

/-- **C122** At every data site the value is the datum up to rounding. -/
theorem linear_rounded_site_partial (R : StdRound rnd) {X Y : Arr (Rfl rnd)} {k K : ℕ} {a y : ℕ → α}
    (B : BlockR X Y k K a y) {j : ℕ} (hj : k < j) (hjK : j < K) :
    ∃ v, ppval1 (Rfl.fin (a j)) X (linearCoeffs1 X Y) 0 = Rfl.fin v ∧
      linearInterp1 (Rfl.fin (a j)) X Y 0 = some (Rfl.fin v) ∧
      |v - y j| ≤ (15 * |y j - y (j - 1)| + max |y (j - 1)| |y j|) / 2 ^ 53 := by
  obtain ⟨i, rfl⟩ : ∃ i, j = i + 1 := ⟨j - 1, by omega⟩
  have hx : a k ≤ a (i + 1) := Block.mono B k (i + 1) (le_refl _) (by omega) (by omega)
  have hx' : a (i + 1) ≤ a (K - 1) := Block.mono B (i + 1) (K - 1) (by omega) (by omega) (by omega)
  have hinc := Block.inc B i (by omega) hjK
  have hp : pieceIndex (F := Rfl rnd) X k K (Rfl.fin (a (i + 1))) = i := by
    rw [pieceIndex_rnd]
    rcases Block.piece_eq B (x := a (i + 1)) (by omega : k ≤ i) (by omega) hinc.le (le_refl _) with h | h
    · exact h
    · exact absurd h.1 hinc.ne'
  obtain ⟨v1, v2⟩ := linear_piece_rnd R B hx hx' hp (by omega) hjK
  refine ⟨_, v1, v2, ?_⟩
  have := line_err R (y0 := y i) (y1 := y (i + 1)) hinc hinc.le (le_refl _)
  rwa [mul_div_cancel₀ _ (sub_pos.mpr hinc).ne', show y i + (y (i + 1) - y i) = y (i + 1) by ring] at this

/-- **C122 is violated** in double precision: data `(0, 0), (25, 7)`, all exactly representable, interpolated
at the site `25` give `7 + 2^-50`: not the datum, and larger than every datum. -/
theorem linear_site_inexact :
    let X : Arr (Rfl Rounding53.rnd53) := ⟨2, fun i => if i = 0 then Rfl.fin 0 else Rfl.fin 25⟩
    let Y : Arr (Rfl Rounding53.rnd53) := ⟨2, fun i => if i = 0 then Rfl.fin 0 else Rfl.fin 7⟩
    BlockR X Y 0 2 (fun i => if i = 0 then 0 else 25) (fun i => if i = 0 then 0 else 7) ∧
    linearInterp1 (Rfl.fin 25) X Y 0 = some (Rfl.fin (7 + 1 / 2 ^ 50)) := by
  refine ⟨⟨rfl, by decide +kernel, by norm_num, ?_, ?_, ?_⟩, by decide +kernel⟩
  · intro i _ h; interval_cases i <;> rfl
  · intro i _ h; interval_cases i <;> rfl
  · intro i _ h
    obtain rfl : i = 0 := by omega
    simp

/-- The same data in exact arithmetic. -/
def exactArr (X : Arr (Rfl rnd)) : Arr (Fl α) := X

theorem chordR (R : StdRound rnd) {X Y : Arr (Rfl rnd)} {k K : ℕ} {a y : ℕ → α} (B : BlockR X Y k K a y) {i : ℕ}
    (h1 : k ≤ i) (h2 : i + 1 < K) :
    (diffSame X).get i = Rfl.fin (rnd (a (i + 1) - a i)) ∧
    (diffSame Y).get i / (diffSame X).get i = Rfl.fin (rnd (rnd (y (i + 1) - y i) / rnd (a (i + 1) - a i))) ∧
    RelErr 2 (a (i + 1) - a i) (rnd (a (i + 1) - a i)) ∧
    RelErr 7 (chord a y i) (rnd (rnd (y (i + 1) - y i) / rnd (a (i + 1) - a i))) := by
  have hsz : i + 1 < X.size := lt_of_lt_of_le h2 (Block.K_le B)
  have hszY : i + 1 < Y.size := by rw [← Block.size B]; exact hsz
  have hp := Block.hpos B h1 h2
  have hX0 : X.get i = Rfl.fin (a i) := Block.hX B i h1 (by omega)
  have hX1 : X.get (i + 1) = Rfl.fin (a (i + 1)) := Block.hX B (i + 1) (by omega) h2
  have hY0 : Y.get i = Rfl.fin (y i) := Block.hY B i h1 (by omega)
  have hY1 : Y.get (i + 1) = Rfl.fin (y (i + 1)) := Block.hY B (i + 1) (by omega) h2
  have e : (diffSame X).get i = Rfl.fin (rnd (a (i + 1) - a i)) := by
    rw [diffSame_get (by omega), hX0, hX1, Rfl.fin_sub]
  refine ⟨e, ?_, RelErr.rlit R _, ?_⟩
  · rw [e, diffSame_get (by omega), hY0, hY1, Rfl.fin_sub, Rfl.fin_div _ _ ((R.pos_iff).mpr hp).ne']
  · exact ((RelErr.rlit R (y (i + 1) - y i)).div (RelErr.rlit R (a (i + 1) - a i)) (by norm_num) (by norm_num) hp.ne').round
      R (by norm_num)

/-- The slopes computed by PCHIP in rounded arithmetic. -/
theorem slopeAt_rnd (R : StdRound rnd) {X Y : Arr (Rfl rnd)} {k K : ℕ} {a y : ℕ → α} (B : BlockR X Y k K a y)
    (h3 : 2 < K - k) {i : ℕ} (h1 : k ≤ i) (h2 : i < K) :
    ∃ d, slopeAt (diffSame X).get (fun j => (diffSame Y).get j / (diffSame X).get j) k K i = some (Rfl.fin d) ∧
      ∀ D, (∀ j, k ≤ j → j + 1 < K → (j = i ∨ j + 1 = i ∨ (i = k ∧ j = k + 1) ∨ (i + 1 = K ∧ j + 3 = K)) →
        |chord a y j| ≤ D) → ErrB 3 107 D (slopeSpec a y k K i) d := by
  have hK : K ≠ k + 2 := by omega
  unfold slopeAt slopeSpec
  simp only
  rw [if_neg hK]
  have hpos := fun j h h' => Block.hpos B (i := j) h h'
  by_cases c1 : i = k
  · obtain ⟨a0, b0, r0, s0⟩ := chordR R B (le_refl k) (by omega)
    obtain ⟨a1, b1, r1, s1⟩ := chordR R B (by omega : k ≤ k + 1) (by omega)
    rw [if_pos c1, if_pos c1, b0, b1, a0, a1]
    obtain ⟨d, hd, _⟩ := endSlope_rnd R (hpos k (le_refl k) (by omega)) (hpos (k + 1) (by omega) (by omega)) r0 r1 s0 s1
      (le_max_left _ _) (le_max_right _ _)
    refine ⟨d, hd, fun D hD => ?_⟩
    obtain ⟨d', hd', e⟩ := endSlope_rnd R (hpos k (le_refl k) (by omega)) (hpos (k + 1) (by omega) (by omega)) r0 r1 s0 s1
      (hD k (le_refl _) (by omega) (by omega)) (hD (k + 1) (by omega) (by omega) (by omega))
    rw [hd] at hd'
    rw [show d = d' from Rfl.fin_inj.mp (Option.some.inj hd')]
    exact e
  rw [if_neg c1, if_neg c1]
  by_cases c2 : i = K - 1
  · obtain ⟨a0, b0, r0, s0⟩ := chordR R B (by omega : k ≤ K - 2) (by omega)
    obtain ⟨a1, b1, r1, s1⟩ := chordR R B (by omega : k ≤ K - 3) (by omega)
    rw [if_pos c2, if_pos c2, b0, b1, a0, a1]
    obtain ⟨d, hd, _⟩ := endSlope_rnd R (hpos (K - 2) (by omega) (by omega)) (hpos (K - 3) (by omega) (by omega)) r0 r1 s0 s1
      (le_max_left _ _) (le_max_right _ _)
    refine ⟨d, hd, fun D hD => ?_⟩
    obtain ⟨d', hd', e⟩ := endSlope_rnd R (hpos (K - 2) (by omega) (by omega)) (hpos (K - 3) (by omega) (by omega)) r0 r1 s0 s1
      (hD (K - 2) (by omega) (by omega) (by omega)) (hD (K - 3) (by omega) (by omega) (by omega))
    rw [hd] at hd'
    rw [show d = d' from Rfl.fin_inj.mp (Option.some.inj hd')]
    exact e
  obtain ⟨a0, b0, r0, s0⟩ := chordR R B (by omega : k ≤ i - 1) (by omega)
  obtain ⟨a1, b1, r1, s1⟩ := chordR R B h1 (by omega)
  rw [if_neg c2, if_neg c2, b0, b1, a0, a1]
  obtain ⟨d, hd, e⟩ := midSlope_rnd R (hpos (i - 1) (by omega) (by omega)) (hpos i h1 (by omega)) r0 r1 s0 s1
  refine ⟨d, hd, fun D hD => ?_⟩
  have hc := hD i h1 (by omega) (by omega)
  have hb := (fbSlope_ok (δ0 := chord a y (i - 1)) (δ1 := chord a y i) (hpos (i - 1) (by omega) (by omega))
    (hpos i h1 (by omega))).2.abs_le
  refine (ErrB.ofRel (c := 3) e ?_).weaken ((abs_nonneg _).trans hc) (le_refl _) (by norm_num)
  push_cast; linarith

/-- The coefficients computed by PCHIP in rounded arithmetic exist, and the value of every piece is close to that of
the exact cubic. -/
theorem pchipRow_rnd (R : StdRound rnd) {X Y : Arr (Rfl rnd)} {k K : ℕ} {a y : ℕ → α} (B : BlockR X Y k K a y) :
    ∃ C : PPC (Rfl rnd), pchipCoeffs1 X Y = some C ∧ ∀ i, k ≤ i → i + 1 < K → ∀ u u', |u| ≤ a (i + 1) - a i →
      RelErr 2 u u' → ∃ v, pval (Rfl.fin u' : Rfl rnd) (C.row i) 0 = Rfl.fin v ∧
        ∀ D, (∀ j, k ≤ j → j + 1 < K → i ≤ j + 1 → j ≤ i + 1 → |chord a y j| ≤ D) →
          |v - hermV (a (i + 1) - a i) (chord a y i) (slopeSpec a y k K i) (slopeSpec a y k K (i + 1)) (y i) u|
            ≤ (1200 * ((a (i + 1) - a i) * D) + |hermV (a (i + 1) - a i) (chord a y i) (slopeSpec a y k K i)
                (slopeSpec a y k K (i + 1)) (y i) u|) / 2 ^ 53 := by
  have hvr : validRange2 (F := Rfl rnd) X Y = (k, K) := Block.vr B
  have htwo := Block.two B
  unfold pchipCoeffs1
  rw [hvr]
  by_cases h3 : 2 < K - k
  · choose! d hd hD using fun i (h : k ≤ i ∧ i < K) => slopeAt_rnd R B h3 h.1 h.2
    have hrow : ∀ i, k ≤ i → i + 1 < K → ∃ r, pchipRow X Y k K i = some r ∧ ∀ u u', |u| ≤ a (i + 1) - a i →
        RelErr 2 u u' → ∃ v, pval (Rfl.fin u' : Rfl rnd) r 0 = Rfl.fin v ∧
        ∀ D, (∀ j, k ≤ j → j + 1 < K → i ≤ j + 1 → j ≤ i + 1 → |chord a y j| ≤ D) →
          |v - hermV (a (i + 1) - a i) (chord a y i) (slopeSpec a y k K i) (slopeSpec a y k K (i + 1)) (y i) u|
            ≤ (1200 * ((a (i + 1) - a i) * D) + |hermV (a (i + 1) - a i) (chord a y i) (slopeSpec a y k K i)
                (slopeSpec a y k K (i + 1)) (y i) u|) / 2 ^ 53 := by
      intro i h1 h2
      obtain ⟨a0, b0, r0, s0⟩ := chordR R B h1 h2
      have hY : Y.get i = Rfl.fin (y i) := Block.hY B i h1 (by omega)
      have hp := Block.hpos B h1 h2
      have main : ∀ D, (∀ j, k ≤ j → j + 1 < K → i ≤ j + 1 → j ≤ i + 1 → |chord a y j| ≤ D) →
          0 ≤ D ∧ ErrB 1 7 D (chord a y i) (rnd (rnd (y (i + 1) - y i) / rnd (a (i + 1) - a i))) ∧
          ErrB 3 107 D (slopeSpec a y k K i) (d i) ∧ ErrB 3 107 D (slopeSpec a y k K (i + 1)) (d (i + 1)) := by
        intro D h
        have hc := h i h1 h2 (by omega) (by omega)
        refine ⟨(abs_nonneg _).trans hc, ErrB.ofRel s0 (by simpa using hc), hD i ⟨h1, by omega⟩ D ?_,
          hD (i + 1) ⟨by omega, h2⟩ D ?_⟩ <;>
        · intro j j1 j2 j3
          exact h j j1 j2 (by omega) (by omega)
      unfold pchipRow
      simp only [hd i ⟨h1, by omega⟩, hd (i + 1) ⟨by omega, h2⟩, Option.bind_eq_bind, Option.bind_some]
      rw [b0, a0, hY]
      set D0 := max |chord a y (i - 1)| (max |chord a y i| |chord a y (i + 1)|)
      obtain ⟨m0, m1, m2, m3⟩ := main D0 (by
        intro j j1 j2 j3 j4
        obtain h | h | h : j = i - 1 ∨ j = i ∨ j = i + 1 := by omega
        · rw [h]; exact le_max_left _ _
        · rw [h]; exact le_max_of_le_right (le_max_left _ _)
        · rw [h]; exact le_max_of_le_right (le_max_right _ _))
      obtain ⟨c3, c2, hC, hv⟩ := hermite_rnd R (y := y i) hp m0 r0 m1 m2 m3
      refine ⟨_, hC, fun u u' hu eu => ?_⟩
      obtain ⟨v, hv1, _⟩ := hv u u' hu eu
      refine ⟨v, hv1, fun D h => ?_⟩
      obtain ⟨m0, m1, m2, m3⟩ := main D h
      obtain ⟨c3', c2', hC', hv'⟩ := hermite_rnd R (y := y i) hp m0 r0 m1 m2 m3
      rw [hC] at hC'
      rw [← Option.some.inj hC'] at hv'
      obtain ⟨v', hv1', hv2'⟩ := hv' u u' hu eu
      rw [hv1] at hv1'
      rw [Rfl.fin_inj.mp hv1']
      exact hv2'
    refine ⟨⟨X.size, fun i => if k ≤ i ∧ i < K - 1 then (pchipRow X Y k K i).getD [nan, nan, nan, Y.get i]
      else [nan, nan, nan, Y.get i]⟩, ?_, ?_⟩
    · unfold pchipCoeffsAux
      simp only
      rw [if_pos h3, if_pos]
      rw [List.all_eq_true]
      intro i hi
      rw [List.mem_range'_1] at hi
      obtain ⟨r, hr, _⟩ := hrow i hi.1 (by omega)
      rw [hr]; rfl
    · intro i h1 h2
      obtain ⟨r, hr, hr'⟩ := hrow i h1 h2
      simp only
      rw [if_pos ⟨h1, by omega⟩, hr]
      exact hr'
  · have hK : K = k + 2 := by omega
    have hp := Block.hpos B (le_refl k) (by omega)
    have hX0 : X.get k = Rfl.fin (a k) := Block.hX B k (le_refl _) (by omega)
    have hX1 : X.get (k + 1) = Rfl.fin (a (k + 1)) := Block.hX B (k + 1) (by omega) (by omega)
    have hY0 : Y.get k = Rfl.fin (y k) := Block.hY B k (le_refl _) (by omega)
    have hY1 : Y.get (k + 1) = Rfl.fin (y (k + 1)) := Block.hY B (k + 1) (by omega) (by omega)
    obtain ⟨a0, b0, r0, s0⟩ := chordR R B (le_refl k) (by omega)
    refine ⟨⟨X.size, fun i => if i = k then [Rfl.fin 0, Rfl.fin 0,
      Rfl.fin (rnd (rnd (y (k + 1) - y k) / rnd (a (k + 1) - a k))), Y.get i] else [nan, nan, nan, Y.get i]⟩, ?_, ?_⟩
    · unfold pchipCoeffsAux
      simp only
      rw [if_neg h3, if_pos (by omega), hX0, hX1, hY0, hY1, Rfl.fin_sub, Rfl.fin_sub,
        sdiv_fin_rnd R ((R.pos_iff).mpr hp).ne']
      simp [R.zero]
    · intro i h1 h2
      obtain rfl : i = k := by omega
      intro u u' hu eu
      simp only [if_true]
      rw [hY0, pval_cubic_rnd R]
      refine ⟨_, rfl, fun D hD => ?_⟩
      have hc := hD i (le_refl _) (by omega) (by omega) (by omega)
      have hD0 : 0 ≤ D := (abs_nonneg _).trans hc
      have hss : ∀ j, slopeSpec a y i K j = chord a y i := fun j => by
        unfold slopeSpec; simp only; rw [if_pos hK]; rfl
      rw [hss, hss]
      simp only [R.zero, zero_mul, zero_add]
      have hV : hermV (a (i + 1) - a i) (chord a y i) (chord a y i) (chord a y i) (y i) u = chord a y i * u + y i := by
        simp [hermV, hermC]
      rw [hV]
      have m := ((s0.round R (by norm_num)).mul eu (by norm_num) (by norm_num)).round R (by norm_num)
      have hb : |chord a y i * u| ≤ (1 : ℕ) * ((a (i + 1) - a i) * D) := by
        rw [abs_mul, mul_comm |chord a y i|]
        push_cast
        rw [one_mul]
        exact mul_le_mul hu hc (abs_nonneg _) hp.le
      have hB : 0 ≤ (a (i + 1) - a i) * D := mul_nonneg hp.le hD0
      have m3 := ((ErrB.ofRel m hb).weaken hB (le_refl _) (by norm_num : _ ≤ 1190)).2
      generalize rnd (rnd (rnd (rnd (y (i + 1) - y i) / rnd (a (i + 1) - a i))) * u') = P at *
      generalize chord a y i * u = Q at *
      have e6 := R.err (P + y i)
      have e7 : |P + y i| ≤ |Q + y i| + |P - Q| := by
        have := abs_add_le (Q + y i) (P - Q)
        rwa [show Q + y i + (P - Q) = P + y i by ring] at this
      have e8 : |rnd (P + y i) - (Q + y i)| ≤ |rnd (P + y i) - (P + y i)| + |P - Q| := by
        have := abs_add_le (rnd (P + y i) - (P + y i)) (P - Q)
        rwa [show rnd (P + y i) - (P + y i) + (P - Q) = rnd (P + y i) - (Q + y i) by ring] at this
      generalize |rnd (P + y i) - (Q + y i)| = z1 at *
      generalize |rnd (P + y i) - (P + y i)| = z2 at *
      generalize |P + y i| = z3 at *
      generalize |Q + y i| = z4 at *
      generalize |P - Q| = z5 at *
      generalize (a (i + 1) - a i) * D = z6 at *
      norm_num at m3 e6 ⊢
      linarith

/-- **C123** PCHIP of finite, increasing data in floating point: the coefficients exist (no ZeroDivisionError); inside the
data the value is a number `v` within `(1200 h D + max |y|) 2^-53` of the value `v0` of the same interpolant computed
exactly, where `h` is the length of the interval around `x`, `D` bounds the slopes of the chords of that interval and its two
neighbours, and `max |y|` is over the ends of the interval; outside the data, NaN. -/
theorem pchip_rounded (R : StdRound rnd) {X Y : Arr (Rfl rnd)} {k K : ℕ} {a y : ℕ → α} (B : BlockR X Y k K a y) :
    ∃ C C0, pchipCoeffs1 X Y = some C ∧ pchipCoeffs1 (exactArr X) (exactArr Y) = some C0 ∧ ∀ x,
      (a k ≤ x ∧ x ≤ a (K - 1) → ∃ i v v0, k ≤ i ∧ i + 1 < K ∧ a i ≤ x ∧ x ≤ a (i + 1) ∧
        ppval1 (Rfl.fin x) X C 0 = Rfl.fin v ∧ ppval1 (Fl.fin x) (exactArr X) C0 0 = Fl.fin v0 ∧
        ∀ D, (∀ j, k ≤ j → j + 1 < K → i ≤ j + 1 → j ≤ i + 1 → |(y (j + 1) - y j) / (a (j + 1) - a j)| ≤ D) →
          |v - v0| ≤ (1200 * ((a (i + 1) - a i) * D) + max |y i| |y (i + 1)|) / 2 ^ 53) ∧
      (¬ (a k ≤ x ∧ x ≤ a (K - 1)) → ppval1 (Rfl.fin x) X C 0 = (Rfl.qnan : Rfl rnd)) := by
  have B' : Block (exactArr X) (exactArr Y) k K a y := B
  obtain ⟨C, hC, hv⟩ := pchipRow_rnd R B
  obtain ⟨C0, hC0, hrow⟩ := B'.pchip_spec
  refine ⟨C, C0, hC, hC0, fun x => ?_⟩
  have hvr' : validRange2 (F := Rfl rnd) X Y = (k, K) := Block.vr B
  have hvr : validRange2 (F := Rfl rnd) X C.lastCol = (k, K) := by
    rw [← hvr']
    exact validRange2_congr rfl (fun _ _ => rfl) (fun i _ => by rw [(pchipAux_spec hC).2])
  constructor
  · rintro ⟨hx, hx'⟩
    have ho : outside (F := Rfl rnd) X k K (Rfl.fin x) = false := (Block.outside_iff B x).mpr ⟨hx, hx'⟩
    obtain ⟨h1, h2, h3, h4, _⟩ := pieceIndex_bracket (Block.hX B) (Block.mono B) ((Block.outside_iff B x).mpr ⟨hx, hx'⟩)
    rw [← pieceIndex_rnd] at h1 h2 h3 h4
    generalize hi : pieceIndex (F := Rfl rnd) X k K (Rfl.fin x) = i at *
    have hXi : X.get i = Rfl.fin (a i) := Block.hX B i h1 (by omega)
    obtain ⟨v, hv1, hv2⟩ := hv i h1 (by omega) (x - a i) (rnd (x - a i)) (by
      rw [abs_of_nonneg (by linarith)]; linarith) (RelErr.rlit R _)
    have hval := (B'.pchip_val hC0 hrow h1 (by omega) h3 h4).1
    refine ⟨i, v, _, h1, by omega, h3, h4, ?_, hval, fun D hD => ?_⟩
    · unfold ppval1
      simp only [hvr]
      rw [ho, hi, hXi, Rfl.fin_sub]
      exact hv1
    · refine (hv2 D hD).trans ?_
      apply div_le_div_of_nonneg_right _ (by positivity)
      apply add_le_add (le_refl _)
      obtain ⟨C1, hC1, hsh⟩ := pchip_shape B'
      obtain ⟨w, w', hw, _, s1, s2⟩ := hsh i h1 (by omega) x x h3 (le_refl _) h4
      rw [hC0] at hC1
      rw [← Option.some.inj hC1, hval] at hw
      rw [Fl.fin.inj hw]
      rcases le_total (y i) (y (i + 1)) with h | h
      · exact abs_le_max_abs_abs (s1 h).1 ((s1 h).2.1.trans (s1 h).2.2)
      · rw [max_comm]
        exact abs_le_max_abs_abs ((s2 h).1.trans (s2 h).2.1) (s2 h).2.2
  · intro h
    have ho : outside (F := Rfl rnd) X k K (Rfl.fin x) = true := by
      rw [← Bool.not_eq_false]
      exact fun hf => h ((Block.outside_iff B x).mp hf)
    unfold ppval1; simp only [hvr]; rw [ho]; rfl

theorem flAdd_comm (p q : Fl α) : Fl.add p q = Fl.add q p := by
  cases p <;> cases q <;> simp [Fl.add, add_comm]

/-- **C123** For data without infinities, interpolating on the fly gives the same number, to the last bit, as evaluating
the table; the same for the derivatives. -/
theorem pchip_rounded_onthefly (R : StdRound rnd) {X Y : Arr (Rfl rnd)} {k K : ℕ} {a y : ℕ → α}
    (B : BlockR X Y k K a y)
    (hX : ∀ i, i < X.size → X.get i = Rfl.qnan ∨ ∃ x, X.get i = Rfl.fin x)
    (hY : ∀ i, i < X.size → Y.get i = Rfl.qnan ∨ ∃ x, Y.get i = Rfl.fin x) :
    ∃ C, pchipCoeffs1 X Y = some C ∧ ∀ x d, pchipInterp1 x X Y d = some (ppval1 x X C d) := by
  obtain ⟨C, _, hC, _⟩ := pchip_rounded R B
  refine ⟨C, hC, fun x d => pchip_onthefly_eq_table (F := Rfl rnd) (X := X) (Y := Y) ?_ ⟨?_, ?_, ?_⟩ (Block.size B) hC x d⟩
  · intro p q
    exact congrArg (Rfl.round rnd) (flAdd_comm p q)
  · intro i hi; rcases hX i hi with h | ⟨z, h⟩ <;> rw [h] <;> rfl
  · intro i hi; rcases hY i hi with h | ⟨z, h⟩ <;> rw [h] <;> rfl
  · intro i hi
    rcases hX i hi with h | ⟨z, h⟩ <;> rcases hY i hi with h' | ⟨z', h'⟩ <;> rw [h, h'] <;> rfl

/-- PCHIP data in double precision. -/
def rX : Arr (Rfl Rounding53.rnd53) := ⟨4, fun i => if i = 0 then Rfl.qnan else Rfl.fin (if i = 1 then 0 else if i = 2 then 1 else 3)⟩
/-- PCHIP data in double precision. -/
def rY : Arr (Rfl Rounding53.rnd53) := ⟨4, fun i => Rfl.fin (if i = 1 then 5 else if i = 2 then 6 else if i = 3 then 9 else 0)⟩

theorem rBlock : BlockR rX rY 1 4 (fun i => if i = 1 then 0 else if i = 2 then 1 else 3)
    (fun i => if i = 1 then 5 else if i = 2 then 6 else 9) := by
  refine ⟨rfl, by decide +kernel, by norm_num, ?_, ?_, ?_⟩
  · intro i h0 h; interval_cases i <;> rfl
  · intro i h0 h; interval_cases i <;> rfl
  · intro i h0 h
    obtain rfl | rfl : i = 1 ∨ i = 2 := by omega
    · norm_num
    · norm_num

/-- The hypotheses of `pchip_rounded` and `linear_rounded` are met by data in double precision, and the result is rounded:
the exact value at `2` is not a binary fraction. -/
example : StdRound Rounding53.rnd53 ∧ BlockR rX rY 1 4 (fun i => if i = 1 then 0 else if i = 2 then 1 else 3)
    (fun i => if i = 1 then 5 else if i = 2 then 6 else 9) ∧
    (match pchipInterp1 (Fl.fin 2) (exactArr rX) (exactArr rY) 0, pchipInterp1 (Rfl.fin 2) rX rY 0 with
      | some (Fl.fin v0), some (Fl.fin v) => decide (v0 ≠ v ∧ |v - v0| < 1 / 2 ^ 49)
      | _, _ => false) = true :=
  ⟨Rounding53.rnd53_std, rBlock, by decide +kernel⟩

/-- **C122 is violated** by PCHIP too: data `(0, 0), (25, 7)` interpolated at `25` give more than any datum. -/
theorem pchip_site_inexact :
    let X : Arr (Rfl Rounding53.rnd53) := ⟨2, fun i => if i = 0 then Rfl.fin 0 else Rfl.fin 25⟩
    let Y : Arr (Rfl Rounding53.rnd53) := ⟨2, fun i => if i = 0 then Rfl.fin 0 else Rfl.fin 7⟩
    pchipInterp1 (Rfl.fin 25) X Y 0 = some (Rfl.fin (7 + 1 / 2 ^ 50)) := by
  decide +kernel

end Interp
