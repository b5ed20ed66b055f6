import Verif.Model.Fzero
import Mathlib.Algebra.Order.Floor.Defs
import Mathlib.Algebra.Order.Archimedean.Basic
import Mathlib.Tactic.Positivity
import Mathlib.Tactic.FieldSimp

namespace Fzero
open FloatLike Fl

variable {α : Type*} [Field α] [LinearOrder α] [IsStrictOrderedRing α]

/-- A loop state all of whose entries are finite numbers. -/
abbrev finSt (a b c d e fa fb fc : α) : BrentSt (Fl α) :=
  ⟨fin a, fin b, fin c, fin d, fin e, fin fa, fin fb, fin fc⟩

/-- The (exact) convergence tolerance at `b`. -/
def tolAt (t b : α) : α := 2 * (eps64 : α) * |b| + t

theorem eps64_nonneg : (0 : α) ≤ (eps64 : α) := by
  have : (0 : ℚ) ≤ eps64 := by norm_num [eps64]
  exact_mod_cast this

theorem tolAt_ge {t b : α} : t ≤ tolAt t b := by
  unfold tolAt
  have h1 : 0 ≤ (eps64 : α) := eps64_nonneg
  have h2 := abs_nonneg b
  nlinarith [mul_nonneg h1 h2]

/-- Where the next `b` may lie: `dl` has the sign of `m` and `tol ≤ |dl| < 1.5 |m|`. -/
def GoodMove (tol m dl : α) : Prop :=
  (0 < m ∧ tol ≤ dl ∧ 2 * dl ≤ 3 * m) ∨ (m < 0 ∧ dl ≤ -tol ∧ 3 * m ≤ 2 * dl)

/-- A candidate `d` produced by `brentChoose`. -/
def GoodD (m d : α) : Prop :=
  (0 < m ∧ 0 ≤ d ∧ 2 * d ≤ 3 * m) ∨ (m < 0 ∧ d ≤ 0 ∧ 3 * m ≤ 2 * d)

theorem goodD_self {m : α} (h : m ≠ 0) : GoodD m m := by
  rcases lt_or_gt_of_ne h with h | h
  · right; exact ⟨h, h.le, by linarith⟩
  · left; exact ⟨h, h.le, by linarith⟩

theorem goodD_interp {tol m p q : α} (ht : 0 ≤ tol) (hp : 0 ≤ p)
    (h1 : 2 * p < 3 * m * q - |tol * q|) (hq : q ≠ 0) : GoodD m (p / q) := by
  rw [abs_mul, abs_of_nonneg ht] at h1
  rcases lt_or_gt_of_ne hq with hq | hq
  · rw [abs_of_neg hq] at h1
    right
    have e1 : p / q ≤ 0 := div_nonpos_of_nonneg_of_nonpos hp hq.le
    have hm : m < 0 := by
      by_contra hm
      have hm := not_lt.mp hm
      nlinarith [mul_nonneg hm (neg_nonneg.mpr hq.le), mul_nonneg ht (neg_nonneg.mpr hq.le)]
    refine ⟨hm, e1, ?_⟩
    have : 3 * m / 2 ≤ p / q := by
      rw [le_div_iff_of_neg hq]
      nlinarith [mul_nonneg ht (neg_nonneg.mpr hq.le)]
    linarith
  · rw [abs_of_pos hq] at h1
    left
    have e1 : 0 ≤ p / q := div_nonneg hp hq.le
    have hm : 0 < m := by
      by_contra hm
      have hm := not_lt.mp hm
      nlinarith [mul_nonneg (neg_nonneg.mpr hm) hq.le, mul_nonneg ht hq.le]
    refine ⟨hm, e1, ?_⟩
    have : p / q ≤ 3 * m / 2 := by
      rw [div_le_iff₀ hq]
      nlinarith [mul_nonneg ht hq.le]
    linarith

theorem isZero_fin (x : α) : isZero (fin x) = decide (x = 0) := by simp [isZero]

/-- `brentChoose` on finite numbers never divides by zero and yields an acceptable candidate. -/
theorem brentChoose_fin {a b c d e fa fb fc tol m : α} (ht : 0 ≤ tol) (hm : m ≠ 0)
    (hfb : fb ≠ 0) (hfc : |fb| ≤ |fc|) :
    ∃ e' d' : α, brentChoose (finSt a b c d e fa fb fc) (fin tol) (fin m) = some (fin e', fin d')
      ∧ GoodD m d' := by
  have hfc0 : fc ≠ 0 := by
    intro h; rw [h, abs_zero] at hfc
    exact hfb (abs_nonpos_iff.mp hfc)
  unfold brentChoose finSt
  simp only [abs_fin, lt_fin, le_fin, isZero_fin, lit_eq]
  by_cases h1 : |e| < tol ∨ |fa| ≤ |fb|
  · refine ⟨m, m, ?_, goodD_self hm⟩
    rw [if_pos]
    simpa using h1
  · rw [if_neg (by simpa using h1)]
    push Not at h1
    have hfa0 : fa ≠ 0 := by
      intro h; rw [h, abs_zero] at h1
      exact absurd h1.2 (not_lt.mpr (abs_nonneg fb))
    rw [if_neg (by simpa using hfa0)]
    -- the value of (p, q) is some pair of finite numbers
    have key : ∀ p q : α, ∃ e' d' : α,
        (match (some (fin p, fin q) : Option (Fl α × Fl α)) with
        | none => none
        | some (p, q) =>
          let q' := if FloatLike.lt (fin ((0 : ℚ) : α)) p then -q else q
          let p' := if FloatLike.lt (fin ((0 : ℚ) : α)) p then p else -p
          if FloatLike.lt (fin ((2 : ℚ) : α) * p') (fin ((3 : ℚ) : α) * fin m * q' - FloatLike.abs (fin tol * q'))
            && FloatLike.lt p' (FloatLike.abs (fin ((1/2 : ℚ) : α) * fin e * q')) then
            if isZero q' then none else some (fin d, p' / q')
          else some (fin m, fin m)) = some (fin e', fin d') ∧ GoodD m d' := by
      intro p q
      obtain ⟨p', q', hp', hq', hp0⟩ : ∃ p' q' : α,
          (if FloatLike.lt (fin ((0 : ℚ) : α)) (fin p) then fin p else -fin p) = fin p' ∧
          (if FloatLike.lt (fin ((0 : ℚ) : α)) (fin p) then -fin q else fin q) = fin q' ∧ 0 ≤ p' := by
        by_cases hp : 0 < p
        · exact ⟨p, -q, by simp [hp], by simp [hp], hp.le⟩
        · exact ⟨-p, q, by simp [hp], by simp [hp], by linarith [not_lt.mp hp]⟩
      simp only [hp', hq']
      simp only [fin_mul, abs_fin, fin_sub, lt_fin, isZero_fin]
      split_ifs with h2 h3
      · exfalso
        simp only [Bool.and_eq_true, decide_eq_true_eq] at h2 h3
        rw [h3] at h2
        simp at h2
        linarith [h2.2]
      · simp only [Bool.and_eq_true, decide_eq_true_eq] at h2 h3
        refine ⟨d, p' / q', by rw [fin_div _ _ h3], goodD_interp ht hp0 ?_ h3⟩
        have := h2.1
        push_cast at this
        exact this
      · exact ⟨m, m, rfl, goodD_self hm⟩
    by_cases hac : a = c
    · simp only [feq_fin, hac, decide_true, if_true, fin_div _ _ hfa0, fin_mul, fin_sub]
      exact key _ _
    · have hdc : decide (a = c) = false := by simpa using hac
      have hdf : decide (fc = 0) = false := by simpa using hfc0
      simp only [feq_fin, hdc, hdf, Bool.false_eq_true, if_false, fin_div _ _ hfa0,
        fin_div _ _ hfc0, fin_mul, fin_sub]
      exact key _ _

/-- The invariant kept at the head of the `brent` loop. -/
structure BInv (g : α → α) (lo hi : α) (a b c fa fb fc : α) : Prop where
  ha : lo ≤ a ∧ a ≤ hi
  hb : lo ≤ b ∧ b ≤ hi
  hc : lo ≤ c ∧ c ≤ hi
  hfa : fa = g a
  hfb : fb = g b
  hfc : fc = g c
  opp : fb * fc ≤ 0

/-- What holds of the returned value. -/
def Post (g : α → α) (lo hi t r : α) : Prop :=
  lo ≤ r ∧ r ≤ hi ∧
    (g r = 0 ∨ ∃ c, lo ≤ c ∧ c ≤ hi ∧ |c - r| ≤ 2 * tolAt t r ∧ g r * g c < 0)

theorem strict_opp {x y : α} (h : x * y ≤ 0) (hx : x ≠ 0) (hxy : |x| ≤ |y|) : x * y < 0 := by
  rcases lt_or_eq_of_le h with h | h
  · exact h
  · rcases mul_eq_zero.mp h with h' | h'
    · exact absurd h' hx
    · rw [h', abs_zero] at hxy
      exact absurd (abs_nonpos_iff.mp hxy) hx

theorem mul_neg_cases {x y : α} (h : x * y < 0) : (0 < x ∧ y < 0) ∨ (x < 0 ∧ 0 < y) :=
  mul_neg_iff.mp h

theorem brentMove_fin {f : Fl α → Fl α} {g : α → α} {lo hi t : α}
    (hf : ∀ x, lo ≤ x → x ≤ hi → f (fin x) = fin (g x)) (ht : 0 ≤ t)
    {a b c d e fa fb fc : α} (I : BInv g lo hi a b c fa fb fc) (hfb : fb ≠ 0) (hfc : |fb| ≤ |fc|)
    (hmt : tolAt t b < |1/2 * (c - b)|) (e' d' : α) (hd : GoodD (1/2 * (c - b)) d') :
    ∃ a' b' c' d'' e'' fa' fb' fc',
      brentMove f (finSt a b c d e fa fb fc) (fin (tolAt t b)) (fin (1/2 * (c - b))) (fin e') (fin d')
        = finSt a' b' c' d'' e'' fa' fb' fc' ∧ BInv g lo hi a' b' c' fa' fb' fc' ∧
        |c' - b'| ≤ |c - b| - t / 2 := by
  set m := 1/2 * (c - b) with hm
  have hT : t ≤ tolAt t b := tolAt_ge
  -- the displacement
  obtain ⟨dl, hdl, hg⟩ : ∃ dl, (if FloatLike.lt (fin (tolAt t b)) (FloatLike.abs (fin d')) then fin b + fin d'
      else if FloatLike.lt (FloatLike.lit 0) (fin m) then fin b + fin (tolAt t b) else fin b - fin (tolAt t b))
        = fin (b + dl) ∧ GoodMove (tolAt t b) m dl := by
    by_cases h1 : tolAt t b < |d'|
    · refine ⟨d', by simp [h1], ?_⟩
      rcases hd with ⟨h2, h3, h4⟩ | ⟨h2, h3, h4⟩
      · left; rw [abs_of_nonneg h3] at h1; exact ⟨h2, h1.le, h4⟩
      · right; rw [abs_of_nonpos h3] at h1; exact ⟨h2, by linarith, h4⟩
    · by_cases h2 : 0 < m
      · refine ⟨tolAt t b, by simp [h1, h2], Or.inl ⟨h2, le_refl _, ?_⟩⟩
        rw [abs_of_pos h2] at hmt; linarith
      · have h3 : m < 0 := by
          rcases hd with h | h
          · exact absurd h.1 h2
          · exact h.1
        refine ⟨-tolAt t b, by simp [h1, h2, sub_eq_add_neg], Or.inr ⟨h3, le_refl _, ?_⟩⟩
        rw [abs_of_neg h3] at hmt; linarith
  -- new b in range, lengths
  have hrange : lo ≤ b + dl ∧ b + dl ≤ hi ∧ |b - (b + dl)| ≤ |c - b| - t / 2 ∧
      |c - (b + dl)| ≤ |c - b| - t / 2 := by
    have hb := I.hb
    have hc := I.hc
    rcases hg with ⟨h1, h2, h3⟩ | ⟨h1, h2, h3⟩
    · have hcb : 0 < c - b := by linarith
      rw [abs_of_pos h1] at hmt
      rw [abs_of_pos hcb, abs_of_nonpos (by linarith : b - (b + dl) ≤ 0),
        abs_of_nonneg (by linarith : 0 ≤ c - (b + dl))]
      refine ⟨by linarith, by linarith, by linarith, by linarith⟩
    · have hcb : c - b < 0 := by linarith
      rw [abs_of_neg h1] at hmt
      rw [abs_of_neg hcb, abs_of_nonneg (by linarith : 0 ≤ b - (b + dl)),
        abs_of_nonpos (by linarith : c - (b + dl) ≤ 0)]
      refine ⟨by linarith, by linarith, by linarith, by linarith⟩
  obtain ⟨r1, r2, r3, r4⟩ := hrange
  have hopp := strict_opp I.opp hfb hfc
  have hfn : f (fin (b + dl)) = fin (g (b + dl)) := hf _ r1 r2
  unfold brentMove finSt
  simp only
  rw [hdl, hfn]
  simp only [lit_eq, lt_fin, le_fin, Rat.cast_zero, fin_sub]
  split_ifs with h
  · refine ⟨_, _, _, _, _, _, _, _, rfl, ⟨I.hb, ⟨r1, r2⟩, I.hb, I.hfb, rfl, I.hfb, ?_⟩, r3⟩
    simp only [Bool.or_eq_true, Bool.and_eq_true, decide_eq_true_eq] at h
    rcases mul_neg_cases hopp with ⟨hx, hy⟩ | ⟨hx, hy⟩
    · rcases h with h | h
      · exact absurd h.2 (not_lt.mpr hy.le)
      · exact mul_nonpos_of_nonpos_of_nonneg h.1 hx.le
    · rcases h with h | h
      · exact mul_nonpos_of_nonneg_of_nonpos h.1.le hx.le
      · exact absurd h.2 (not_le.mpr hy)
  · refine ⟨_, _, _, _, _, _, _, _, rfl, ⟨I.hb, ⟨r1, r2⟩, I.hc, I.hfb, rfl, I.hfc, ?_⟩, r4⟩
    simp only [Bool.or_eq_true, Bool.and_eq_true, decide_eq_true_eq, not_or, not_and, not_lt, not_le] at h
    by_cases hp : 0 < g (b + dl)
    · exact mul_nonpos_of_nonneg_of_nonpos hp.le (h.1 hp)
    · exact mul_nonpos_of_nonpos_of_nonneg (not_lt.mp hp) (h.2 (not_lt.mp hp)).le

theorem brentSwap_fin {g : α → α} {lo hi : α} {a b c d e fa fb fc : α}
    (I : BInv g lo hi a b c fa fb fc) :
    ∃ a' b' c' fa' fb' fc', brentSwap (finSt a b c d e fa fb fc) = finSt a' b' c' d e fa' fb' fc' ∧
      BInv g lo hi a' b' c' fa' fb' fc' ∧ |fb'| ≤ |fc'| ∧ |c' - b'| = |c - b| := by
  unfold brentSwap finSt
  simp only [abs_fin, lt_fin]
  split_ifs with h
  · refine ⟨_, _, _, _, _, _, rfl, ⟨I.hb, I.hc, I.hb, I.hfb, I.hfc, I.hfb, by
      rw [mul_comm]; exact I.opp⟩, ?_, abs_sub_comm _ _⟩
    exact (by simpa using h : |fc| < |fb|).le
  · exact ⟨_, _, _, _, _, _, rfl, I, by simpa using h, rfl⟩

/-- One pass: either it stops with a good result or it continues with a shorter bracket. -/
theorem brentStep_fin {f : Fl α → Fl α} {g : α → α} {lo hi t : α}
    (hf : ∀ x, lo ≤ x → x ≤ hi → f (fin x) = fin (g x)) (ht : 0 ≤ t)
    {a b c d e fa fb fc : α} (I : BInv g lo hi a b c fa fb fc) :
    (∃ r, brentStep f (fin t) (finSt a b c d e fa fb fc) = .done (fin r) ∧ Post g lo hi t r) ∨
    (2 * t < |c - b| ∧ ∃ a' b' c' d' e' fa' fb' fc',
      brentStep f (fin t) (finSt a b c d e fa fb fc) = .next (finSt a' b' c' d' e' fa' fb' fc') ∧
      BInv g lo hi a' b' c' fa' fb' fc' ∧ |c' - b'| ≤ |c - b| - t / 2) := by
  obtain ⟨a1, b1, c1, fa1, fb1, fc1, hs, I1, hle, hlen⟩ := brentSwap_fin (d := d) (e := e) I
  have htol : (FloatLike.lit 2 * FloatLike.lit eps64 * FloatLike.abs (fin b1) + fin t : Fl α)
      = fin (tolAt t b1) := by simp [tolAt]
  have hm : (FloatLike.lit (1/2) * (fin c1 - fin b1) : Fl α) = fin (1/2 * (c1 - b1)) := by simp
  unfold brentStep
  simp only [hs]
  simp only [finSt]
  rw [htol, hm]
  simp only [abs_fin, le_fin, lit_eq, feq_fin, Rat.cast_zero]
  by_cases hstop : |1/2 * (c1 - b1)| ≤ tolAt t b1 ∨ fb1 = 0
  · left
    refine ⟨b1, by rw [if_pos (by simpa using hstop)], I1.hb.1, I1.hb.2, ?_⟩
    by_cases h0 : fb1 = 0
    · left; rw [← I1.hfb]; exact h0
    · right
      refine ⟨c1, I1.hc.1, I1.hc.2, ?_, ?_⟩
      · rcases hstop with h | h
        · rw [abs_mul, abs_of_pos (by norm_num : (0 : α) < 1/2)] at h
          linarith
        · exact absurd h h0
      · rw [← I1.hfb, ← I1.hfc]; exact strict_opp I1.opp h0 hle
  · right
    rw [if_neg (by simpa using hstop)]
    push Not at hstop
    obtain ⟨h1, h2⟩ := hstop
    have ht0 : 0 ≤ tolAt t b1 := le_trans ht tolAt_ge
    have hm0 : (1/2 * (c1 - b1)) ≠ 0 := by
      intro h; rw [h, abs_zero] at h1; linarith
    obtain ⟨e', d', hch, hd⟩ := brentChoose_fin (a := a1) (b := b1) (c := c1) (d := d) (e := e)
      (fa := fa1) (fb := fb1) (fc := fc1) ht0 hm0 h2 hle
    have hch' := hch
    unfold finSt at hch'
    rw [hch']
    obtain ⟨a', b', c', d'', e'', fa', fb', fc', h3, h4, h5⟩ :=
      brentMove_fin (d := d) (e := e) hf ht I1 h2 hle h1 e' d' hd
    refine ⟨?_, a', b', c', d'', e'', fa', fb', fc', ?_, h4, by rw [← hlen]; exact h5⟩
    · rw [abs_mul, abs_of_pos (by norm_num : (0 : α) < 1/2), hlen] at h1
      have : t ≤ tolAt t b1 := tolAt_ge
      linarith
    · have h3' := h3
      unfold finSt at h3'
      simp only [h3']

/-- Total correctness of the loop. -/
theorem brentLoop_fin {f : Fl α → Fl α} {g : α → α} {lo hi t : α}
    (hf : ∀ x, lo ≤ x → x ≤ hi → f (fin x) = fin (g x)) (ht : 0 < t) (n : ℕ) :
    ∀ {a b c d e fa fb fc : α}, BInv g lo hi a b c fa fb fc → |c - b| ≤ n * (t / 2) + 2 * t →
      ∃ r, brentLoop f (fin t) (n + 1) (finSt a b c d e fa fb fc) = .ret (fin r) ∧ Post g lo hi t r := by
  induction n with
  | zero =>
    intro a b c d e fa fb fc I hl
    rcases brentStep_fin (d := d) (e := e) hf ht.le I with ⟨r, h1, h2⟩ | ⟨h1, _⟩
    · exact ⟨r, by simp [brentLoop, h1], h2⟩
    · exfalso; simp at hl; linarith
  | succ n ih =>
    intro a b c d e fa fb fc I hl
    rcases brentStep_fin (d := d) (e := e) hf ht.le I with ⟨r, h1, h2⟩ | ⟨_, a', b', c', d', e', fa', fb', fc', h1, h2, h3⟩
    · exact ⟨r, by simp [brentLoop, h1], h2⟩
    · obtain ⟨r, h4, h5⟩ := ih (d := d') (e := e') h2 (by push_cast at hl; linarith)
      refine ⟨r, ?_, h5⟩
      rw [brentLoop, h1]
      exact h4

/-- Partial correctness of the loop, for every amount of fuel. -/
theorem brentLoop_fin_partial {f : Fl α → Fl α} {g : α → α} {lo hi t : α}
    (hf : ∀ x, lo ≤ x → x ≤ hi → f (fin x) = fin (g x)) (ht : 0 ≤ t) (n : ℕ) :
    ∀ {a b c d e fa fb fc : α}, BInv g lo hi a b c fa fb fc →
      brentLoop f (fin t) n (finSt a b c d e fa fb fc) = .outOfFuel ∨
      ∃ r, brentLoop f (fin t) n (finSt a b c d e fa fb fc) = .ret (fin r) ∧ Post g lo hi t r := by
  induction n with
  | zero => intro a b c d e fa fb fc _; left; rfl
  | succ n ih =>
    intro a b c d e fa fb fc I
    rcases brentStep_fin (d := d) (e := e) hf ht I with ⟨r, h1, h2⟩ | ⟨_, a', b', c', d', e', fa', fb', fc', h1, h2, h3⟩
    · right; exact ⟨r, by simp [brentLoop, h1], h2⟩
    · rw [brentLoop, h1]
      exact ih h2

end Fzero
