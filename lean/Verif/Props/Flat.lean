import Verif.Props.OmegaRound
import Verif.Props.SolveAccuracy

/-! # Nothing moves where the ocean is the same everywhere (C158) -/

set_option linter.unusedSectionVars false

namespace Fzero
open FloatLike Traj
variable {α : Type*} [Field α] [LinearOrder α] [IsStrictOrderedRing α] {rnd : α → α}

/-- The first trial point to the left of the guess. -/
theorem trial_left (R : StdRound rnd) {x A : α} (hA : rnd A = A) (hAx : A < x) (hw : |x| ≤ 2 ^ 40 * (x - A)) :
    rnd (x - A) ≠ 0 ∧ rnd ((50 : ℚ) : α) ≠ 0 ∧
    0 < rnd (rnd (x - A) / rnd ((50 : ℚ) : α)) ∧
    A ≤ max (rnd (x - rnd (rnd (rnd (x - A) / rnd ((50 : ℚ) : α)) * rnd ((growth : ℚ) : α)))) A ∧
    max (rnd (x - rnd (rnd (rnd (x - A) / rnd ((50 : ℚ) : α)) * rnd ((growth : ℚ) : α)))) A ≤ x - (x - A) / 50 := by
  have hwpos : 0 < x - A := sub_pos.mpr hAx
  have e1 := R.le_of_nonneg hwpos.le
  have e50 := R.le_of_nonneg (x := ((50 : ℚ) : α)) (by positivity)
  have eg := R.le_of_nonneg (x := ((growth : ℚ) : α)) (by unfold growth; positivity)
  push_cast [growth] at e50 eg ⊢
  generalize hd0 : rnd (x - A) = d0 at *
  generalize h50 : rnd (50 : α) = f at *
  generalize hg : rnd ((1414213562373095 : α) / 1000000000000000) = g at *
  have hd0' : (x - A) * (999/1000) ≤ d0 := by
    refine le_trans ?_ e1.1
    have : (x - A) / 2 ^ 53 ≤ (x - A) / 1000 := div_le_div_of_nonneg_left hwpos.le (by norm_num) (by norm_num)
    linarith
  have hf : f ≤ 5001/100 := by refine le_trans e50.2 ?_; norm_num
  have hf0 : 0 < f := lt_of_lt_of_le (by norm_num) e50.1
  have hg' : 1414/1000 ≤ g := by refine le_trans ?_ eg.1; norm_num
  have hd0p : 0 < d0 := lt_of_lt_of_le (by positivity) hd0'
  have hq : (x - A) * (199/10000) ≤ d0 / f := by
    rw [le_div_iff₀ hf0]
    calc (x - A) * (199/10000) * f ≤ (x - A) * (199/10000) * (5001/100) := by
          apply mul_le_mul_of_nonneg_left hf; positivity
      _ ≤ (x - A) * (999/1000) := by rw [mul_assoc]; apply mul_le_mul_of_nonneg_left _ hwpos.le; norm_num
      _ ≤ d0 := hd0'
  have hqp : 0 < d0 / f := div_pos hd0p hf0
  have hr1 := (R.le_of_nonneg hqp.le).1
  have hr1' : (x - A) * (198/10000) ≤ rnd (d0 / f) := by
    refine le_trans ?_ hr1
    have : (d0 / f) / 2 ^ 53 ≤ (d0 / f) / 1000 := div_le_div_of_nonneg_left hqp.le (by norm_num) (by norm_num)
    have h2 : (x - A) * (198/10000) ≤ (x - A) * (199/10000) * (999/1000) := by
      rw [mul_assoc]; apply mul_le_mul_of_nonneg_left _ hwpos.le; norm_num
    linarith [mul_le_mul_of_nonneg_right hq (show (0:α) ≤ 999/1000 by norm_num)]
  have hr1p : 0 < rnd (d0 / f) := R.pos_iff.mpr hqp
  generalize rnd (d0 / f) = d1 at *
  have hm : (x - A) * (279/10000) ≤ d1 * g := by
    calc (x - A) * (279/10000) ≤ (x - A) * (198/10000) * (1414/1000) := by
          rw [mul_assoc]; apply mul_le_mul_of_nonneg_left _ hwpos.le; norm_num
      _ ≤ d1 * g := mul_le_mul hr1' hg' (by norm_num) hr1p.le
  have hmp : 0 < d1 * g := lt_of_lt_of_le (by positivity) hm
  have hr2 := (R.le_of_nonneg hmp.le).1
  have hr2' : (x - A) * (27/1000) ≤ rnd (d1 * g) := by
    refine le_trans ?_ hr2
    have : (d1 * g) / 2 ^ 53 ≤ (d1 * g) / 1000 := div_le_div_of_nonneg_left hmp.le (by norm_num) (by norm_num)
    have h2 : (x - A) * (27/1000) ≤ (x - A) * (279/10000) * (999/1000) := by
      rw [mul_assoc]; apply mul_le_mul_of_nonneg_left _ hwpos.le; norm_num
    linarith [mul_le_mul_of_nonneg_right hm (show (0:α) ≤ 999/1000 by norm_num)]
  refine ⟨hd0p.ne', hf0.ne', hr1p, le_max_right _ _, max_le ?_ ?_⟩
  · have h1 := R.mono (x - rnd (d1 * g)) (x - (x - A) * (27/1000)) (by linarith)
    have h2 := (abs_le.mp (R.err (x - (x - A) * (27/1000)))).2
    have h3 : |x - (x - A) * (27/1000)| ≤ |x| + (x - A) * (27/1000) := by
      refine le_trans (abs_sub _ _) ?_
      rw [abs_of_pos (a := (x - A) * (27/1000)) (by positivity)]
    have h4 : |x - (x - A) * (27/1000)| / 2 ^ 53 ≤ (x - A) / 1000 := by
      rw [div_le_iff₀ (by norm_num)]
      linarith
    linarith
  · linarith

/-- **C158** A guess `x` at which the function is exactly zero, with positive values well to its left: the root finder
returns `x` itself, in rounded arithmetic. -/
theorem solveRoot_exact (R : StdRound rnd) {f : Rfl rnd → Rfl rnd} {g : α → α} {x A B t : α} (n : ℕ)
    (hA : rnd A = A) (hAx : A ≤ x) (hxB : x ≤ B) (hw : A < x → |x| ≤ 2 ^ 40 * (x - A)) (hf : FiniteOnR rnd f g A B)
    (h0 : g x = 0) (hpos : ∀ y, A ≤ y → y ≤ x - (x - A) / 50 → A < x → 0 < g y) (hB : x < B → g B ≠ 0) :
    solveRoot (n + 1) f (Rfl.fin x) (Rfl.fin A) (Rfl.fin B) (Rfl.fin t) = .ret (Rfl.fin x) := by
  have hbr : ∀ y, y ≤ x → A ≤ y → 0 ≤ g y →
      brent (n + 1) f (Rfl.fin y) (Rfl.fin x) (Rfl.fin t) = .ret (Rfl.fin x) := by
    intro y hy hy' hgy
    unfold brent
    simp only [Rfl.isNaN_fin, Rfl.lt_fin, hf y hy' (hy.trans hxB), hf x hAx hxB, h0, Rfl.fin_mul, Rfl.lit_eq, Rat.cast_zero,
      R.zero, Bool.false_or, Rfl.fin_sub, mul_zero]
    rw [if_neg (by simpa using hy), if_neg (by simp)]
    have hsw : brentSwap (⟨Rfl.fin y, Rfl.fin x, Rfl.fin y, Rfl.fin (rnd (x - y)), Rfl.fin (rnd (x - y)), Rfl.fin (g y), Rfl.fin 0,
        Rfl.fin (g y)⟩ : BrentSt (Rfl rnd)) = ⟨Rfl.fin y, Rfl.fin x, Rfl.fin y, Rfl.fin (rnd (x - y)), Rfl.fin (rnd (x - y)),
        Rfl.fin (g y), Rfl.fin 0, Rfl.fin (g y)⟩ := by
      unfold brentSwap
      simp
    unfold brentLoop brentStep
    rw [hsw]
    simp only [Rfl.lit_eq, Rat.cast_zero, R.zero, Rfl.feq_fin, decide_true, Bool.or_true, if_true]
  unfold solveRoot guessToBounds
  rw [hf A le_rfl (hAx.trans hxB), hf B (hAx.trans hxB) le_rfl]
  simp only [Rfl.feq_fin, Rfl.lit_eq, Rat.cast_zero, R.zero, Rfl.fmax_fin, Rfl.fmin_fin]
  rcases eq_or_lt_of_le hAx with rfl | hAx'
  · rw [if_pos (by simpa using h0)]
    simp only [Outcome.bind, Rfl.isFinite_fin, if_true]
    exact hbr A le_rfl le_rfl h0.ge
  · have hgA : 0 < g A := by
      apply hpos A le_rfl _ hAx'
      have : 0 < x - A := sub_pos.mpr hAx'
      linarith
    rw [if_neg (by simpa using hgA.ne')]
    rcases eq_or_lt_of_le hxB with rfl | hxB'
    · rw [if_pos (by simpa using h0)]
      simp only [Outcome.bind, Rfl.isFinite_fin, if_true]
      exact hbr x le_rfl hAx h0.ge
    · rw [if_neg (by simpa using hB hxB'), max_eq_left hAx, min_eq_left hxB]
      obtain ⟨t1, t2, t3, t4, t5⟩ := trial_left R hA hAx' (hw hAx')
      have t6 : rnd (B - x) ≠ 0 := fun h => absurd (R.eq_zero_iff.mp h) (sub_ne_zero.mpr hxB'.ne')
      have t7 : rnd (rnd (B - x) / rnd ((50 : ℚ) : α)) ≠ 0 := fun h =>
        absurd (R.eq_zero_iff.mp h) (div_ne_zero t6 t2)
      generalize ha : max (rnd (x - rnd (rnd (rnd (x - A) / rnd ((50 : ℚ) : α)) * rnd ((growth : ℚ) : α)))) A = a at t4 t5
      have hax : a ≤ x := by have : 0 < x - A := sub_pos.mpr hAx'; linarith
      have hga := hpos a t4 t5 hAx'
      have hi : gtbInit f (Rfl.fin x) (Rfl.fin A) (Rfl.fin B) =
          ⟨Rfl.fin x, Rfl.fin x, Rfl.fin (rnd (rnd (x - A) / rnd ((50 : ℚ) : α))), Rfl.fin (rnd (rnd (B - x) / rnd ((50 : ℚ) : α))),
            none, some false⟩ := by
        unfold gtbInit
        simp only [Rfl.fin_sub, Rfl.lit_eq, Rfl.fin_div _ _ t2, Rfl.feq_fin, Rat.cast_zero, R.zero]
        simp only [decide_eq_true_eq, if_neg t3.ne', if_neg t7]
        simp only [Rfl.lt_fin]
        rw [if_pos (by simpa using hAx'), hf x hAx hxB, h0]
        simp
      have hl : gtbLeft f (Rfl.fin x) (Rfl.fin A) (Rfl.fin B)
          ⟨Rfl.fin x, Rfl.fin x, Rfl.fin (rnd (rnd (x - A) / rnd ((50 : ℚ) : α))), Rfl.fin (rnd (rnd (B - x) / rnd ((50 : ℚ) : α))),
            none, some false⟩ = .ret (Rfl.fin a) (Rfl.fin x) := by
        unfold gtbLeft
        simp only [Rfl.lt_fin, Rfl.lit_eq, Rfl.fin_mul, Rfl.fin_sub, Rfl.fmax_fin, ha]
        rw [if_pos (by simpa using hAx'), hf a t4 (hax.trans hxB)]
        unfold gtbTest
        simp [hga, R.zero]
      rw [hi]
      unfold gtbLoop
      rw [hl]
      simp only [Outcome.bind, Rfl.isFinite_fin, if_true]
      exact hbr a hax t4 hga.le

end Fzero

namespace Traj
open FloatLike Fzero Interp
variable {α : Type*} [Field α] [LinearOrder α] [IsStrictOrderedRing α] {rnd : α → α}
variable {eos : Rfl rnd → Rfl rnd → Rfl rnd → Rfl rnd} {e : α → α → α → α}

/-- The cast `c` has salinity `s` and temperature `t` at pressure `x` (by the public interpolation). -/
def At (kind : PPKind) (c : Cast (Rfl rnd)) (x s t : α) : Prop :=
  interpAt kind (Rfl.fin x) c.P c.S = some (Rfl.fin s) ∧ interpAt kind (Rfl.fin x) c.P c.T = some (Rfl.fin t)

/-- A cast with data from `A` to `B`, that has `σ` and `τ` at `p`; the equation of state is a number along the cast, and gives, at
the pressure half way, a smaller value for the water well above `p` than for `σ` and `τ`, and a different one at the bottom. -/
structure FlatCast (rnd : α → α) (kind : PPKind) (eos : Rfl rnd → Rfl rnd → Rfl rnd → Rfl rnd) (e : α → α → α → α)
    (σ τ p A B : α) (c : Cast (Rfl rnd)) : Prop where
  data : ∃ k K a s t, GoodCastR c k K a s t ∧ a k = A ∧ a (K - 1) = B
  rep : rnd A = A
  ge : A ≤ p
  le : p ≤ B
  wide : A < p → |p| ≤ 2 ^ 40 * (p - A)
  same : At kind c p σ τ
  eosB : ∀ x, A ≤ x → x ≤ B → eos (Rfl.fin σ) (Rfl.fin τ) (Rfl.fin (rnd (p + x) / 2)) = Rfl.fin (e σ τ (rnd (p + x) / 2))
  eosC : ∀ x s t, A ≤ x → x ≤ B → At kind c x s t →
    eos (Rfl.fin s) (Rfl.fin t) (Rfl.fin (rnd (p + x) / 2)) = Rfl.fin (e s t (rnd (p + x) / 2))
  above : ∀ x s t, A < p → A ≤ x → x ≤ p - (p - A) / 50 → At kind c x s t → e s t (rnd (p + x) / 2) < e σ τ (rnd (p + x) / 2)
  bottom : ∀ s t, p < B → At kind c B s t → e s t (rnd (p + B) / 2) ≠ e σ τ (rnd (p + B) / 2)

variable {kind : PPKind} {σ τ p A B : α} {c : Cast (Rfl rnd)}

/-- **C158** A bottle linked to a cast that has the same water at the same pressure, with a smaller value of the equation of state
above: the neutral connection is at exactly the pressure of the bottle, in rounded arithmetic. -/
theorem ntp_flat (R : BinRound rnd) (H : FlatCast rnd kind eos e σ τ p A B c) (tol : α) (n : ℕ) :
    ntpBottleToCast (n + 1) (Rfl.fin tol) eos kind (Rfl.fin σ) (Rfl.fin τ) (Rfl.fin p) c =
      .ret (Rfl.fin σ, Rfl.fin τ, Rfl.fin p) := by
  obtain ⟨k, K, a, s, t, G, rfl, rfl⟩ := H.data
  obtain ⟨Sp, Tp, gS, gT, h1, h2, hP0, hP1, h3⟩ := G.curves (D := fun _ _ _ => True) (pr := id) R.toStdRound kind
    (fun _ _ _ _ _ _ _ => trivial)
  have htwo := G.S.two
  have hp := h3 p H.ge H.le
  have eS : gS p = σ := by have := hp.2.1.symm.trans H.same.1; exact Rfl.fin_inj.mp (Option.some.inj this)
  have eT : gT p = τ := by have := hp.2.2.1.symm.trans H.same.2; exact Rfl.fin_inj.mp (Option.some.inj this)
  have hat : ∀ x, a k ≤ x → x ≤ a (K - 1) → At kind c x (gS x) (gT x) := fun x hx hx' =>
    ⟨(h3 x hx hx').2.1, (h3 x hx hx').2.2.1⟩
  have hf : FiniteOnR rnd (potDensDiff eos (Rfl.fin σ) (Rfl.fin τ) (Rfl.fin p) (c.P.slice k K) Sp Tp)
      (fun x => rnd (e σ τ (rnd (p + x) / 2) - e (gS x) (gT x) (rnd (p + x) / 2))) (a k) (a (K - 1)) := by
    intro x hx hx'
    unfold potDensDiff
    rw [(h3 x hx hx').1]
    simp only [Rfl.fin_add, Rfl.lit_eq, Rfl.fin_mul, R.avg]
    rw [H.eosB x hx hx', H.eosC x _ _ hx hx' (hat x hx hx'), Rfl.fin_sub]
  have hr := solveRoot_exact R.toStdRound (t := tol) n H.rep H.ge H.le H.wide hf (by rw [eS, eT, sub_self, R.zero])
    (fun y hy hy' hlt => R.pos_iff.mpr (sub_pos.mpr (H.above y _ _ hlt hy hy' (hat y hy (by
      have := H.le
      have : 0 < p - a k := sub_pos.mpr hlt
      linarith)))))
    (fun hlt h => H.bottom _ _ hlt (hat _ (H.ge.trans H.le) le_rfl) (sub_eq_zero.mp (R.eq_zero_iff.mp h)).symm)
  unfold ntpBottleToCast ntpCast
  rw [G.S.vr.2]
  simp only [h1, h2]
  rw [if_pos (by omega)]
  unfold ntpPpc
  rw [hP0, hP1, hr]
  simp only [Outcome.bind, Rfl.isFinite_fin, if_true, hp.1, eS, eT]

theorem trajLoop_flat (R : BinRound rnd) {lo hi : Cast (Rfl rnd) → α} (tol : α) (n : ℕ) (cs : List (Cast (Rfl rnd)))
    (H : ∀ c ∈ cs, FlatCast rnd kind eos e σ τ p (lo c) (hi c) c) :
    trajLoop (n + 1) (Rfl.fin tol) eos kind (Rfl.fin σ, Rfl.fin τ, Rfl.fin p) cs =
      .ret (cs.map fun _ => (Rfl.fin σ, Rfl.fin τ, Rfl.fin p)) := by
  induction cs with
  | nil => rfl
  | cons c cs ih =>
    unfold trajLoop
    simp only [ntp_flat R (H c (by simp)) tol n, Outcome.bind, Rfl.isNaN_fin, ih (fun c hc => H c (by simp [hc]))]
    rfl

/-- **C158** A neutral trajectory over casts that all have the same water at the starting pressure (and a smaller value of the
equation of state above) stays at exactly this pressure, in rounded arithmetic, however many casts there are. -/
theorem trajectory_flat_partial (R : BinRound rnd) {lo hi : Cast (Rfl rnd) → α} (tol : α) (n : ℕ) (cs : List (Cast (Rfl rnd)))
    (H : ∀ c ∈ cs, FlatCast rnd kind eos e σ τ p (lo c) (hi c) c) :
    neutralTrajectory (n + 1) (Rfl.fin tol) eos kind (Rfl.fin p) cs = .ret (cs.map fun _ => (Rfl.fin σ, Rfl.fin τ, Rfl.fin p)) := by
  cases cs with
  | nil => rfl
  | cons c cs =>
    have hc := H c (by simp)
    obtain ⟨k, K, a, s, t, G, e1, e2⟩ := hc.data
    obtain ⟨Sp, Tp, gS, gT, h1, h2, hP0, hP1, h3⟩ := G.curves (D := fun _ _ _ => True) (pr := id) R.toStdRound kind
      (fun _ _ _ _ _ _ _ => trivial)
    have htwo := G.S.two
    have hp := h3 p (e1 ▸ hc.ge) (e2 ▸ hc.le)
    have eS : gS p = σ := by have := hp.2.1.symm.trans hc.same.1; exact Rfl.fin_inj.mp (Option.some.inj this)
    have eT : gT p = τ := by have := hp.2.2.1.symm.trans hc.same.2; exact Rfl.fin_inj.mp (Option.some.inj this)
    have hst : trajStart kind (Rfl.fin p) c = .ret (Rfl.fin σ, Rfl.fin τ, Rfl.fin p) := by
      unfold trajStart
      simp only [G.S.vr.2, h1, h2, hp.1, eS, eT]
      rw [if_neg]
      show ¬ K - k = 0
      omega
    unfold neutralTrajectory
    simp only [hst, Outcome.bind, Rfl.isNaN_fin, trajLoop_flat R tol n cs (fun c hc => H c (by simp [hc]))]
    rfl

/-- **C158** Whichever way the equation of state runs (density or specific volume): if its computed values differ in the right
direction at points more than `δ` above and below `p`, the neutral connection of a bottle to a cast that has the same water at
the same pressure `p` is within `δ` and the accuracy of the root finder of `p`. -/
theorem ntp_flat_near (R : BinRound rnd) {D : α → α → α → Prop} (E : EosR rnd eos e D) {k K : ℕ} {a s t : ℕ → α}
    (G : GoodCastR c k K a s t) (ha : rnd (a k) = a k) (ha' : rnd (a (K - 1)) = a (K - 1)) {tol δ : α}
    (hs : InDom kind c (a k) (a (K - 1)) D (fun x => rnd (p + x) / 2))
    (hsB : ∀ x, a k ≤ x → x ≤ a (K - 1) → D σ τ (rnd (p + x) / 2)) (hp : rnd p = p) (h1 : a k ≤ p - δ) (h2 : p + δ ≤ a (K - 1))
    (hδ : 0 < δ) (up : Bool)
    (habove : ∀ x s t, a k ≤ x → x ≤ p - δ → At kind c x s t →
      if up then e s t (rnd (p + x) / 2) < e σ τ (rnd (p + x) / 2) else e σ τ (rnd (p + x) / 2) < e s t (rnd (p + x) / 2))
    (hbelow : ∀ x s t, p + δ ≤ x → x ≤ a (K - 1) → At kind c x s t →
      if up then e σ τ (rnd (p + x) / 2) < e s t (rnd (p + x) / 2) else e s t (rnd (p + x) / 2) < e σ τ (rnd (p + x) / 2))
    (htol : 0 < tol) (n : ℕ) (hn : 5 / 2 * (a (K - 1) - a k) / tol ≤ n) :
    ∃ s' t' p', ntpBottleToCast (n + 13) (Rfl.fin tol) eos kind (Rfl.fin σ) (Rfl.fin τ) (Rfl.fin p) c =
        .ret (Rfl.fin s', Rfl.fin t', Rfl.fin p') ∧ At kind c p' s' t' ∧
      |p' - p| ≤ δ + (2 + 1 / 2 ^ 46) * (2 * (1 / 2 ^ 52) * |p'| + tol) := by
  obtain ⟨r, hr, gS, gT, hg, hcase⟩ := ntp_rounded R kind E G ha ha' hs hsB hp htol n hn
  have hAB : a k ≤ a (K - 1) := by linarith
  rcases hcase with ⟨_, hpos⟩ | ⟨p', hp', q1, q2, hroot⟩
  · exfalso
    have e1 := habove (a k) _ _ le_rfl h1 (hg _ le_rfl hAB)
    have e2 := hbelow (a (K - 1)) _ _ h2 le_rfl (hg _ hAB le_rfl)
    split_ifs at e1 e2
    · exact absurd hpos (not_lt.mpr (mul_nonpos_of_nonneg_of_nonpos (by linarith) (by linarith)))
    · exact absurd hpos (not_lt.mpr (mul_nonpos_of_nonpos_of_nonneg (by linarith) (by linarith)))
  · refine ⟨gS p', gT p', p', hp' ▸ hr, hg p' q1 q2, ?_⟩
    have hb : 0 ≤ (2 + 1 / 2 ^ 46) * (2 * (1 / 2 ^ 52) * |p'| + tol) := by
      have := abs_nonneg p'; positivity
    have near : |p' - p| < δ → |p' - p| ≤ δ + (2 + 1 / 2 ^ 46) * (2 * (1 / 2 ^ 52) * |p'| + tol) := fun h => by linarith
    rcases lt_or_ge (p - δ) p' with h3 | h3
    · rcases lt_or_ge p' (p + δ) with h4 | h4
      · exact near (abs_lt.mpr ⟨by linarith, by linarith⟩)
      · have e1 := hbelow p' _ _ h4 q2 (hg p' q1 q2)
        rcases hroot with h0 | ⟨q, q3, q4, q5, q6⟩
        · split_ifs at e1 <;> linarith
        · have : q < p + δ := by
            by_contra hq
            have e2 := hbelow q _ _ (not_lt.mp hq) q4 (hg q q3 q4)
            split_ifs at e1 e2
            · exact absurd q6 (not_lt.mpr (mul_nonneg_of_nonpos_of_nonpos (by linarith) (by linarith)))
            · exact absurd q6 (not_lt.mpr (mul_nonneg (by linarith) (by linarith)))
          have e3 := abs_le.mp q5
          rw [abs_of_nonneg (by linarith)]
          linarith [e3.1]
    · have e1 := habove p' _ _ q1 h3 (hg p' q1 q2)
      rcases hroot with h0 | ⟨q, q3, q4, q5, q6⟩
      · split_ifs at e1 <;> linarith
      · have : p - δ < q := by
          by_contra hq
          have e2 := habove q _ _ q3 (not_lt.mp hq) (hg q q3 q4)
          split_ifs at e1 e2
          · exact absurd q6 (not_lt.mpr (mul_nonneg (by linarith) (by linarith)))
          · exact absurd q6 (not_lt.mpr (mul_nonneg_of_nonpos_of_nonpos (by linarith) (by linarith)))
        have e3 := abs_le.mp q5
        rw [abs_of_nonpos (by linarith)]
        linarith [e3.2]

/-! ## The property fails for specific volume -/

/-- a cast with salinities 30, 31, 40 at pressures 0, 50, 300, in double precision -/
def bentCast : Cast (Rfl Rounding53.rnd53) :=
  ⟨⟨3, fun i => Rfl.fin (if i = 0 then 30 else if i = 1 then 31 else 40)⟩, ⟨3, fun _ => Rfl.fin 0⟩,
    ⟨3, fun i => Rfl.fin (if i = 0 then 0 else if i = 1 then 50 else 300)⟩⟩

/-- **C158** (violation) With an equation of state that decreases downwards, such as specific volume (the default), a neutral
trajectory over identical casts, started at 50 with the default tolerance, drifts upwards at every cast. -/
theorem trajectory_flat_false : ∃ s1 p1 s2 p2 s3 p3 : ℚ,
    neutralTrajectory 40 (Rfl.fin (1 / 10000)) (fun s _ _ => lit 1000 - s) .linear (Rfl.fin 50)
      [bentCast, bentCast, bentCast, bentCast] =
      .ret [(Rfl.fin 31, Rfl.fin 0, Rfl.fin 50), (Rfl.fin s1, Rfl.fin 0, Rfl.fin p1), (Rfl.fin s2, Rfl.fin 0, Rfl.fin p2),
        (Rfl.fin s3, Rfl.fin 0, Rfl.fin p3)] ∧ p1 < 50 ∧ p2 < p1 ∧ p3 < p2 :=
  ⟨4362862137942143/140737488355328, 3518437182057577/70368744177664, 8725724273738269/281474976710656,
    7036874310464731/140737488355328, 8725724271592231/281474976710656, 439804641050861/8796093022208,
    by decide +kernel, by decide +kernel, by decide +kernel, by decide +kernel⟩

/-- With density instead, on the same casts, it does not move. -/
example : neutralTrajectory 40 (Rfl.fin (1 / 10000)) (fun s _ _ => s) .linear (Rfl.fin 50)
      [bentCast, bentCast, bentCast, bentCast] =
      .ret [(Rfl.fin 31, Rfl.fin 0, Rfl.fin 50), (Rfl.fin 31, Rfl.fin 0, Rfl.fin 50), (Rfl.fin 31, Rfl.fin 0, Rfl.fin 50),
        (Rfl.fin 31, Rfl.fin 0, Rfl.fin 50)] := by decide +kernel

/-! ## The hypotheses are met -/

section
variable {rnd : ℝ → ℝ}

/-- salinity and temperature of the example cast, computed with rounding -/
theorem exAt (R : BinRound rnd) {x s t : ℝ} (hx : 0 ≤ x) (hx' : x ≤ 4) (h : At .linear (exCastR rnd) x s t) :
    |s - (34 + x)| ≤ 4000 / 2 ^ 53 ∧ |t - (8 - x)| ≤ 4000 / 2 ^ 53 ∧ ∀ q, 0 ≤ q → q ≤ 4 → exBox.In s t q := by
  obtain ⟨gS, gT, _, _, hin⟩ := (exCastBox R).inside R.toStdRound .linear
  obtain ⟨i1, i2, _, i4⟩ := hin x (by norm_num [exA]; exact hx) (by norm_num [exA]; exact hx')
  obtain ⟨j1, j2, j3⟩ := i4 s t h.1 h.2
  have e := exLines (rnd := rnd) hx hx'
  have e1 : gS x = 34 + x := Fl.fin.inj (Option.some.inj (i1.symm.trans e.1))
  have e2 : gT x = 8 - x := Fl.fin.inj (Option.some.inj (i2.symm.trans e.2))
  rw [e1] at j2
  rw [e2] at j3
  exact ⟨j2, j3, fun q h1 h2 => j1 q (by norm_num [exBox]; exact h1) (by norm_num [exBox]; exact h2)⟩

theorem exAtDiff (R : BinRound rnd) {x s t : ℝ} (hx : 0 ≤ x) (hx' : x ≤ 4) (h : At .linear (exCastR rnd) x s t) :
    |rnd (s - t) - (26 + 2 * x)| ≤ 1 / 1000 := by
  obtain ⟨h1, h2, _⟩ := exAt R hx hx' h
  have h3 := R.err (s - t)
  have h1' := abs_le.mp h1
  have h2' := abs_le.mp h2
  have h4 : |s - t| ≤ 50 := by rw [abs_le]; constructor <;> norm_num at * <;> linarith [h1'.1, h1'.2, h2'.1, h2'.2]
  have h5 : |s - t| / 2 ^ 53 ≤ 1 / 10000 := by
    rw [div_le_iff₀ (by norm_num)]; norm_num; linarith
  have h3' := abs_le.mp (h3.trans h5)
  have h6 : (4000 : ℝ) / 2 ^ 53 ≤ 1 / 10000 := by norm_num
  rw [abs_le]
  constructor <;> linarith [h1'.1, h1'.2, h2'.1, h2'.2, h3'.1, h3'.2]

/-- The example cast meets the hypotheses at pressure 1, with density `s - t`. -/
theorem exFlat (R : BinRound rnd) : ∃ σ τ, FlatCast rnd .linear (fun s t _ => s - t) (fun s t _ => rnd (s - t)) σ τ 1 0 4 (exCastR rnd) := by
  obtain ⟨_, _, gS, gT, _, _, _, _, h3⟩ := (exGoodR (rnd := rnd)).curves (D := fun _ _ _ => True) (pr := id) R.toStdRound .linear
    (fun _ _ _ _ _ _ _ => trivial)
  have h1 := h3 1 (by norm_num [exA]) (by norm_num [exA])
  have hat : At .linear (exCastR rnd) 1 (gS 1) (gT 1) := ⟨h1.2.1, h1.2.2.1⟩
  have hd := abs_le.mp (exAtDiff R (by norm_num) (by norm_num) hat)
  refine ⟨gS 1, gT 1, ⟨1, 4, exA, exS, exT, exGoodR, by norm_num [exA], by norm_num [exA]⟩, R.zero, by norm_num, by norm_num,
    fun _ => by norm_num, hat, ?_, ?_, ?_, ?_⟩
  · intro x _ _; simp only [Rfl.fin_sub]
  · intro x s t _ _ _; simp only [Rfl.fin_sub]
  · intro x s t _ hx hx' h
    have := abs_le.mp (exAtDiff R hx (by linarith) h)
    linarith [this.2, hd.1]
  · intro s t _ h
    have := abs_le.mp (exAtDiff R (by norm_num) (by norm_num) h)
    intro e
    linarith [this.1, hd.2]

/-- A trajectory over five copies of the example cast, with any rounding of double precision accuracy. -/
example (R : BinRound rnd) : ∃ σ τ, neutralTrajectory 1 (Rfl.fin (1 / 10000)) (fun s t _ => s - t) .linear (Rfl.fin 1)
    (List.replicate 5 (exCastR rnd)) = .ret (List.replicate 5 (Rfl.fin σ, Rfl.fin τ, Rfl.fin 1)) := by
  obtain ⟨σ, τ, h⟩ := exFlat R
  refine ⟨σ, τ, ?_⟩
  have := trajectory_flat_partial R (lo := fun _ => 0) (hi := fun _ => 4) (1 / 10000) 0 (List.replicate 5 (exCastR rnd))
    (fun c hc => by rw [List.eq_of_mem_replicate hc]; exact h)
  simpa using this

/-- The same cast with the opposite equation of state: within the accuracy of the root finder. -/
example (R : BinRound rnd) : ∃ σ τ s' t' p', At .linear (exCastR rnd) 1 σ τ ∧
    ntpBottleToCast 113 (Rfl.fin (1 / 10)) (fun s t _ => -(s - t)) .linear (Rfl.fin σ) (Rfl.fin τ)
    (Rfl.fin 1) (exCastR rnd) = .ret (Rfl.fin s', Rfl.fin t', Rfl.fin p') ∧
    |p' - 1| ≤ 1 / 100 + (2 + 1 / 2 ^ 46) * (2 * (1 / 2 ^ 52) * |p'| + 1 / 10) := by
  obtain ⟨σ, τ, h⟩ := exFlat R
  have hd := abs_le.mp (exAtDiff R (by norm_num) (by norm_num) h.same)
  obtain ⟨s', t', p', h1, _, h2⟩ := ntp_flat_near (kind := .linear) (σ := σ) (τ := τ) (p := 1) (tol := 1 / 10) (δ := 1 / 100) R
    (D := fun _ _ _ => True) (eos := fun s t _ => -(s - t)) (e := fun s t _ => -rnd (s - t))
    (fun s t p _ => by simp only [Rfl.fin_sub, Rfl.fin_neg]) (exGoodR (rnd := rnd)) (exCastBox R).rep.1 (exCastBox R).rep.2
    (fun _ _ _ _ _ _ _ => trivial) (fun _ _ _ => trivial) R.one (by norm_num [exA]) (by norm_num [exA]) (by norm_num) false
    (fun x s t hx hx' hat => by
      have := abs_le.mp (exAtDiff R (by norm_num [exA] at hx; exact hx) (by norm_num at hx'; linarith) hat)
      norm_num at hx'
      simp only [Bool.false_eq_true, if_false]
      linarith [this.2, hd.1])
    (fun x s t hx hx' hat => by
      have := abs_le.mp (exAtDiff R (by norm_num at hx; linarith) (by norm_num [exA] at hx'; exact hx') hat)
      norm_num at hx
      simp only [Bool.false_eq_true, if_false]
      linarith [this.1, hd.2])
    (by norm_num) 100 (by norm_num [exA])
  exact ⟨σ, τ, s', t', p', h.same, h1, h2⟩

end

end Traj
