import Verif.Lemmas.ColumnRound
import Verif.Props.VertSolve
import Verif.Lemmas.FzeroClosed

/-!
# Neutral tangent planes and vertical solves in rounded arithmetic (C124)
-/

set_option linter.unusedSectionVars false

namespace Traj
open FloatLike Fzero Interp

variable {α : Type*} [Field α] [LinearOrder α] [IsStrictOrderedRing α] {rnd : α → α}

/-- A cast held in rounded arithmetic, with data at the sites `k ≤ i < K`. -/
structure GoodCastR (c : Cast (Rfl rnd)) (k K : ℕ) (a s t : ℕ → α) : Prop where
  S : ColR c.P c.S k K a s
  T : ColR c.P c.T k K a t

/-- The computed equation of state is a number for `(s, t, p)` in `D`; `e` is the computed value. -/
def EosR (rnd : α → α) (eos : Rfl rnd → Rfl rnd → Rfl rnd → Rfl rnd) (e : α → α → α → α) (D : α → α → α → Prop) : Prop :=
  ∀ s t p, D s t p → eos (Rfl.fin s) (Rfl.fin t) (Rfl.fin p) = Rfl.fin (e s t p)

/-- The salinity and temperature interpolated by the public function at pressures `x` between `A` and `B` are in the domain
of the equation of state, at the pressure `pr x` where it is evaluated. -/
def InDom (kind : PPKind) (c : Cast (Rfl rnd)) (A B : α) (D : α → α → α → Prop) (pr : α → α) : Prop :=
  ∀ x s t, A ≤ x → x ≤ B → interpAt kind (Rfl.fin x) c.P c.S = some (Rfl.fin s) →
    interpAt kind (Rfl.fin x) c.P c.T = some (Rfl.fin t) → D s t (pr x)

/-- `p` is a root of `res` as far as rounded arithmetic can tell: `res` vanishes at `p` or has opposite signs at `p` and at a
point within (slightly more than) `2*(2*eps*|p|+tol)` of `p`. -/
def RootR (res : α → α) (A B tol p : α) : Prop :=
  res p = 0 ∨ ∃ q, A ≤ q ∧ q ≤ B ∧ |q - p| ≤ (2 + 1 / 2 ^ 46) * (2 * (1 / 2 ^ 52) * |p| + tol) ∧ res p * res q < 0

/-- Specification of the result `r` on a cast with data, in rounded arithmetic: three NaNs when the residuals at both ends have
the same strict sign, or a point `p` of the data range, with `s` and `t` the interpolants at `p`, next to a sign change of
the residual along the cast. -/
def SolvedR (kind : PPKind) (c : Cast (Rfl rnd)) (A B : α) (res : α → α → α → α) (tol : α)
    (r : Rfl rnd × Rfl rnd × Rfl rnd) : Prop :=
  ∃ gS gT : α → α,
    (∀ x, A ≤ x → x ≤ B → interpAt kind (Rfl.fin x) c.P c.S = some (Rfl.fin (gS x)) ∧
      interpAt kind (Rfl.fin x) c.P c.T = some (Rfl.fin (gT x))) ∧
    ((r = (Rfl.qnan, Rfl.qnan, Rfl.qnan) ∧ 0 < res (gS A) (gT A) A * res (gS B) (gT B) B) ∨
      ∃ p, r = (Rfl.fin (gS p), Rfl.fin (gT p), Rfl.fin p) ∧ A ≤ p ∧ p ≤ B ∧ RootR (fun x => res (gS x) (gT x) x) A B tol p)

theorem mul_pos_rnd (R : StdRound rnd) (x y : α) : (0 < rnd x * rnd y ↔ 0 < x * y) ∧ (rnd x * rnd y < 0 ↔ x * y < 0) := by
  rw [mul_pos_iff, mul_pos_iff, mul_neg_iff, mul_neg_iff, R.pos_iff, R.pos_iff, R.neg_iff, R.neg_iff]
  exact ⟨Iff.rfl, Iff.rfl⟩

/-- Search and solve in rounded arithmetic, for a function of the form `rnd (d x)`. -/
theorem search_solveR (R : StdRound rnd) {f : Rfl rnd → Rfl rnd} {d : α → α} {x A B t : α} (n : ℕ)
    (hAB : A ≤ B) (hx : rnd x = x) (hA : rnd A = A) (hB : rnd B = B)
    (hf : ∀ y, A ≤ y → y ≤ B → f (Rfl.fin y) = Rfl.fin (rnd (d y))) (ht : 0 < t) (hn : 5 / 2 * (B - A) / t ≤ n) :
    (guessToBounds (n + 13) f (Rfl.fin x) (Rfl.fin A) (Rfl.fin B) = .ret (Rfl.qnan, Rfl.qnan) ∧ 0 < d A * d B) ∨
    ∃ a b r, guessToBounds (n + 13) f (Rfl.fin x) (Rfl.fin A) (Rfl.fin B) = .ret (Rfl.fin a, Rfl.fin b) ∧
      brent (n + 13) f (Rfl.fin a) (Rfl.fin b) (Rfl.fin t) = .ret (Rfl.fin r) ∧ A ≤ r ∧ r ≤ B ∧ RootR d A B t r := by
  have hf0 : FiniteOnR rnd f (fun y => rnd (d y)) A B := hf
  rcases guessToBounds_rounded R (x := x) (n + 13) hAB hx hA hB hf0 (by omega) with ⟨h, h1⟩ | ⟨a, b, h, h1, h2, h3, h4, _⟩
  · exact Or.inl ⟨h, (mul_pos_rnd R _ _).1.mp h1⟩
  · right
    have hf' : FiniteOnR rnd f (fun y => rnd (d y)) a b := fun y h5 h6 => hf y (h1.trans h5) (h6.trans h3)
    have hn' : 5 / 2 * (b - a) / t ≤ n := by
      refine le_trans ?_ hn
      apply div_le_div_of_nonneg_right _ ht.le
      linarith
    rcases brent_rounded R n h2 hf' ht hn' with ⟨e, _⟩ | ⟨_, r, hr, r1, r2, r3⟩
    · exact absurd e (not_lt.mpr h4)
    · refine ⟨a, b, r, h, hr 12, h1.trans r1, r2.trans h3, ?_⟩
      rcases r3 with r3 | ⟨c, c1, c2, c3, c4⟩
      · exact Or.inl ((R.eq_zero_iff).mp r3)
      · exact Or.inr ⟨c, h1.trans c1, c2.trans h3, c3, (mul_pos_rnd R _ _).2.mp c4⟩

variable {c : Cast (Rfl rnd)} {k K : ℕ} {a s t : ℕ → α} {eos : Rfl rnd → Rfl rnd → Rfl rnd → Rfl rnd} {e : α → α → α → α}
  {D : α → α → α → Prop}

/-- The interpolants of a good cast in rounded arithmetic. -/
theorem GoodCastR.curves (R : StdRound rnd) (kind : PPKind) (G : GoodCastR c k K a s t) {pr : α → α}
    (hs : InDom kind c (a k) (a (K - 1)) D pr) :
    ∃ (Sp Tp : PPC (Rfl rnd)) (gS gT : α → α),
      ppcFn kind (c.P.slice k K) (c.S.slice k K) = some Sp ∧ ppcFn kind (c.P.slice k K) (c.T.slice k K) = some Tp ∧
      (c.P.slice k K).get 0 = Rfl.fin (a k) ∧ (c.P.slice k K).get ((c.P.slice k K).size - 1) = Rfl.fin (a (K - 1)) ∧
      (∀ x, a k ≤ x → x ≤ a (K - 1) →
        ppval1NonanTwo (Rfl.fin x) (c.P.slice k K) Sp Tp 0 = (Rfl.fin (gS x), Rfl.fin (gT x)) ∧
        interpAt kind (Rfl.fin x) c.P c.S = some (Rfl.fin (gS x)) ∧
        interpAt kind (Rfl.fin x) c.P c.T = some (Rfl.fin (gT x)) ∧ D (gS x) (gT x) (pr x)) := by
  obtain ⟨Sp, gS, _, h1, h2, _⟩ := G.S.curve R kind
  obtain ⟨Tp, gT, _, i1, i2, _⟩ := G.T.curve R kind
  have htwo := G.S.two
  refine ⟨Sp, Tp, gS, gT, h1, i1, G.S.hX k (le_refl _) (by omega), ?_, ?_⟩
  · show c.P.get (k + (K - k - 1)) = _
    rw [show k + (K - k - 1) = K - 1 by omega]
    exact G.S.hX (K - 1) (by omega) (by omega)
  · intro x hx hx'
    rw [ppval1NonanTwo_eq, (h2 x hx hx').1, (i2 x hx hx').1]
    exact ⟨rfl, (h2 x hx hx').2.1, (i2 x hx hx').2.1, hs x _ _ hx hx' (h2 x hx hx').2.1 (i2 x hx hx').2.1⟩

/-- **C124** `ntp_bottle_to_cast` in rounded arithmetic on a cast with two or more valid sites, for any rounding of double
precision accuracy (no overflow or underflow) and any computed equation of state: with enough loop passes it returns;
either three NaNs and the computed density differences at the two ends of the cast have the same strict sign, or a point of
the data range next to a sign change of the computed difference, with `s` and `t` the interpolants there. -/
theorem ntp_rounded (R : BinRound rnd) (kind : PPKind) (E : EosR rnd eos e D) (G : GoodCastR c k K a s t)
    (ha : rnd (a k) = a k) (ha' : rnd (a (K - 1)) = a (K - 1)) {sB tB pB tol : α}
    (hs : InDom kind c (a k) (a (K - 1)) D (fun p => rnd (pB + p) / 2))
    (hsB : ∀ p, a k ≤ p → p ≤ a (K - 1) → D sB tB (rnd (pB + p) / 2))
    (hpB : rnd pB = pB) (htol : 0 < tol) (n : ℕ)
    (hn : 5 / 2 * (a (K - 1) - a k) / tol ≤ n) :
    ∃ r, ntpBottleToCast (n + 13) (Rfl.fin tol) eos kind (Rfl.fin sB) (Rfl.fin tB) (Rfl.fin pB) c = .ret r ∧
      SolvedR kind c (a k) (a (K - 1))
        (fun s t p => e sB tB (rnd (pB + p) / 2) - e s t (rnd (pB + p) / 2))
        tol r := by
  obtain ⟨Sp, Tp, gS, gT, h1, h2, hP0, hP1, h3⟩ := G.curves R.toStdRound kind hs
  have htwo := G.S.two
  have hAB := G.S.a_le
  have hf : ∀ x, a k ≤ x → x ≤ a (K - 1) →
      potDensDiff eos (Rfl.fin sB) (Rfl.fin tB) (Rfl.fin pB) (c.P.slice k K) Sp Tp (Rfl.fin x) =
      Rfl.fin (rnd (e sB tB (rnd (pB + x) / 2) -
        e (gS x) (gT x) (rnd (pB + x) / 2))) := by
    intro x hx hx'
    unfold potDensDiff
    rw [(h3 x hx hx').1]
    simp only [Rfl.fin_add, Rfl.lit_eq, Rfl.fin_mul, R.avg]
    rw [E _ _ _ (hsB x hx hx'), E _ _ _ (h3 x hx hx').2.2.2, Rfl.fin_sub]
  unfold ntpBottleToCast ntpCast
  rw [G.S.vr.2]
  simp only [h1, h2]
  rw [if_pos (by omega)]
  unfold ntpPpc solveRoot
  rw [hP0, hP1]
  rcases search_solveR R.toStdRound (x := pB) n hAB hpB ha ha' hf htol hn with ⟨h, h'⟩ | ⟨lb, ub, r, hb, hr, r1, r2, r3⟩
  · rw [h]
    exact ⟨_, rfl, gS, gT, fun x hx hx' => ⟨(h3 x hx hx').2.1, (h3 x hx hx').2.2.1⟩, Or.inl ⟨rfl, h'⟩⟩
  · refine ⟨(Rfl.fin (gS r), Rfl.fin (gT r), Rfl.fin r), ?_, gS, gT,
      fun x hx hx' => ⟨(h3 x hx hx').2.1, (h3 x hx hx').2.2.1⟩, Or.inr ⟨r, rfl, r1, r2, r3⟩⟩
    rw [hb]
    simp only [Outcome.bind, Rfl.isFinite_fin, if_true, hr]
    rw [(h3 r r1 r2).1]

/-! ## Trajectories -/

/-- The numbers that rounding leaves alone (and NaN, infinities) contain every sum and difference. -/
theorem rep_closed (hid : ∀ x, rnd (rnd x) = rnd x) : Closed (fun x : Rfl rnd => ∀ z, x = Rfl.fin z → rnd z = z) := by
  have hr : ∀ (u : Fl α) (z : α), Rfl.round rnd u = Fl.fin z → rnd z = z := by
    intro u z h
    cases u with
    | fin w =>
      have : rnd w = z := by
        have h' : (Fl.fin (rnd w) : Fl α) = Fl.fin z := h
        exact Fl.fin.inj h'
      rw [← this]; exact hid w
    | nan => exact absurd (show (Fl.nan : Fl α) = Fl.fin z from h) (by simp)
    | ninf => exact absurd (show (Fl.ninf : Fl α) = Fl.fin z from h) (by simp)
    | pinf => exact absurd (show (Fl.pinf : Fl α) = Fl.fin z from h) (by simp)
  refine ⟨fun x y => hr _, fun x y => hr _, ?_, ?_, ?_⟩
  · intro x y hx hy
    unfold FloatLike.fmin
    split_ifs <;> assumption
  · intro x y hx hy
    unfold FloatLike.fmax
    split_ifs <;> assumption
  · intro z h
    exact absurd h.symm (Rfl.fin_ne_qnan z)

/-- A cast held in rounded arithmetic whose data is well formed, with pressures between `l` and `u`, interpolated salinity and
temperature in the domain `D` of the equation of state (for pressures between `l` and `u`), whose first and
last pressures are not changed by rounding, and short enough for `n` solver passes. -/
def CastOKR (kind : PPKind) (D : α → α → α → Prop) (l u tol : α) (n : ℕ) (c : Cast (Rfl rnd)) : Prop :=
  ∃ k K a s t, GoodCastR c k K a s t ∧ (∀ q, l ≤ q → q ≤ u → InDom kind c (a k) (a (K - 1)) D (fun _ => q)) ∧
    l ≤ a k ∧ a (K - 1) ≤ u ∧ rnd (a k) = a k ∧ rnd (a (K - 1)) = a (K - 1) ∧ 5 / 2 * (a (K - 1) - a k) / tol ≤ n

/-- Specification of one link of a trajectory: the bottle `b` is linked to the point `b'` of the cast `c`. -/
def LinkR (kind : PPKind) (e : α → α → α → α) (tol : α) (b : Rfl rnd × Rfl rnd × Rfl rnd) (c : Cast (Rfl rnd))
    (b' : Rfl rnd × Rfl rnd × Rfl rnd) : Prop :=
  ∃ sB tB pB k K a s t, b = (Rfl.fin sB, Rfl.fin tB, Rfl.fin pB) ∧ GoodCastR c k K a s t ∧
    SolvedR kind c (a k) (a (K - 1))
      (fun s t p => e sB tB (rnd (pB + p) / 2) - e s t (rnd (pB + p) / 2)) tol b'

theorem ntp_linkR (R : BinRound rnd) (kind : PPKind) (E : EosR rnd eos e D) {l u : α} (hl : rnd l = l) (hu : rnd u = u)
    {sB tB pB tol : α} (hB : ∀ q, l ≤ q → q ≤ u → D sB tB q) (hlB : l ≤ pB) (huB : pB ≤ u) (hpB : rnd pB = pB) (htol : 0 < tol)
    {n : ℕ} (h : CastOKR kind D l u tol n c) :
    ∃ b', ntpBottleToCast (n + 13) (Rfl.fin tol) eos kind (Rfl.fin sB) (Rfl.fin tB) (Rfl.fin pB) c = .ret b' ∧
      LinkR kind e tol (Rfl.fin sB, Rfl.fin tB, Rfl.fin pB) c b' ∧
      (b' = (Rfl.qnan, Rfl.qnan, Rfl.qnan) ∨ ∃ s1 t1 p1, b' = (Rfl.fin s1, Rfl.fin t1, Rfl.fin p1) ∧
        (∀ q, l ≤ q → q ≤ u → D s1 t1 q) ∧ l ≤ p1 ∧ p1 ≤ u ∧ rnd p1 = p1) := by
  obtain ⟨k, K, a, s, t, G, hs, hlo, hhi, ha, ha', hn⟩ := h
  have hav : ∀ p, a k ≤ p → p ≤ a (K - 1) → l ≤ rnd (pB + p) / 2 ∧ rnd (pB + p) / 2 ≤ u := fun p h1 h2 =>
    R.avg_mem hl hu hlB (hlo.trans h1) huB (h2.trans hhi)
  obtain ⟨r, hr, hS⟩ := ntp_rounded R kind E G ha ha' (pB := pB) (fun x s t h1 h2 h3 h4 =>
    hs _ (hav x h1 h2).1 (hav x h1 h2).2 x s t h1 h2 h3 h4) (fun p h1 h2 => hB _ (hav p h1 h2).1 (hav p h1 h2).2) hpB htol n hn
  refine ⟨r, hr, ⟨sB, tB, pB, k, K, a, s, t, rfl, G, hS⟩, ?_⟩
  obtain ⟨gS, gT, hi, h | ⟨p, hp, p1, p2, _⟩⟩ := hS
  · exact Or.inl h.1
  · right
    refine ⟨gS p, gT p, p, hp, fun q q1 q2 => hs q q1 q2 p _ _ p1 p2 (hi p p1 p2).1 (hi p p1 p2).2, hlo.trans p1, p2.trans hhi, ?_⟩
    have hc := ntp_closed (rep_closed R.idem) (c := c) (fun z hz => by rw [← Rfl.fin_inj.mp hz]; exact hpB) (by
      rw [G.S.vr.2]
      intro _
      have htwo := G.S.two
      dsimp only
      rw [G.S.hX k (le_refl _) (by omega), G.S.hX (K - 1) (by omega) (by omega)]
      exact ⟨fun z hz => by rw [← Rfl.fin_inj.mp hz]; exact ha, fun z hz => by rw [← Rfl.fin_inj.mp hz]; exact ha'⟩) hr
    rw [hp] at hc
    exact hc p rfl

theorem trajLoop_rounded (R : BinRound rnd) (kind : PPKind) (E : EosR rnd eos e D) {l u : α} (hl : rnd l = l) (hu : rnd u = u)
    {tol : α} (htol : 0 < tol) {n : ℕ} (cs : List (Cast (Rfl rnd))) :
    (∀ c ∈ cs, CastOKR kind D l u tol n c) → ∀ sB tB pB : α, (∀ q, l ≤ q → q ≤ u → D sB tB q) → l ≤ pB → pB ≤ u → rnd pB = pB →
    ∃ out, trajLoop (n + 13) (Rfl.fin tol) eos kind (Rfl.fin sB, Rfl.fin tB, Rfl.fin pB) cs = .ret out ∧
      Linked (LinkR kind e tol) (Rfl.fin sB, Rfl.fin tB, Rfl.fin pB) cs out := by
  induction cs with
  | nil => intro _ _ _ _ _ _ _ _; exact ⟨[], rfl, rfl⟩
  | cons c cs ih =>
    intro h sB tB pB hB hlB huB hpB
    obtain ⟨b, hb, hlk, hb'⟩ := ntp_linkR R kind E hl hu hB hlB huB hpB htol (h c (by simp))
    unfold trajLoop
    simp only [hb, Outcome.bind]
    rcases hb' with rfl | ⟨s1, t1, p1, rfl, hs1, hlp, hup, hp1⟩
    · refine ⟨_, rfl, _, _, rfl, fun hn => ?_, fun _ => hlk, linked_nan rfl _ cs _ rfl⟩
      cases hn
    · obtain ⟨out, ho, ho'⟩ := ih (fun c hc => h c (by simp [hc])) s1 t1 p1 hs1 hlp hup hp1
      simp only [Rfl.isNaN_fin, ho]
      exact ⟨(Rfl.fin s1, Rfl.fin t1, Rfl.fin p1) :: out, rfl, _, _, rfl, fun hn => (by cases hn), fun _ => hlk, ho'⟩

/-- **C124** `neutral_trajectory` in rounded arithmetic, on well formed casts and a start pressure inside the data of the first:
it returns; the first bottle is interpolated from the first cast, and every later one is three NaNs or a point of the next cast
next to a sign change of the computed density difference from the bottle before it; after a NaN everything is NaN. -/
theorem trajectory_rounded (R : BinRound rnd) (kind : PPKind) (E : EosR rnd eos e D) {l u : α} (hl : rnd l = l) (hu : rnd u = u)
    {tol p0 : α} (htol : 0 < tol) {n : ℕ} (G : GoodCastR c k K a s t)
    (hs : ∀ q, l ≤ q → q ≤ u → InDom kind c (a k) (a (K - 1)) D (fun _ => q)) (hlo : l ≤ a k) (hhi : a (K - 1) ≤ u)
    (hp : a k ≤ p0) (hp' : p0 ≤ a (K - 1)) (hp0 : rnd p0 = p0)
    (cs : List (Cast (Rfl rnd))) (hcs : ∀ c ∈ cs, CastOKR kind D l u tol n c) :
    ∃ s0 t0 rest, neutralTrajectory (n + 13) (Rfl.fin tol) eos kind (Rfl.fin p0) (c :: cs) =
        .ret ((Rfl.fin s0, Rfl.fin t0, Rfl.fin p0) :: rest) ∧
      interpAt kind (Rfl.fin p0) c.P c.S = some (Rfl.fin s0) ∧ interpAt kind (Rfl.fin p0) c.P c.T = some (Rfl.fin t0) ∧
      Linked (LinkR kind e tol) (Rfl.fin s0, Rfl.fin t0, Rfl.fin p0) cs rest := by
  have hlp : l ≤ p0 := hlo.trans hp
  have hup : p0 ≤ u := hp'.trans hhi
  obtain ⟨Sp, Tp, gS, gT, h1, h2, _, _, h3⟩ := G.curves R.toStdRound kind (hs p0 hlp hup)
  have htwo := G.S.two
  obtain ⟨out, ho, ho'⟩ := trajLoop_rounded R kind E hl hu htol cs hcs (gS p0) (gT p0) p0
    (fun q q1 q2 => hs q q1 q2 p0 _ _ hp hp' (h3 p0 hp hp').2.1 (h3 p0 hp hp').2.2.1) hlp hup hp0
  refine ⟨gS p0, gT p0, out, ?_, (h3 p0 hp hp').2.1, (h3 p0 hp hp').2.2.1, ho'⟩
  have hst : trajStart kind (Rfl.fin p0) c = .ret (Rfl.fin (gS p0), Rfl.fin (gT p0), Rfl.fin p0) := by
    unfold trajStart
    simp only [G.S.vr.2, h1, h2, (h3 p0 hp hp').1]
    rw [if_neg]
    show ¬ K - k = 0
    omega
  unfold neutralTrajectory
  simp only [hst, Outcome.bind, Rfl.isNaN_fin, ho]
  rfl

end Traj

namespace VertSolve
open FloatLike Fzero Interp Traj
variable {α : Type*} [Field α] [LinearOrder α] [IsStrictOrderedRing α] {rnd : α → α}
variable {c : Cast (Rfl rnd)} {k K : ℕ} {a s t : ℕ → α} {eos : Rfl rnd → Rfl rnd → Rfl rnd → Rfl rnd} {e : α → α → α → α}
  {D : α → α → α → Prop}

/-- The vertical solve on one cast, for a residual that is a number along the cast. -/
theorem vertsolve1_rounded (R : BinRound rnd) (kind : PPKind) (G : GoodCastR c k K a s t) {pr : α → α}
    (hs : InDom kind c (a k) (a (K - 1)) D pr) (ha : rnd (a k) = a k) (ha' : rnd (a (K - 1)) = a (K - 1))
    {zf : Arr (Rfl rnd) → PPC (Rfl rnd) → PPC (Rfl rnd) → Rfl rnd → Rfl rnd} {res : α → α → α → α} {tol : α} (htol : 0 < tol)
    (hz : ∀ P Sp Tp x s' t', a k ≤ x → x ≤ a (K - 1) →
      ppval1NonanTwo (Rfl.fin x) P Sp Tp 0 = (Rfl.fin s', Rfl.fin t') → D s' t' (pr x) →
      zf P Sp Tp (Rfl.fin x) = Rfl.fin (rnd (res s' t' x)))
    (n : ℕ) (hn : 5 / 2 * (a (K - 1) - a k) / tol ≤ n) :
    ∃ r, vertsolve1 (n + 13) (Rfl.fin tol) kind zf c = .ret r ∧ SolvedR kind c (a k) (a (K - 1)) res tol r := by
  obtain ⟨Sp, Tp, gS, gT, h1, h2, hP0, hP1, h3⟩ := G.curves R.toStdRound kind hs
  have htwo := G.S.two
  have hAB := G.S.a_le
  have hpub : ∀ x, a k ≤ x → x ≤ a (K - 1) → interpAt kind (Rfl.fin x) c.P c.S = some (Rfl.fin (gS x)) ∧
      interpAt kind (Rfl.fin x) c.P c.T = some (Rfl.fin (gT x)) :=
    fun x hx hx' => ⟨(h3 x hx hx').2.1, (h3 x hx hx').2.2.1⟩
  have hf : ∀ x, a k ≤ x → x ≤ a (K - 1) →
      zf (c.P.slice k K) Sp Tp (Rfl.fin x) = Rfl.fin (rnd (res (gS x) (gT x) x)) :=
    fun x hx hx' => hz _ _ _ _ _ _ hx hx' (h3 x hx hx').1 (h3 x hx hx').2.2.2
  unfold vertsolve1
  simp only [G.S.vr.2, h1, h2, hP0, hP1, Rfl.fin_add, Rfl.fin_mul, Rfl.lit_eq, R.avg]
  rw [if_pos (by omega)]
  rcases search_solveR R.toStdRound (x := rnd (a k + a (K - 1)) / 2) n hAB (by rw [R.half, R.idem]) ha ha' hf htol hn with
    ⟨h, h'⟩ | ⟨lb, ub, r, hb, hr, r1, r2, r3⟩
  · rw [h]
    exact ⟨_, rfl, gS, gT, hpub, Or.inl ⟨rfl, h'⟩⟩
  · refine ⟨(Rfl.fin (gS r), Rfl.fin (gT r), Rfl.fin r), ?_, gS, gT, hpub, Or.inr ⟨r, rfl, r1, r2, r3⟩⟩
    rw [hb]
    simp only [Outcome.bind, Rfl.isFinite_fin, if_true, hr, (h3 r r1 r2).1]

/-- **C124** Potential density surface on one cast, in rounded arithmetic. -/
theorem potential_rounded (R : BinRound rnd) (kind : PPKind) (E : EosR rnd eos e D)
    (G : GoodCastR c k K a s t) (ha : rnd (a k) = a k) (ha' : rnd (a (K - 1)) = a (K - 1)) {tol refP isoval : α}
    (hs : InDom kind c (a k) (a (K - 1)) D (fun _ => refP)) (htol : 0 < tol) (n : ℕ) (hn : 5 / 2 * (a (K - 1) - a k) / tol ≤ n) :
    ∃ r, vertsolve1 (n + 13) (Rfl.fin tol) kind
        (fun P Sp Tp => zeroPotential eos P Sp Tp (Rfl.fin refP) (Rfl.fin isoval)) c = .ret r ∧
      SolvedR kind c (a k) (a (K - 1)) (fun s t _ => e s t refP - isoval) tol r := by
  refine vertsolve1_rounded R kind G hs ha ha' htol ?_ n hn
  intro P Sp Tp x s' t' hx hx' h hs'
  unfold zeroPotential
  simp only [h]
  rw [E _ _ _ hs', Rfl.fin_sub]

/-- **C124** Anomaly surface on one cast, in rounded arithmetic. -/
theorem anomaly_rounded (R : BinRound rnd) (kind : PPKind) (E : EosR rnd eos e D)
    (G : GoodCastR c k K a s t) (ha : rnd (a k) = a k) (ha' : rnd (a (K - 1)) = a (K - 1)) {tol refS refT isoval : α}
    (hs : InDom kind c (a k) (a (K - 1)) D (fun p => p)) (hr : ∀ p, a k ≤ p → p ≤ a (K - 1) → D refS refT p) (htol : 0 < tol) (n : ℕ) (hn : 5 / 2 * (a (K - 1) - a k) / tol ≤ n) :
    ∃ r, vertsolve1 (n + 13) (Rfl.fin tol) kind
        (fun P Sp Tp => zeroAnomaly eos P Sp Tp (Rfl.fin refS, Rfl.fin refT) (Rfl.fin isoval)) c = .ret r ∧
      SolvedR kind c (a k) (a (K - 1)) (fun s t p => rnd (e s t p - e refS refT p) - isoval) tol r := by
  refine vertsolve1_rounded R kind G hs ha ha' htol ?_ n hn
  intro P Sp Tp x s' t' hx hx' h hs'
  unfold zeroAnomaly
  simp only [h]
  rw [E _ _ _ hs', E _ _ _ (hr x hx hx'), Rfl.fin_sub, Rfl.fin_sub]

/-- **C124** A nonzero finite correction `phi` of an omega surface on a cast with data, in rounded arithmetic. -/
theorem omega_rounded (R : BinRound rnd) (kind : PPKind) (E : EosR rnd eos e D) (G : GoodCastR c k K a s t)
    (ha : rnd (a k) = a k) (ha' : rnd (a (K - 1)) = a (K - 1)) {tol phi s0 t0 p0 : α}
    (hs : InDom kind c (a k) (a (K - 1)) D (fun _ => p0)) (hphi : phi ≠ 0) (hs0 : D s0 t0 p0) (hp0 : rnd p0 = p0) (htol : 0 < tol) (n : ℕ)
    (hn : 5 / 2 * (a (K - 1) - a k) / tol ≤ n) :
    ∃ r, omegaSolve1 (n + 13) (Rfl.fin tol) kind eos (Rfl.fin phi) (Rfl.fin s0, Rfl.fin t0, Rfl.fin p0) c = .ret r ∧
      SolvedR kind c (a k) (a (K - 1)) (fun s t _ => e s t p0 - rnd (e s0 t0 p0 + phi)) tol r := by
  obtain ⟨Sp, Tp, gS, gT, h1, h2, hP0, hP1, h3⟩ := G.curves R.toStdRound kind hs
  have htwo := G.S.two
  have hAB := G.S.a_le
  have hpub : ∀ x, a k ≤ x → x ≤ a (K - 1) → interpAt kind (Rfl.fin x) c.P c.S = some (Rfl.fin (gS x)) ∧
      interpAt kind (Rfl.fin x) c.P c.T = some (Rfl.fin (gT x)) :=
    fun x hx hx' => ⟨(h3 x hx hx').2.1, (h3 x hx hx').2.2.1⟩
  have hf : ∀ x, a k ≤ x → x ≤ a (K - 1) →
      zeroPotential eos (c.P.slice k K) Sp Tp (Rfl.fin p0) (Rfl.fin (rnd (e s0 t0 p0 + phi))) (Rfl.fin x) =
      Rfl.fin (rnd (e (gS x) (gT x) p0 - rnd (e s0 t0 p0 + phi))) := by
    intro x hx hx'
    unfold zeroPotential
    simp only [(h3 x hx hx').1]
    rw [E _ _ _ (h3 x hx hx').2.2.2, Rfl.fin_sub]
  unfold omegaSolve1
  rw [if_neg (by simpa [R.zero] using hphi)]
  simp only [G.S.vr.2, h1, h2, hP0, hP1, E _ _ _ hs0, Rfl.fin_add, Rfl.isFinite_fin]
  rw [if_pos ⟨by omega, trivial⟩]
  rcases search_solveR R.toStdRound (x := p0) n hAB hp0 ha ha' hf htol hn with
    ⟨h, h'⟩ | ⟨lb, ub, r, hb, hr, r1, r2, r3⟩
  · rw [h]
    exact ⟨_, rfl, gS, gT, hpub, Or.inl ⟨rfl, h'⟩⟩
  · refine ⟨(Rfl.fin (gS r), Rfl.fin (gT r), Rfl.fin r), ?_, gS, gT, hpub, Or.inr ⟨r, rfl, r1, r2, r3⟩⟩
    rw [hb]
    simp only [Outcome.bind, Rfl.isFinite_fin, if_true, hr, (h3 r r1 r2).1]

end VertSolve
