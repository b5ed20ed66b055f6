import Verif.Props.SolveRound

/-!
# Accuracy of neutral tangent planes and vertical solves computed in floating point (C125)

The computed result is compared with the exact solution: exact interpolation, exact equation of state.
-/

set_option linter.unusedSectionVars false

namespace Traj
open FloatLike Fzero Interp

variable {rnd : ℝ → ℝ}

/-- A sign change of a function computed with error at most `δ` is near a point where the exact function is at most `δ`. -/
theorem RootR.near {d G : ℝ → ℝ} {A B tol r δ : ℝ} (h : RootR d A B tol r) (hA : A ≤ r) (hB : r ≤ B) (ht : 0 ≤ tol)
    (hG : ContinuousOn G (Set.Icc A B)) (hd : ∀ y, A ≤ y → y ≤ B → |d y - G y| ≤ δ) :
    ∃ z, A ≤ z ∧ z ≤ B ∧ |G z| ≤ δ ∧ |z - r| ≤ (2 + 1 / 2 ^ 46) * (2 * (1 / 2 ^ 52) * |r| + tol) := by
  have htol : 0 ≤ (2 + 1 / 2 ^ 46) * (2 * (1 / 2 ^ 52) * |r| + tol) := by
    have := abs_nonneg r; positivity
  have hr := hd r hA hB
  rcases h with h4 | ⟨c, c1, c2, c3, c4⟩
  · refine ⟨r, hA, hB, ?_, by simpa using htol⟩
    rw [h4] at hr
    simpa using hr
  · have hc := hd c c1 c2
    by_cases e1 : |G r| ≤ δ
    · exact ⟨r, hA, hB, e1, by simpa using htol⟩
    by_cases e2 : |G c| ≤ δ
    · exact ⟨c, c1, c2, e2, c3⟩
    have hδ : 0 ≤ δ := le_trans (abs_nonneg _) hr
    have hsub : Set.uIcc r c ⊆ Set.Icc A B := by
      intro y hy
      rcases Set.mem_uIcc.mp hy with hy | hy
      · exact ⟨hA.trans hy.1, hy.2.trans c2⟩
      · exact ⟨c1.trans hy.1, hy.2.trans hB⟩
    rw [abs_le] at hr hc
    have hz : (0 : ℝ) ∈ Set.uIcc (G r) (G c) := by
      rcases mul_neg_iff.mp c4 with ⟨p, q⟩ | ⟨p, q⟩
      · refine Set.mem_uIcc.mpr (Or.inr ⟨?_, ?_⟩)
        · by_contra hh
          exact e2 (abs_le.mpr ⟨by linarith [not_le.mp hh], by linarith [hc.1]⟩)
        · by_contra hh
          exact e1 (abs_le.mpr ⟨by linarith [hr.2], by linarith [not_le.mp hh]⟩)
      · refine Set.mem_uIcc.mpr (Or.inl ⟨?_, ?_⟩)
        · by_contra hh
          exact e1 (abs_le.mpr ⟨by linarith [not_le.mp hh], by linarith [hr.1]⟩)
        · by_contra hh
          exact e2 (abs_le.mpr ⟨by linarith [hc.2], by linarith [not_le.mp hh]⟩)
    obtain ⟨z, hz1, hz2⟩ := intermediate_value_uIcc (hG.mono hsub) hz
    refine ⟨z, (hsub hz1).1, (hsub hz1).2, by rw [hz2]; simpa using hδ, le_trans ?_ c3⟩
    have := Set.abs_sub_left_of_mem_uIcc hz1
    rwa [abs_sub_comm z r, abs_sub_comm c r, abs_sub_comm r z, abs_sub_comm r c]

/-- Specification of the accuracy of the result `r` for a cast: `gS`, `gT` are the exact interpolants of the data and `res`
the exact residual.  Either three NaNs, and the exact residuals at the two ends do not differ in sign by more than `δ`; or a point
`p` of the data range, with `s` and `t` within `eS` and `eT` of the exact interpolants at `p`, and `p` close to a point `z`
where the exact residual is at most `δ`. -/
def Accurate (kind : PPKind) (c : Cast (Rfl rnd)) (A B : ℝ) (res : ℝ → ℝ → ℝ → ℝ) (eS eT δ tol : ℝ)
    (r : Rfl rnd × Rfl rnd × Rfl rnd) : Prop :=
  ∃ gS gT : ℝ → ℝ,
    (∀ x, A ≤ x → x ≤ B → interpAt kind (Fl.fin x) (exactArr c.P) (exactArr c.S) = some (Fl.fin (gS x)) ∧
      interpAt kind (Fl.fin x) (exactArr c.P) (exactArr c.T) = some (Fl.fin (gT x))) ∧
    ((r = (Rfl.qnan, Rfl.qnan, Rfl.qnan) ∧
        ((-δ < res (gS A) (gT A) A ∧ -δ < res (gS B) (gT B) B) ∨ (res (gS A) (gT A) A < δ ∧ res (gS B) (gT B) B < δ))) ∨
      ∃ s t p z, r = (Rfl.fin s, Rfl.fin t, Rfl.fin p) ∧ A ≤ p ∧ p ≤ B ∧ |s - gS p| ≤ eS ∧ |t - gT p| ≤ eT ∧
        A ≤ z ∧ z ≤ B ∧ |res (gS z) (gT z) z| ≤ δ ∧ |z - p| ≤ (2 + 1 / 2 ^ 46) * (2 * (1 / 2 ^ 52) * |p| + tol))

/-- A box of salinities, temperatures and pressures. -/
structure Box where
  (s0 s1 t0 t1 p0 p1 : ℝ)

/-- Membership in a box. -/
def Box.In (b : Box) (s t p : ℝ) : Prop := b.s0 ≤ s ∧ s ≤ b.s1 ∧ b.t0 ≤ t ∧ t ≤ b.t1 ∧ b.p0 ≤ p ∧ p ≤ b.p1

/-- The computed equation of state `eos`, on a box: its value is a number `e` within `η` of the exact `E`, which has Lipschitz
constants `Ls`, `Lt`, `Lp`. -/
structure EosBox (rnd : ℝ → ℝ) (b : Box) (eos : Rfl rnd → Rfl rnd → Rfl rnd → Rfl rnd) (e E : ℝ → ℝ → ℝ → ℝ) (η Ls Lt Lp : ℝ) :
    Prop where
  val : ∀ s t p, b.In s t p → eos (Rfl.fin s) (Rfl.fin t) (Rfl.fin p) = Rfl.fin (e s t p)
  close : ∀ s t p, b.In s t p → |e s t p - E s t p| ≤ η
  lip : ∀ s t p s' t' p', b.In s t p → b.In s' t' p' → |E s t p - E s' t' p'| ≤ Ls * |s - s'| + Lt * |t - t'| + Lp * |p - p'|
  ls : 0 ≤ Ls
  lt : 0 ≤ Lt
  lp : 0 ≤ Lp

/-- A cast in a box: the data is inside the box by a margin `eS`, `eT`, which bounds the rounding errors of the interpolation of
data of this size. -/
structure CastBox (b : Box) (c : Cast (Rfl rnd)) (k K : ℕ) (a s t : ℕ → ℝ) (eS eT : ℝ) : Prop where
  good : GoodCastR c k K a s t
  inS : ∀ i, k ≤ i → i < K → b.s0 + eS ≤ s i ∧ s i ≤ b.s1 - eS
  inT : ∀ i, k ≤ i → i < K → b.t0 + eT ≤ t i ∧ t i ≤ b.t1 - eT
  inP : b.p0 ≤ a k ∧ a (K - 1) ≤ b.p1
  sizeS : ∃ M V, Sized k K a s M V ∧ (1200 * V + M) / 2 ^ 53 ≤ eS
  sizeT : ∃ M V, Sized k K a t M V ∧ (1200 * V + M) / 2 ^ 53 ≤ eT
  rep : rnd (a k) = a k ∧ rnd (a (K - 1)) = a (K - 1)

theorem ColR.exact {X Y : Arr (Rfl rnd)} {k K : ℕ} {a y : ℕ → ℝ} (C : ColR X Y k K a y) :
    Col (exactArr X) (exactArr Y) k K a y :=
  ⟨C.size, C.two, C.le, C.before, C.after, C.hX, C.hY, C.inc⟩

variable {b : Box} {c : Cast (Rfl rnd)} {k K : ℕ} {a s t : ℕ → ℝ} {eS eT : ℝ} {eos : Rfl rnd → Rfl rnd → Rfl rnd → Rfl rnd}
  {e E : ℝ → ℝ → ℝ → ℝ} {η Ls Lt Lp : ℝ}

/-- A column in an interval: the computed and the exact interpolants stay in it and are close. -/
theorem ColR.inside (R : StdRound rnd) (kind : PPKind) {X Y : Arr (Rfl rnd)} {y : ℕ → ℝ} (C : ColR X Y k K a y) {lo hi er : ℝ}
    (her : ∃ M V, Sized k K a y M V ∧ (1200 * V + M) / 2 ^ 53 ≤ er)
    (hy : ∀ i, k ≤ i → i < K → lo + er ≤ y i ∧ y i ≤ hi - er) :
    ∃ G : ℝ → ℝ, ContinuousOn G (Set.Icc (a k) (a (K - 1))) ∧ ∀ x, a k ≤ x → x ≤ a (K - 1) →
      interpAt kind (Fl.fin x) (exactArr X) (exactArr Y) = some (Fl.fin (G x)) ∧ lo ≤ G x ∧ G x ≤ hi ∧
      ∀ v, interpAt kind (Rfl.fin x) X Y = some (Rfl.fin v) → lo ≤ v ∧ v ≤ hi ∧ |v - G x| ≤ er := by
  obtain ⟨M, V, hS, hMV⟩ := her
  obtain ⟨_, g, G', _, hin, _⟩ := C.curve R kind
  obtain ⟨_, G, _, h2, _, h4, _, h6⟩ := C.exact.curve kind
  have htwo := C.two
  refine ⟨G, h4, fun x hx hx' => ?_⟩
  obtain ⟨_, i2, i3, i4⟩ := hin x hx hx'
  have hG : G x = G' x := by
    have := (h2 x hx hx').2
    rw [i3] at this
    exact (Fl.fin.inj (Option.some.inj this)).symm
  have herr : |g x - G x| ≤ er := by rw [hG]; exact (i4 M V hS).trans hMV
  have her0 : 0 ≤ er := (abs_nonneg _).trans herr
  have hb : lo + er ≤ G x ∧ G x ≤ hi - er := by
    have B := C.exact.block
    have ho := (B.outside_iff x).mpr ⟨hx, by
      show x ≤ a (k + (K - k - 1)); rw [show k + (K - k - 1) = K - 1 by omega]; exact hx'⟩
    obtain ⟨e1, e2, e3, e4, _⟩ := pieceIndex_bracket B.hX B.mono ho
    have := h6 (k + pieceIndex ((exactArr X).slice k K) 0 (K - k) (Fl.fin x)) (by omega) (by omega) x e3 e4
    refine ⟨le_trans (le_min (hy _ (by omega) (by omega)).1 (hy _ (by omega) (by omega)).1) this.1,
      le_trans this.2 (max_le (hy _ (by omega) (by omega)).2 (hy _ (by omega) (by omega)).2)⟩
  refine ⟨(h2 x hx hx').2, by linarith [hb.1], by linarith [hb.2], fun v hv => ?_⟩
  rw [i2] at hv
  rw [← Rfl.fin_inj.mp (Option.some.inj hv)]
  have := abs_le.mp herr
  exact ⟨by linarith [hb.1], by linarith [hb.2], herr⟩

/-- The exact interpolants of a cast in a box, and how the computed ones compare. -/
theorem CastBox.inside (R : StdRound rnd) (kind : PPKind) (C : CastBox b c k K a s t eS eT) :
    ∃ gS gT : ℝ → ℝ, ContinuousOn gS (Set.Icc (a k) (a (K - 1))) ∧ ContinuousOn gT (Set.Icc (a k) (a (K - 1))) ∧
      ∀ x, a k ≤ x → x ≤ a (K - 1) →
        interpAt kind (Fl.fin x) (exactArr c.P) (exactArr c.S) = some (Fl.fin (gS x)) ∧
        interpAt kind (Fl.fin x) (exactArr c.P) (exactArr c.T) = some (Fl.fin (gT x)) ∧
        (∀ p, b.p0 ≤ p → p ≤ b.p1 → b.In (gS x) (gT x) p) ∧
        ∀ s t, interpAt kind (Rfl.fin x) c.P c.S = some (Rfl.fin s) → interpAt kind (Rfl.fin x) c.P c.T = some (Rfl.fin t) →
          (∀ p, b.p0 ≤ p → p ≤ b.p1 → b.In s t p) ∧ |s - gS x| ≤ eS ∧ |t - gT x| ≤ eT := by
  obtain ⟨gS, h1, h2⟩ := C.good.S.inside R kind C.sizeS C.inS
  obtain ⟨gT, i1, i2⟩ := C.good.T.inside R kind C.sizeT C.inT
  refine ⟨gS, gT, h1, i1, fun x hx hx' => ?_⟩
  obtain ⟨a1, a2, a3, a4⟩ := h2 x hx hx'
  obtain ⟨b1, b2, b3, b4⟩ := i2 x hx hx'
  refine ⟨a1, b1, fun p q q' => ⟨a2, a3, b2, b3, q, q'⟩, fun s t hs ht => ?_⟩
  obtain ⟨u1, u2, u3⟩ := a4 s hs
  obtain ⟨w1, w2, w3⟩ := b4 t ht
  exact ⟨fun p q q' => ⟨u1, u2, w1, w2, q, q'⟩, u3, w3⟩

/-- From a sign change of the computed residual to the exact residual. -/
theorem SolvedR.accurate (R : StdRound rnd) (kind : PPKind) (C : CastBox b c k K a s t eS eT) {d res : ℝ → ℝ → ℝ → ℝ}
    {δ tol : ℝ} (ht : 0 ≤ tol) {r : Rfl rnd × Rfl rnd × Rfl rnd} (h : SolvedR kind c (a k) (a (K - 1)) d tol r)
    (hres : ∀ x s' t' s'' t'', a k ≤ x → x ≤ a (K - 1) → (∀ p, b.p0 ≤ p → p ≤ b.p1 → b.In s' t' p) →
      (∀ p, b.p0 ≤ p → p ≤ b.p1 → b.In s'' t'' p) → |s' - s''| ≤ eS → |t' - t''| ≤ eT → |d s' t' x - res s'' t'' x| ≤ δ)
    (hc : ∀ f g : ℝ → ℝ, ContinuousOn f (Set.Icc (a k) (a (K - 1))) → ContinuousOn g (Set.Icc (a k) (a (K - 1))) →
      (∀ x, a k ≤ x → x ≤ a (K - 1) → ∀ p, b.p0 ≤ p → p ≤ b.p1 → b.In (f x) (g x) p) →
      ContinuousOn (fun x => res (f x) (g x) x) (Set.Icc (a k) (a (K - 1)))) :
    Accurate kind c (a k) (a (K - 1)) res eS eT δ tol r := by
  obtain ⟨gS, gT, c1, c2, hin⟩ := C.inside R kind
  obtain ⟨fS, fT, hf, h⟩ := h
  have hAB := C.good.S.a_le
  have hcl : ∀ x, a k ≤ x → x ≤ a (K - 1) → |d (fS x) (fT x) x - res (gS x) (gT x) x| ≤ δ := by
    intro x hx hx'
    obtain ⟨_, _, i3, i4⟩ := hin x hx hx'
    obtain ⟨j1, j2, j3⟩ := i4 _ _ (hf x hx hx').1 (hf x hx hx').2
    exact hres x _ _ _ _ hx hx' j1 i3 j2 j3
  refine ⟨gS, gT, fun x hx hx' => ⟨(hin x hx hx').1, (hin x hx hx').2.1⟩, ?_⟩
  rcases h with ⟨h, h'⟩ | ⟨p, hp, p1, p2, hroot⟩
  · left
    refine ⟨h, ?_⟩
    have q1 := abs_le.mp (hcl (a k) (le_refl _) hAB)
    have q2 := abs_le.mp (hcl (a (K - 1)) hAB (le_refl _))
    rcases mul_pos_iff.mp h' with ⟨u, w⟩ | ⟨u, w⟩
    · left; constructor <;> linarith [q1.2, q2.2]
    · right; constructor <;> linarith [q1.1, q2.1]
  · right
    obtain ⟨z, z1, z2, z3, z4⟩ := hroot.near p1 p2 ht
      (hc gS gT c1 c2 (fun x hx hx' => (hin x hx hx').2.2.1)) (fun y hy hy' => hcl y hy hy')
    obtain ⟨_, j2, j3⟩ := (hin p p1 p2).2.2.2 _ _ (hf p p1 p2).1 (hf p p1 p2).2
    exact ⟨_, _, p, z, hp, p1, p2, j2, j3, z1, z2, z3, z4⟩

/-- The exact equation of state is continuous along a cast. -/
theorem EosBox.along (H : EosBox rnd b eos e E η Ls Lt Lp) {f g h : ℝ → ℝ} {A B : ℝ} (hf : ContinuousOn f (Set.Icc A B))
    (hg : ContinuousOn g (Set.Icc A B)) (hh : ContinuousOn h (Set.Icc A B)) (hin : ∀ x, A ≤ x → x ≤ B → b.In (f x) (g x) (h x)) :
    ContinuousOn (fun x => E (f x) (g x) (h x)) (Set.Icc A B) := by
  intro x hx
  have key : Filter.Tendsto (fun y => Ls * |f y - f x| + Lt * |g y - g x| + Lp * |h y - h x|) (nhdsWithin x (Set.Icc A B)) (nhds 0) := by
    have hz : ContinuousWithinAt (fun y => Ls * |f y - f x| + Lt * |g y - g x| + Lp * |h y - h x|) (Set.Icc A B) x := by
      have h1 := (hf x hx).sub (continuousWithinAt_const (b := f x))
      have h2 := (hg x hx).sub (continuousWithinAt_const (b := g x))
      have h3 := (hh x hx).sub (continuousWithinAt_const (b := h x))
      exact ((h1.abs.const_mul Ls).add (h2.abs.const_mul Lt)).add (h3.abs.const_mul Lp)
    have := hz.tendsto
    simpa using this
  show Filter.Tendsto _ _ _
  rw [tendsto_iff_dist_tendsto_zero]
  refine squeeze_zero' (Filter.Eventually.of_forall fun y => dist_nonneg) ?_ key
  filter_upwards [self_mem_nhdsWithin] with y hy
  rw [Real.dist_eq]
  exact H.lip _ _ _ _ _ _ (hin y hy.1 hy.2) (hin x hx.1 hx.2)

/-- Error of the density computed from the computed interpolants. -/
theorem EosBox.err (H : EosBox rnd b eos e E η Ls Lt Lp) {s' t' p' s'' t'' p'' : ℝ} (h1 : b.In s' t' p') (h2 : b.In s'' t'' p'')
    (hs : |s' - s''| ≤ eS) (ht : |t' - t''| ≤ eT) :
    |e s' t' p' - E s'' t'' p''| ≤ η + (Ls * eS + Lt * eT) + Lp * |p' - p''| := by
  have e1 := H.close _ _ _ h1
  have e2 := H.lip _ _ _ _ _ _ h1 h2
  have e3 := mul_le_mul_of_nonneg_left hs H.ls
  have e4 := mul_le_mul_of_nonneg_left ht H.lt
  have e5 := abs_add_le (e s' t' p' - E s' t' p') (E s' t' p' - E s'' t'' p'')
  rw [sub_add_sub_cancel] at e5
  linarith

/-- **C125** `ntp_bottle_to_cast` in floating point: within solver tolerance of a point where the exact density difference is at
most the error of the computed one. -/
theorem ntp_accurate (R : BinRound rnd) (kind : PPKind) (H : EosBox rnd b eos e E η Ls Lt Lp) (C : CastBox b c k K a s t eS eT)
    {sB tB pB tol : ℝ} (hB : b.In sB tB pB) (hp : rnd b.p0 = b.p0 ∧ rnd b.p1 = b.p1) (hpB : rnd pB = pB) (htol : 0 < tol) (n : ℕ)
    (hn : 5 / 2 * (a (K - 1) - a k) / tol ≤ n) :
    ∃ r, ntpBottleToCast (n + 13) (Rfl.fin tol) eos kind (Rfl.fin sB) (Rfl.fin tB) (Rfl.fin pB) c = .ret r ∧
      Accurate kind c (a k) (a (K - 1)) (fun s t p => E sB tB ((pB + p) / 2) - E s t ((pB + p) / 2)) eS eT
        (2 * η + Ls * eS + Lt * eT + 2 * Lp * (max |b.p0| |b.p1| / 2 ^ 53)) tol r := by
  obtain ⟨gS, gT, _, _, hin⟩ := C.inside R.toStdRound kind
  have hav : ∀ p, a k ≤ p → p ≤ a (K - 1) → b.p0 ≤ rnd (pB + p) / 2 ∧ rnd (pB + p) / 2 ≤ b.p1 := fun p h1 h2 =>
    R.avg_mem hp.1 hp.2 hB.2.2.2.2.1 (C.inP.1.trans h1) hB.2.2.2.2.2 (h2.trans C.inP.2)
  have hav' : ∀ p, a k ≤ p → p ≤ a (K - 1) → b.p0 ≤ (pB + p) / 2 ∧ (pB + p) / 2 ≤ b.p1 := fun p h1 h2 => by
    have := hB.2.2.2.2; have := C.inP
    constructor <;> linarith
  have hav2 : ∀ p, a k ≤ p → p ≤ a (K - 1) → |rnd (pB + p) / 2 - (pB + p) / 2| ≤ max |b.p0| |b.p1| / 2 ^ 53 := fun p h1 h2 => by
    have e1 := R.err (pB + p)
    rw [← sub_div, abs_div, abs_of_pos (two_pos (α := ℝ)), div_le_iff₀ two_pos]
    refine e1.trans ?_
    have e2 : |(pB + p) / 2| ≤ max |b.p0| |b.p1| := by
      have := hav' p h1 h2
      exact abs_le_max_abs_abs this.1 this.2
    rw [abs_div, abs_of_pos (two_pos (α := ℝ)), div_le_iff₀ two_pos] at e2
    rw [div_mul_eq_mul_div]
    exact div_le_div_of_nonneg_right e2 (by positivity)
  obtain ⟨r, hr, hS⟩ := ntp_rounded (D := b.In) R kind H.val C.good C.rep.1 C.rep.2 (pB := pB) (tB := tB) (sB := sB)
    (fun x s t h1 h2 h3 h4 => ((hin x h1 h2).2.2.2 s t h3 h4).1 _ (hav x h1 h2).1 (hav x h1 h2).2)
    (fun p h1 h2 => ⟨hB.1, hB.2.1, hB.2.2.1, hB.2.2.2.1, (hav p h1 h2).1, (hav p h1 h2).2⟩) hpB htol n hn
  refine ⟨r, hr, hS.accurate R.toStdRound kind C htol.le ?_ ?_⟩
  · intro x s' t' s'' t'' hx hx' h1 h2 h3 h4
    have q1 := hav x hx hx'
    have q2 := hav' x hx hx'
    have q3 := hav2 x hx hx'
    have e1 := H.err (h1 _ q1.1 q1.2) (h2 _ q2.1 q2.2) h3 h4
    have e2 := H.err (eS := 0) (eT := 0) (s' := sB) (t' := tB) (s'' := sB) (t'' := tB) (p' := rnd (pB + x) / 2) (p'' := (pB + x) / 2)
      ⟨hB.1, hB.2.1, hB.2.2.1, hB.2.2.2.1, q1.1, q1.2⟩ ⟨hB.1, hB.2.1, hB.2.2.1, hB.2.2.2.1, q2.1, q2.2⟩ (by simp) (by simp)
    have e3 := mul_le_mul_of_nonneg_left q3 H.lp
    rw [show e sB tB (rnd (pB + x) / 2) - e s' t' (rnd (pB + x) / 2) - (E sB tB ((pB + x) / 2) - E s'' t'' ((pB + x) / 2)) =
      (e sB tB (rnd (pB + x) / 2) - E sB tB ((pB + x) / 2)) - (e s' t' (rnd (pB + x) / 2) - E s'' t'' ((pB + x) / 2)) by ring]
    refine (abs_sub _ _).trans ?_
    linarith
  · intro f g hf hg hfg
    have hp2 : ContinuousOn (fun x : ℝ => (pB + x) / 2) (Set.Icc (a k) (a (K - 1))) := by fun_prop
    exact (H.along (f := fun _ => sB) (g := fun _ => tB) continuousOn_const continuousOn_const hp2
      (fun x hx hx' => ⟨hB.1, hB.2.1, hB.2.2.1, hB.2.2.2.1, (hav' x hx hx').1, (hav' x hx hx').2⟩)).sub
      (H.along hf hg hp2 (fun x hx hx' => hfg x hx hx' _ (hav' x hx hx').1 (hav' x hx hx').2))

/-- **C125** When the exact residual is at least `m` times the distance from its zero `z0` (a stably stratified column), the point
found is within the solver tolerance plus `δ/m` of `z0`. -/
theorem Accurate.stable {A B : ℝ} {res : ℝ → ℝ → ℝ → ℝ} {δ tol m : ℝ} {kind : PPKind} {r : Rfl rnd × Rfl rnd × Rfl rnd}
    (h : Accurate kind c A B res eS eT δ tol r) (hm : 0 < m) {gS gT : ℝ → ℝ}
    (hg : ∀ x, A ≤ x → x ≤ B → interpAt kind (Fl.fin x) (exactArr c.P) (exactArr c.S) = some (Fl.fin (gS x)) ∧
      interpAt kind (Fl.fin x) (exactArr c.P) (exactArr c.T) = some (Fl.fin (gT x)))
    {z0 : ℝ} (hAB : A ≤ B) (hsep : ∀ x, A ≤ x → x ≤ B → m * |x - z0| ≤ |res (gS x) (gT x) x|)
    (hends : res (gS A) (gT A) A ≤ -δ ∧ δ ≤ res (gS B) (gT B) B ∨ res (gS B) (gT B) B ≤ -δ ∧ δ ≤ res (gS A) (gT A) A) :
    ∃ s t p, r = (Rfl.fin s, Rfl.fin t, Rfl.fin p) ∧ A ≤ p ∧ p ≤ B ∧ |s - gS p| ≤ eS ∧ |t - gT p| ≤ eT ∧
      |p - z0| ≤ (2 + 1 / 2 ^ 46) * (2 * (1 / 2 ^ 52) * |p| + tol) + δ / m := by
  obtain ⟨fS, fT, hf, h⟩ := h
  have eqS : ∀ x, A ≤ x → x ≤ B → fS x = gS x ∧ fT x = gT x := by
    intro x h1 h2
    have u1 := (hf x h1 h2).1
    have u2 := (hf x h1 h2).2
    rw [(hg x h1 h2).1] at u1
    rw [(hg x h1 h2).2] at u2
    exact ⟨(Fl.fin.inj (Option.some.inj u1)).symm, (Fl.fin.inj (Option.some.inj u2)).symm⟩
  rcases h with ⟨_, h⟩ | ⟨s, t, p, z, hr, p1, p2, h1, h2, z1, z2, h3, h4⟩
  · rw [(eqS A (le_refl _) hAB).1, (eqS A (le_refl _) hAB).2, (eqS B hAB (le_refl _)).1, (eqS B hAB (le_refl _)).2] at h
    rcases h with h | h <;> rcases hends with hends | hends <;> linarith [h.1, h.2, hends.1, hends.2]
  · rw [(eqS p p1 p2).1] at h1
    rw [(eqS p p1 p2).2] at h2
    rw [(eqS z z1 z2).1, (eqS z z1 z2).2] at h3
    refine ⟨s, t, p, hr, p1, p2, h1, h2, ?_⟩
    have hzz : |z - z0| ≤ δ / m := by
      rw [le_div_iff₀ hm, mul_comm]
      exact (hsep z z1 z2).trans h3
    have := abs_sub_le p z z0
    rw [abs_sub_comm p z] at this
    linarith

/-! ## An example: a cast with data on straight lines -/

instance : Inhabited (Rfl rnd) := ⟨Rfl.qnan⟩

/-- pressures 0, 1, 4; salinity 34, 35, 38; temperature 8, 7, 4; one NaN site on each side -/
def exCastR (rnd : ℝ → ℝ) : Cast (Rfl rnd) :=
  ⟨Arr.ofList [Rfl.qnan, Rfl.fin 34, Rfl.fin 35, Rfl.fin 38, Rfl.qnan],
    Arr.ofList [Rfl.qnan, Rfl.fin 8, Rfl.fin 7, Rfl.fin 4, Rfl.qnan],
    Arr.ofList [Rfl.fin (-1), Rfl.fin 0, Rfl.fin 1, Rfl.fin 4, Rfl.fin 5]⟩

/-- pressures of `exCastR` -/
def exA (i : ℕ) : ℝ := if i = 1 then 0 else if i = 2 then 1 else 4
/-- salinities of `exCastR` -/
def exS (i : ℕ) : ℝ := if i = 1 then 34 else if i = 2 then 35 else 38
/-- temperatures of `exCastR` -/
def exT (i : ℕ) : ℝ := if i = 1 then 8 else if i = 2 then 7 else 4

theorem exGoodR : GoodCastR (exCastR rnd) 1 4 exA exS exT := by
  constructor
  all_goals
    refine ⟨rfl, by omega, Nat.le_succ 4, ?_, fun _ => Or.inr rfl, ?_, ?_, ?_⟩
    · intro i hi
      have : i = 0 := by omega
      subst this; exact Or.inr rfl
    · intro i h1 h2
      have : i = 1 ∨ i = 2 ∨ i = 3 := by omega
      rcases this with rfl | rfl | rfl <;> rfl
    · intro i h1 h2
      have : i = 1 ∨ i = 2 ∨ i = 3 := by omega
      rcases this with rfl | rfl | rfl <;> rfl
    · intro i h1 h2
      have : i = 1 ∨ i = 2 := by omega
      rcases this with rfl | rfl <;> norm_num [exA]

/-- the box of the example -/
def exBox : Box := ⟨30, 40, 0, 10, 0, 4⟩

/-- the density `s - t` computed with one rounding -/
theorem exEosBox (R : StdRound rnd) : EosBox rnd exBox (fun s t _ => s - t) (fun s t _ => rnd (s - t)) (fun s t _ => s - t)
    (40 / 2 ^ 53) 1 1 0 where
  val s t p _ := by simp only [Rfl.fin_sub]
  close s t p h := by
    refine (R.err _).trans (div_le_div_of_nonneg_right ?_ (by positivity))
    obtain ⟨h1, h2, h3, h4, _⟩ := h
    simp only [exBox] at h1 h2 h3 h4
    rw [abs_le]; constructor <;> linarith
  lip s t p s' t' p' _ _ := by
    have := abs_sub (s - s') (t - t')
    rw [show s - t - (s' - t') = s - s' - (t - t') by ring]
    linarith
  ls := by norm_num
  lt := by norm_num
  lp := by norm_num

theorem exCastBox (R : BinRound rnd) : CastBox exBox (exCastR rnd) 1 4 exA exS exT (4000 / 2 ^ 53) (4000 / 2 ^ 53) where
  good := exGoodR
  inS i h1 h2 := by
    have : i = 1 ∨ i = 2 ∨ i = 3 := by omega
    rcases this with rfl | rfl | rfl <;> norm_num [exBox, exS]
  inT i h1 h2 := by
    have : i = 1 ∨ i = 2 ∨ i = 3 := by omega
    rcases this with rfl | rfl | rfl <;> norm_num [exBox, exT]
  inP := by norm_num [exBox, exA]
  sizeS := by
    refine ⟨38, 3, ⟨?_, ?_⟩, by norm_num⟩
    · intro i h1 h2
      have : i = 1 ∨ i = 2 ∨ i = 3 := by omega
      rcases this with rfl | rfl | rfl <;> norm_num [exS]
    · intro i j h1 h2 h3 h4 _ _
      have : i = 1 ∨ i = 2 := by omega
      have : j = 1 ∨ j = 2 := by omega
      rcases ‹i = 1 ∨ i = 2› with rfl | rfl <;> rcases ‹j = 1 ∨ j = 2› with rfl | rfl <;> norm_num [exS, exA]
  sizeT := by
    refine ⟨38, 3, ⟨?_, ?_⟩, by norm_num⟩
    · intro i h1 h2
      have : i = 1 ∨ i = 2 ∨ i = 3 := by omega
      rcases this with rfl | rfl | rfl <;> norm_num [exT]
    · intro i j h1 h2 h3 h4 _ _
      have : i = 1 ∨ i = 2 := by omega
      have : j = 1 ∨ j = 2 := by omega
      rcases ‹i = 1 ∨ i = 2› with rfl | rfl <;> rcases ‹j = 1 ∨ j = 2› with rfl | rfl <;> norm_num [exT, exA]
  rep := by
    have h2 : rnd 4 = 4 := by
      have := R.two 2; have := R.two 1; have := R.one
      norm_num at *
      linarith
    have := R.zero
    simp only [exA]
    norm_num
    exact ⟨this, h2⟩

/-- The exact interpolants of the example are straight lines. -/
theorem exLines {x : ℝ} (hx : 0 ≤ x) (hx' : x ≤ 4) :
    interpAt .linear (Fl.fin x) (exactArr (exCastR rnd).P) (exactArr (exCastR rnd).S) = some (Fl.fin (34 + x)) ∧
    interpAt .linear (Fl.fin x) (exactArr (exCastR rnd).P) (exactArr (exCastR rnd).T) = some (Fl.fin (8 - x)) := by
  have CS := (exGoodR (rnd := rnd)).S.exact
  have CT := (exGoodR (rnd := rnd)).T.exact
  have BS : Block _ _ 1 4 exA exS := ⟨CS.size.symm, CS.vr.1, CS.two, CS.hX, CS.hY, CS.inc⟩
  have BT : Block _ _ 1 4 exA exT := ⟨CT.size.symm, CT.vr.1, CT.two, CT.hX, CT.hY, CT.inc⟩
  rcases le_total x 1 with h | h
  · have e1 := (linear_chord BS (i := 1) (x := x) (by omega) (by omega) (by norm_num [exA]; exact hx) (by norm_num [exA]; exact h)).2.1
    have e2 := (linear_chord BT (i := 1) (x := x) (by omega) (by omega) (by norm_num [exA]; exact hx) (by norm_num [exA]; exact h)).2.1
    refine ⟨e1.trans ?_, e2.trans ?_⟩ <;> norm_num [exA, exS, exT] <;> ring
  · have e1 := (linear_chord BS (i := 2) (x := x) (by omega) (by omega) (by norm_num [exA]; exact h) (by norm_num [exA]; exact hx')).2.1
    have e2 := (linear_chord BT (i := 2) (x := x) (by omega) (by omega) (by norm_num [exA]; exact h) (by norm_num [exA]; exact hx')).2.1
    refine ⟨e1.trans ?_, e2.trans ?_⟩ <;> norm_num [exA, exS, exT] <;> ring

/-- A concrete instance in IEEE rounding to nearest: from the bottle (35, 6, 1) on the example cast the neutral tangent plane is
at pressure 3/2 up to the tolerance 1/10 of the solver (and a little more for rounding). -/
example : ∃ r, ntpBottleToCast 113 (Rfl.fin (1 / 10) : Rfl Rounding53.rndNear) (fun s t _ => s - t) .linear (Rfl.fin 35) (Rfl.fin 6)
      (Rfl.fin 1) (exCastR Rounding53.rndNear) = .ret r ∧
    ∃ s t p, r = (Rfl.fin s, Rfl.fin t, Rfl.fin p) ∧ |p - 3 / 2| ≤ 3 / 10 := by
  have R := Rounding53.rndNear_bin (α := ℝ)
  have h2 : Rounding53.rndNear (4 : ℝ) = 4 := by
    have h := (exCastBox R).rep.2
    norm_num [exA] at h
    exact h
  obtain ⟨r, hr, hA⟩ := ntp_accurate R .linear (exEosBox R.toStdRound) (exCastBox R) (sB := 35) (tB := 6) (pB := 1) (tol := 1 / 10)
    (by norm_num [Box.In, exBox]) ⟨R.zero, h2⟩ R.one (by norm_num) 100 (by norm_num [exA])
  refine ⟨r, hr, ?_⟩
  have e1 : exA 1 = 0 := by norm_num [exA]
  have e4 : exA (4 - 1) = 4 := by norm_num [exA]
  rw [e1, e4] at hA
  obtain ⟨s, t, p, h, p1, p2, _, _, h'⟩ := hA.stable (m := 2) (z0 := 3 / 2) (by norm_num)
    (gS := fun x => 34 + x) (gT := fun x => 8 - x) (fun x h1 h2 => exLines h1 h2) (by norm_num)
    (fun x _ _ => le_of_eq (by
      rw [show (35 : ℝ) - 6 - (34 + x - (8 - x)) = -(2 * (x - 3 / 2)) by ring, abs_neg, abs_mul]
      norm_num))
    (Or.inr (by norm_num [exBox]))
  refine ⟨s, t, p, h, h'.trans ?_⟩
  rw [abs_of_nonneg p1]
  norm_num [exBox]
  linarith

/-- The example cast meets the requirements of the trajectory theorem, so a trajectory through three copies of it is computed. -/
theorem exOKR (R : BinRound rnd) : CastOKR .linear exBox.In 0 4 (1 / 10) 100 (exCastR rnd) := by
  obtain ⟨_, _, _, _, hin⟩ := (exCastBox R).inside R.toStdRound .linear
  refine ⟨1, 4, exA, exS, exT, exGoodR, ?_, by norm_num [exA], by norm_num [exA], (exCastBox R).rep.1, (exCastBox R).rep.2,
    by norm_num [exA]⟩
  intro q h1 h2 x s t h3 h4 h5 h6
  exact ((hin x h3 h4).2.2.2 s t h5 h6).1 q h1 h2

example (R : BinRound rnd) : ∃ s0 t0 rest, neutralTrajectory 113 (Rfl.fin (1 / 10) : Rfl rnd) (fun s t _ => s - t) .linear (Rfl.fin 1)
      [exCastR rnd, exCastR rnd, exCastR rnd] = .ret ((Rfl.fin s0, Rfl.fin t0, Rfl.fin 1) :: rest) := by
  have h4 : rnd 4 = 4 := by
    have h := (exCastBox R).rep.2
    norm_num [exA] at h
    exact h
  obtain ⟨_, _, _, _, hin⟩ := (exCastBox R).inside R.toStdRound .linear
  obtain ⟨s0, t0, rest, h, _⟩ := trajectory_rounded (eos := fun s t _ => s - t) (e := fun s t _ => rnd (s - t)) (D := exBox.In) R .linear (exEosBox R.toStdRound).val R.zero h4 (tol := 1 / 10) (p0 := 1)
    (by norm_num) (n := 100) exGoodR
    (fun q h1 h2 x s t h3 h4 h5 h6 => ((hin x h3 h4).2.2.2 s t h5 h6).1 q h1 h2) (by norm_num [exA]) (by norm_num [exA])
    (by norm_num [exA]) (by norm_num [exA]) R.one [exCastR rnd, exCastR rnd] (by
      intro c hc
      have : c = exCastR rnd := by simpa using hc
      rw [this]; exact exOKR R)
  exact ⟨s0, t0, rest, h⟩

end Traj

namespace VertSolve
open FloatLike Fzero Interp Traj
variable {rnd : ℝ → ℝ}
variable {b : Box} {c : Cast (Rfl rnd)} {k K : ℕ} {a s t : ℕ → ℝ} {eS eT : ℝ} {eos : Rfl rnd → Rfl rnd → Rfl rnd → Rfl rnd}
  {e E : ℝ → ℝ → ℝ → ℝ} {η Ls Lt Lp : ℝ}

/-- **C125** Potential density surface on one cast. -/
theorem potential_accurate (R : BinRound rnd) (kind : PPKind) (H : EosBox rnd b eos e E η Ls Lt Lp)
    (C : CastBox b c k K a s t eS eT) {tol refP isoval : ℝ} (hp : b.p0 ≤ refP ∧ refP ≤ b.p1) (htol : 0 < tol) (n : ℕ)
    (hn : 5 / 2 * (a (K - 1) - a k) / tol ≤ n) :
    ∃ r, vertsolve1 (n + 13) (Rfl.fin tol) kind
        (fun P Sp Tp => zeroPotential eos P Sp Tp (Rfl.fin refP) (Rfl.fin isoval)) c = .ret r ∧
      Accurate kind c (a k) (a (K - 1)) (fun s t _ => E s t refP - isoval) eS eT (η + Ls * eS + Lt * eT) tol r := by
  obtain ⟨gS, gT, _, _, hin⟩ := C.inside R.toStdRound kind
  obtain ⟨r, hr, hS⟩ := potential_rounded (D := b.In) R kind H.val C.good C.rep.1 C.rep.2 (refP := refP) (isoval := isoval)
    (fun x s t h1 h2 h3 h4 => ((hin x h1 h2).2.2.2 s t h3 h4).1 _ hp.1 hp.2) htol n hn
  refine ⟨r, hr, hS.accurate R.toStdRound kind C htol.le ?_ ?_⟩
  · intro x s' t' s'' t'' hx hx' h1 h2 h3 h4
    have e1 := H.err (h1 _ hp.1 hp.2) (h2 _ hp.1 hp.2) h3 h4
    rw [sub_self, abs_zero, mul_zero, add_zero] at e1
    rw [sub_sub_sub_cancel_right]
    linarith
  · intro f g hf hg hfg
    exact (H.along hf hg continuousOn_const (fun x hx hx' => hfg x hx hx' _ hp.1 hp.2)).sub continuousOn_const

/-- **C125** Anomaly surface on one cast; `W` bounds the computed density differences. -/
theorem anomaly_accurate (R : BinRound rnd) (kind : PPKind) (H : EosBox rnd b eos e E η Ls Lt Lp)
    (C : CastBox b c k K a s t eS eT) {tol refS refT isoval W : ℝ} (hr : ∀ p, b.p0 ≤ p → p ≤ b.p1 → b.In refS refT p)
    (hW : ∀ s t p, b.In s t p → |e s t p - e refS refT p| ≤ W) (htol : 0 < tol) (n : ℕ)
    (hn : 5 / 2 * (a (K - 1) - a k) / tol ≤ n) :
    ∃ r, vertsolve1 (n + 13) (Rfl.fin tol) kind
        (fun P Sp Tp => zeroAnomaly eos P Sp Tp (Rfl.fin refS, Rfl.fin refT) (Rfl.fin isoval)) c = .ret r ∧
      Accurate kind c (a k) (a (K - 1)) (fun s t p => E s t p - E refS refT p - isoval) eS eT
        (2 * η + Ls * eS + Lt * eT + W / 2 ^ 53) tol r := by
  obtain ⟨gS, gT, _, _, hin⟩ := C.inside R.toStdRound kind
  have hp : ∀ x, a k ≤ x → x ≤ a (K - 1) → b.p0 ≤ x ∧ x ≤ b.p1 := fun x h1 h2 => ⟨C.inP.1.trans h1, h2.trans C.inP.2⟩
  obtain ⟨r, hr', hS⟩ := anomaly_rounded (D := b.In) R kind H.val C.good C.rep.1 C.rep.2 (refS := refS) (refT := refT) (isoval := isoval)
    (fun x s t h1 h2 h3 h4 => ((hin x h1 h2).2.2.2 s t h3 h4).1 _ (hp x h1 h2).1 (hp x h1 h2).2)
    (fun p h1 h2 => hr p (hp p h1 h2).1 (hp p h1 h2).2) htol n hn
  refine ⟨r, hr', hS.accurate R.toStdRound kind C htol.le ?_ ?_⟩
  · intro x s' t' s'' t'' hx hx' h1 h2 h3 h4
    have q := hp x hx hx'
    have e1 := H.err (h1 _ q.1 q.2) (h2 _ q.1 q.2) h3 h4
    rw [sub_self, abs_zero, mul_zero, add_zero] at e1
    have e2 := H.close _ _ _ (hr x q.1 q.2)
    have e3 := R.err (e s' t' x - e refS refT x)
    have e4 := div_le_div_of_nonneg_right (hW _ _ _ (h1 _ q.1 q.2)) (show (0 : ℝ) ≤ 2 ^ 53 by positivity)
    have k1 := abs_add_le (rnd (e s' t' x - e refS refT x) - (e s' t' x - e refS refT x))
      ((e s' t' x - E s'' t'' x) - (e refS refT x - E refS refT x))
    have k2 := abs_sub (e s' t' x - E s'' t'' x) (e refS refT x - E refS refT x)
    rw [show rnd (e s' t' x - e refS refT x) - isoval - (E s'' t'' x - E refS refT x - isoval) =
      rnd (e s' t' x - e refS refT x) - (e s' t' x - e refS refT x) + ((e s' t' x - E s'' t'' x) - (e refS refT x - E refS refT x)) by ring]
    linarith
  · intro f g hf hg hfg
    exact ((H.along hf hg continuousOn_id (fun x hx hx' => hfg x hx hx' _ (hp x hx hx').1 (hp x hx hx').2)).sub
      (H.along (f := fun _ => refS) (g := fun _ => refT) continuousOn_const continuousOn_const continuousOn_id
        (fun x hx hx' => hr x (hp x hx hx').1 (hp x hx hx').2))).sub continuousOn_const

/-- **C125** A nonzero finite correction `phi` of an omega surface on one cast; `W` bounds the target density. -/
theorem omega_accurate (R : BinRound rnd) (kind : PPKind) (H : EosBox rnd b eos e E η Ls Lt Lp)
    (C : CastBox b c k K a s t eS eT) {tol phi s0 t0 p0 W : ℝ} (hphi : phi ≠ 0) (h0 : b.In s0 t0 p0) (hp0 : rnd p0 = p0)
    (hW : |e s0 t0 p0 + phi| ≤ W) (htol : 0 < tol) (n : ℕ) (hn : 5 / 2 * (a (K - 1) - a k) / tol ≤ n) :
    ∃ r, omegaSolve1 (n + 13) (Rfl.fin tol) kind eos (Rfl.fin phi) (Rfl.fin s0, Rfl.fin t0, Rfl.fin p0) c = .ret r ∧
      Accurate kind c (a k) (a (K - 1)) (fun s t _ => E s t p0 - (E s0 t0 p0 + phi)) eS eT
        (2 * η + Ls * eS + Lt * eT + W / 2 ^ 53) tol r := by
  obtain ⟨gS, gT, _, _, hin⟩ := C.inside R.toStdRound kind
  have hp := h0.2.2.2.2
  obtain ⟨r, hr, hS⟩ := omega_rounded (D := b.In) R kind H.val C.good C.rep.1 C.rep.2 (p0 := p0) (phi := phi) (s0 := s0) (t0 := t0)
    (fun x s t h1 h2 h3 h4 => ((hin x h1 h2).2.2.2 s t h3 h4).1 _ hp.1 hp.2) hphi h0 hp0 htol n hn
  refine ⟨r, hr, hS.accurate R.toStdRound kind C htol.le ?_ ?_⟩
  · intro x s' t' s'' t'' hx hx' h1 h2 h3 h4
    have e1 := H.err (h1 _ hp.1 hp.2) (h2 _ hp.1 hp.2) h3 h4
    rw [sub_self, abs_zero, mul_zero, add_zero] at e1
    have e2 := H.close _ _ _ h0
    have e3 := R.err (e s0 t0 p0 + phi)
    have e4 := div_le_div_of_nonneg_right hW (show (0 : ℝ) ≤ 2 ^ 53 by positivity)
    have k1 := abs_sub ((e s' t' p0 - E s'' t'' p0) - (e s0 t0 p0 - E s0 t0 p0)) (rnd (e s0 t0 p0 + phi) - (e s0 t0 p0 + phi))
    have k2 := abs_sub (e s' t' p0 - E s'' t'' p0) (e s0 t0 p0 - E s0 t0 p0)
    rw [show e s' t' p0 - rnd (e s0 t0 p0 + phi) - (E s'' t'' p0 - (E s0 t0 p0 + phi)) =
      (e s' t' p0 - E s'' t'' p0) - (e s0 t0 p0 - E s0 t0 p0) - (rnd (e s0 t0 p0 + phi) - (e s0 t0 p0 + phi)) by ring]
    linarith
  · intro f g hf hg hfg
    exact (H.along hf hg continuousOn_const (fun x hx hx' => hfg x hx hx' _ hp.1 hp.2)).sub continuousOn_const

/-- The hypotheses of the three theorems hold for the example cast, in IEEE rounding to nearest: surfaces `s - t = 29`, an anomaly
surface relative to (35, 5), and a correction by 1/2. -/
example (R : BinRound rnd) (kind : PPKind) :
    (∃ r, vertsolve1 113 (Rfl.fin (1 / 10)) kind
      (fun P Sp Tp => zeroPotential (fun s t _ => s - t) P Sp Tp (Rfl.fin 0) (Rfl.fin 29)) (exCastR rnd) = .ret r) ∧
    (∃ r, vertsolve1 113 (Rfl.fin (1 / 10)) kind
      (fun P Sp Tp => zeroAnomaly (fun s t _ => s - t) P Sp Tp (Rfl.fin 35, Rfl.fin 5) (Rfl.fin (-1))) (exCastR rnd) = .ret r) ∧
    (∃ r, omegaSolve1 113 (Rfl.fin (1 / 10)) kind (fun s t _ => s - t) (Rfl.fin (1 / 2)) (Rfl.fin 35, Rfl.fin 7, Rfl.fin 1)
      (exCastR rnd) = .ret r) := by
  refine ⟨?_, ?_, ?_⟩
  · obtain ⟨r, h, _⟩ := potential_accurate R kind (exEosBox R.toStdRound) (exCastBox R) (tol := 1 / 10) (refP := 0) (isoval := 29)
      (by norm_num [exBox]) (by norm_num) 100 (by norm_num [exA])
    exact ⟨r, h⟩
  · obtain ⟨r, h, _⟩ := anomaly_accurate R kind (exEosBox R.toStdRound) (exCastBox R) (tol := 1 / 10) (refS := 35) (refT := 5)
      (isoval := -1) (W := 100)
      (fun p h1 h2 => by
        simp only [exBox] at h1 h2
        norm_num [Box.In, exBox]; exact ⟨h1, h2⟩)
      (fun s t p h => by
        obtain ⟨h1, h2, h3, h4, _⟩ := h
        simp only [exBox] at h1 h2 h3 h4
        have e1 := R.toStdRound.le_of_nonneg (show (0 : ℝ) ≤ s - t by linarith)
        have e2 := R.toStdRound.le_of_nonneg (show (0 : ℝ) ≤ 35 - 5 by norm_num)
        rw [abs_le]
        generalize rnd (35 - 5) = u at *
        generalize rnd (s - t) = w at *
        norm_num at e1 e2
        constructor <;> linarith [e1.1, e1.2, e2.1, e2.2]) (by norm_num) 100 (by norm_num [exA])
    exact ⟨r, h⟩
  · obtain ⟨r, h, _⟩ := omega_accurate R kind (exEosBox R.toStdRound) (exCastBox R) (tol := 1 / 10) (phi := 1 / 2) (s0 := 35) (t0 := 7)
      (p0 := 1) (by norm_num) (by norm_num [Box.In, exBox]) R.one (le_refl _) (by norm_num) 100 (by norm_num [exA])
    exact ⟨r, h⟩

end VertSolve
