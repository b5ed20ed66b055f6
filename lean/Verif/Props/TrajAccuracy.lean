import Verif.Props.SolveAccuracy

/-!
# A neutral trajectory computed in floating point follows the exact one (C172)
-/

set_option linter.unusedSectionVars false

namespace Traj
open FloatLike Fzero Interp

variable {rnd : ℝ → ℝ} {b : Box} {eS eT : ℝ} {eos : Rfl rnd → Rfl rnd → Rfl rnd → Rfl rnd} {e E : ℝ → ℝ → ℝ → ℝ}
  {η Ls Lt Lp : ℝ}

/-- A cast of a section: the data, the exact interpolants `gS`, `gT` of its salinity and temperature, and the exact pressure `z` of
the trajectory on it. -/
structure Station (rnd : ℝ → ℝ) where
  c : Cast (Rfl rnd)
  (k K : ℕ)
  (a s t : ℕ → ℝ)
  (gS gT : ℝ → ℝ)
  z : ℝ

/-- Pressure of the first datum. -/
def Station.top (S : Station rnd) : ℝ := S.a S.k
/-- Pressure of the last datum. -/
def Station.bot (S : Station rnd) : ℝ := S.a (S.K - 1)

/-- The data of the station is in the box, short enough for `n` passes of the solver, its exact interpolants are `gS` and `gT`, with
slopes at most `MS` and `MT`, and `z` is in the range of the data. -/
structure Station.OK (S : Station rnd) (b : Box) (kind : PPKind) (eS eT MS MT tol : ℝ) (n : ℕ) : Prop where
  box : CastBox b S.c S.k S.K S.a S.s S.t eS eT
  steps : 5 / 2 * (S.bot - S.top) / tol ≤ n
  interp : ∀ x, S.top ≤ x → x ≤ S.bot → interpAt kind (Fl.fin x) (exactArr S.c.P) (exactArr S.c.S) = some (Fl.fin (S.gS x)) ∧
    interpAt kind (Fl.fin x) (exactArr S.c.P) (exactArr S.c.T) = some (Fl.fin (S.gT x))
  lipS : ∀ x y, S.top ≤ x → x ≤ S.bot → S.top ≤ y → y ≤ S.bot → |S.gS x - S.gS y| ≤ MS * |x - y|
  lipT : ∀ x y, S.top ≤ x → x ≤ S.bot → S.top ≤ y → y ≤ S.bot → |S.gT x - S.gT y| ≤ MT * |x - y|
  on : S.top ≤ S.z ∧ S.z ≤ S.bot

/-- The exact density difference between the point of the trajectory on `S` and the point of `S'` at pressure `x`, both at the mean of
the two pressures. -/
noncomputable def Station.res (E : ℝ → ℝ → ℝ → ℝ) (S S' : Station rnd) (x : ℝ) : ℝ :=
  E (S.gS S.z) (S.gT S.z) ((S.z + x) / 2) - E (S'.gS x) (S'.gT x) ((S.z + x) / 2)

/-- The exact trajectory goes from `S` to `S'`, across which it is stratified: the difference vanishes at the exact pressure of `S'`
and is monotonic with slope at least `m`. -/
structure Station.Link (E : ℝ → ℝ → ℝ → ℝ) (m : ℝ) (S S' : Station rnd) : Prop where
  zero : S.res E S' S'.z = 0
  mono : (∀ x y, S'.top ≤ x → x ≤ y → y ≤ S'.bot → m * (y - x) ≤ S.res E S' x - S.res E S' y) ∨
    (∀ x y, S'.top ≤ x → x ≤ y → y ≤ S'.bot → m * (y - x) ≤ S.res E S' y - S.res E S' x)

/-- The exact trajectory through a list of stations. -/
def ExactTraj (E : ℝ → ℝ → ℝ → ℝ) (m : ℝ) : Station rnd → List (Station rnd) → Prop
  | _, [] => True
  | S, S' :: Ss => S.Link E m S' ∧ ExactTraj E m S' Ss

/-- Bound on the error after `i` links, each of which multiplies the error by `ρ` and adds `ε`, from the error `d`. -/
noncomputable def linkErr (ρ ε d : ℝ) (i : ℕ) : ℝ := ρ ^ i * d + ε * ∑ j ∈ Finset.range i, ρ ^ j

theorem linkErr_zero (ρ ε d : ℝ) : linkErr ρ ε d 0 = d := by simp [linkErr]

theorem linkErr_succ (ρ ε d : ℝ) (i : ℕ) : linkErr ρ ε (ρ * d + ε) i = linkErr ρ ε d (i + 1) := by
  unfold linkErr
  rw [Finset.sum_range_succ]
  ring

/-- A bottle computed near the exact point of `S` leads to a bottle near the exact point of `S'`. -/
theorem link_step (R : BinRound rnd) (kind : PPKind) (H : EosBox rnd b eos e E η Ls Lt Lp) {S S' : Station rnd} {MS MT tol m : ℝ} {n : ℕ}
    (hp : rnd b.p0 = b.p0 ∧ rnd b.p1 = b.p1) (htol : 0 < tol) (hm : 0 < m)
    (hMS : 0 ≤ MS) (hMT : 0 ≤ MT) (hS : S.OK b kind eS eT MS MT tol n) (hS' : S'.OK b kind eS eT MS MT tol n) (hl : S.Link E m S')
    {sB tB pB d : ℝ} (hB : b.In sB tB pB) (hrep : rnd pB = pB) (hpB : S.top ≤ pB ∧ pB ≤ S.bot)
    (hd : |pB - S.z| ≤ d) (hs : |sB - S.gS pB| ≤ eS) (ht : |tB - S.gT pB| ≤ eT)
    {δ : ℝ} (hδ : δ = 2 * η + 2 * Ls * eS + 2 * Lt * eT + 2 * Lp * (max |b.p0| |b.p1| / 2 ^ 53))
    {d' : ℝ} (hd' : d' = (Ls * MS + Lt * MT + Lp) / m * d +
      ((2 + 1 / 2 ^ 46) * (2 * (1 / 2 ^ 52) * max |b.p0| |b.p1| + tol) + δ / m))
    (hmar : S'.top + d' ≤ S'.z ∧ S'.z + d' ≤ S'.bot) :
    ∃ s t p, ntpBottleToCast (n + 13) (Rfl.fin tol) eos kind (Rfl.fin sB) (Rfl.fin tB) (Rfl.fin pB) S'.c =
        .ret (Rfl.fin s, Rfl.fin t, Rfl.fin p) ∧ b.In s t p ∧ rnd p = p ∧ S'.top ≤ p ∧ p ≤ S'.bot ∧ |p - S'.z| ≤ d' ∧
      |s - S'.gS p| ≤ eS ∧ |t - S'.gT p| ≤ eT := by
  obtain ⟨r, hr, hA⟩ := ntp_accurate R kind H hS'.box hB hp hrep htol n hS'.steps
  obtain ⟨_, _, _, _, hin⟩ := hS.box.inside R.toStdRound kind
  obtain ⟨_, _, _, _, hin'⟩ := hS'.box.inside R.toStdRound kind
  have hAB : S'.top ≤ S'.bot := hS'.on.1.trans hS'.on.2
  have hBox : ∀ x, S'.top ≤ x → x ≤ S'.bot → ∀ q, b.p0 ≤ q → q ≤ b.p1 → b.In (S'.gS x) (S'.gT x) q := by
    intro x h1 h2
    obtain ⟨u1, u2, u3, _⟩ := hin' x h1 h2
    rw [(hS'.interp x h1 h2).1] at u1
    rw [(hS'.interp x h1 h2).2] at u2
    rw [Fl.fin.inj (Option.some.inj u1), Fl.fin.inj (Option.some.inj u2)]
    exact u3
  have hBoxz : ∀ q, b.p0 ≤ q → q ≤ b.p1 → b.In (S.gS S.z) (S.gT S.z) q := by
    obtain ⟨u1, u2, u3, _⟩ := hin S.z hS.on.1 hS.on.2
    rw [(hS.interp _ hS.on.1 hS.on.2).1] at u1
    rw [(hS.interp _ hS.on.1 hS.on.2).2] at u2
    rw [Fl.fin.inj (Option.some.inj u1), Fl.fin.inj (Option.some.inj u2)]
    exact u3
  have hBp := hB.2.2.2.2
  have hPS := hS.box.inP
  have hPS' := hS'.box.inP
  have hd0 : 0 ≤ d := (abs_nonneg _).trans hd
  have heS : 0 ≤ eS := (abs_nonneg _).trans hs
  have heT : 0 ≤ eT := (abs_nonneg _).trans ht
  set δ0 := 2 * η + Ls * eS + Lt * eT + 2 * Lp * (max |b.p0| |b.p1| / 2 ^ 53) with hδ0
  set Λ := Ls * MS + Lt * MT + Lp with hΛ
  -- the residual seen from the computed bottle and from the exact point
  have hcmp : ∀ x, S'.top ≤ x → x ≤ S'.bot →
      |(E sB tB ((pB + x) / 2) - E (S'.gS x) (S'.gT x) ((pB + x) / 2)) - S.res E S' x| ≤ Ls * eS + Lt * eT + Λ * d := by
    intro x h1 h2
    have q1 : b.p0 ≤ (pB + x) / 2 ∧ (pB + x) / 2 ≤ b.p1 := by
      have : b.p0 ≤ x := hPS'.1.trans h1
      have : x ≤ b.p1 := h2.trans hPS'.2
      constructor <;> linarith
    have q2 : b.p0 ≤ (S.z + x) / 2 ∧ (S.z + x) / 2 ≤ b.p1 := by
      have : b.p0 ≤ x := hPS'.1.trans h1
      have : x ≤ b.p1 := h2.trans hPS'.2
      have : b.p0 ≤ S.z := hPS.1.trans hS.on.1
      have : S.z ≤ b.p1 := hS.on.2.trans hPS.2
      constructor <;> linarith
    have e1 := H.lip _ _ _ _ _ _ (show b.In sB tB ((pB + x) / 2) from ⟨hB.1, hB.2.1, hB.2.2.1, hB.2.2.2.1, q1.1, q1.2⟩)
      (hBoxz _ q2.1 q2.2)
    have e2 := H.lip _ _ _ _ _ _ (hBox x h1 h2 _ q1.1 q1.2) (hBox x h1 h2 _ q2.1 q2.2)
    rw [sub_self, sub_self, abs_zero, mul_zero, mul_zero, zero_add, zero_add] at e2
    have e3 : |(pB + x) / 2 - (S.z + x) / 2| ≤ d / 2 := by
      rw [show (pB + x) / 2 - (S.z + x) / 2 = (pB - S.z) / 2 by ring, abs_div, abs_of_pos (two_pos (α := ℝ))]
      exact div_le_div_of_nonneg_right hd two_pos.le
    have l1 := hS.lipS pB S.z hpB.1 hpB.2 hS.on.1 hS.on.2
    have l2 := hS.lipT pB S.z hpB.1 hpB.2 hS.on.1 hS.on.2
    have f1 : Ls * |sB - S.gS S.z| ≤ Ls * (eS + MS * d) := by
      refine mul_le_mul_of_nonneg_left ?_ H.ls
      have := abs_sub_le sB (S.gS pB) (S.gS S.z)
      have := mul_le_mul_of_nonneg_left hd hMS
      linarith
    have f2 : Lt * |tB - S.gT S.z| ≤ Lt * (eT + MT * d) := by
      refine mul_le_mul_of_nonneg_left ?_ H.lt
      have := abs_sub_le tB (S.gT pB) (S.gT S.z)
      have := mul_le_mul_of_nonneg_left hd hMT
      linarith
    have f3 := mul_le_mul_of_nonneg_left e3 H.lp
    unfold Station.res
    rw [show E sB tB ((pB + x) / 2) - E (S'.gS x) (S'.gT x) ((pB + x) / 2) -
        (E (S.gS S.z) (S.gT S.z) ((S.z + x) / 2) - E (S'.gS x) (S'.gT x) ((S.z + x) / 2)) =
      (E sB tB ((pB + x) / 2) - E (S.gS S.z) (S.gT S.z) ((S.z + x) / 2)) -
        (E (S'.gS x) (S'.gT x) ((pB + x) / 2) - E (S'.gS x) (S'.gT x) ((S.z + x) / 2)) by ring]
    refine (abs_sub _ _).trans ?_
    rw [hΛ]
    linarith
  set τ := (2 + 1 / 2 ^ 46) * (2 * (1 / 2 ^ 52) * max |b.p0| |b.p1| + tol) with hτ
  have hτ0 : 0 < τ := by
    have : 0 ≤ max |b.p0| |b.p1| := (abs_nonneg _).trans (le_max_left _ _)
    positivity
  have hmd : m * d' = Λ * d + m * τ + δ := by
    rw [hd']
    field_simp
    ring
  have hmτ : 0 < m * τ := mul_pos hm hτ0
  have hδ' : δ = δ0 + (Ls * eS + Lt * eT) := by rw [hδ, hδ0]; ring
  have hsep : ∀ x, S'.top ≤ x → x ≤ S'.bot → m * |x - S'.z| ≤ |S.res E S' x| := by
    intro x h1 h2
    have hz := hl.zero
    rcases le_total x S'.z with h | h
    · rw [abs_of_nonpos (by linarith : x - S'.z ≤ 0)]
      rcases hl.mono with hmo | hmo
      · have := hmo x S'.z h1 h hS'.on.2
        rw [hz] at this
        exact le_trans (by linarith) (le_abs_self _)
      · have := hmo x S'.z h1 h hS'.on.2
        rw [hz] at this
        exact le_trans (by linarith) (neg_le_abs _)
    · rw [abs_of_nonneg (by linarith : 0 ≤ x - S'.z)]
      rcases hl.mono with hmo | hmo
      · have := hmo S'.z x hS'.on.1 h h2
        rw [hz] at this
        exact le_trans (by linarith) (neg_le_abs _)
      · have := hmo S'.z x hS'.on.1 h h2
        rw [hz] at this
        exact le_trans (by linarith) (le_abs_self _)
  obtain ⟨fS, fT, hf, hA⟩ := hA
  have eqS : ∀ x, S'.top ≤ x → x ≤ S'.bot → fS x = S'.gS x ∧ fT x = S'.gT x := by
    intro x h1 h2
    have u1 := (hf x h1 h2).1
    have u2 := (hf x h1 h2).2
    rw [(hS'.interp x h1 h2).1] at u1
    rw [(hS'.interp x h1 h2).2] at u2
    exact ⟨(Fl.fin.inj (Option.some.inj u1)).symm, (Fl.fin.inj (Option.some.inj u2)).symm⟩
  rcases hA with ⟨_, h⟩ | ⟨s, t, p, z, hr', p1, p2, h1, h2, z1, z2, h3, h4⟩
  · exfalso
    change ((-δ0 < E sB tB ((pB + S'.top) / 2) - E (fS S'.top) (fT S'.top) ((pB + S'.top) / 2) ∧
      -δ0 < E sB tB ((pB + S'.bot) / 2) - E (fS S'.bot) (fT S'.bot) ((pB + S'.bot) / 2)) ∨
      (E sB tB ((pB + S'.top) / 2) - E (fS S'.top) (fT S'.top) ((pB + S'.top) / 2) < δ0 ∧
      E sB tB ((pB + S'.bot) / 2) - E (fS S'.bot) (fT S'.bot) ((pB + S'.bot) / 2) < δ0)) at h
    rw [(eqS _ (le_refl _) hAB).1, (eqS _ (le_refl _) hAB).2, (eqS _ hAB (le_refl _)).1, (eqS _ hAB (le_refl _)).2] at h
    have c1 := abs_le.mp (hcmp _ (le_refl _) hAB)
    have c2 := abs_le.mp (hcmp _ hAB (le_refl _))
    have m1 := mul_le_mul_of_nonneg_left (show d' ≤ S'.z - S'.top by linarith [hmar.1]) hm.le
    have m2 := mul_le_mul_of_nonneg_left (show d' ≤ S'.bot - S'.z by linarith [hmar.2]) hm.le
    have hz := hl.zero
    rcases hl.mono with hmo | hmo
    · have n1 := hmo _ _ (le_refl _) hS'.on.1 hS'.on.2
      have n2 := hmo _ _ hS'.on.1 hS'.on.2 (le_refl _)
      rw [hz] at n1 n2
      rcases h with h | h
      · linarith [h.2, c2.2]
      · linarith [h.1, c1.1]
    · have n1 := hmo _ _ (le_refl _) hS'.on.1 hS'.on.2
      have n2 := hmo _ _ hS'.on.1 hS'.on.2 (le_refl _)
      rw [hz] at n1 n2
      rcases h with h | h
      · linarith [h.1, c1.2]
      · linarith [h.2, c2.1]
  · subst hr'
    rw [(eqS p p1 p2).1] at h1
    rw [(eqS p p1 p2).2] at h2
    rw [(eqS z z1 z2).1, (eqS z z1 z2).2] at h3
    have hpb : b.p0 ≤ p ∧ p ≤ b.p1 := ⟨hPS'.1.trans p1, p2.trans hPS'.2⟩
    have hOK : CastOKR kind b.In b.p0 b.p1 tol n S'.c :=
      ⟨S'.k, S'.K, S'.a, S'.s, S'.t, hS'.box.good, fun q q1 q2 x s t x1 x2 hs ht => ((hin' x x1 x2).2.2.2 s t hs ht).1 q q1 q2,
        hPS'.1, hPS'.2, hS'.box.rep.1, hS'.box.rep.2, hS'.steps⟩
    obtain ⟨r', hr2, _, hb⟩ := ntp_linkR R kind H.val hp.1 hp.2 (sB := sB) (tB := tB)
      (fun q q1 q2 => ⟨hB.1, hB.2.1, hB.2.2.1, hB.2.2.2.1, q1, q2⟩) hBp.1 hBp.2 hrep htol hOK
    rw [hr] at hr2
    cases hr2
    rcases hb with hb | ⟨s1, t1, p1', hb, hb1, _, _, hb2⟩
    · exact absurd (Prod.mk.inj (Prod.mk.inj hb).2).2 (Rfl.fin_ne_qnan p)
    obtain ⟨e1, e2⟩ := Prod.mk.inj hb
    obtain ⟨e2, e3⟩ := Prod.mk.inj e2
    rw [← Rfl.fin_inj.mp e1, ← Rfl.fin_inj.mp e2] at hb1
    rw [← Rfl.fin_inj.mp e3] at hb2
    refine ⟨s, t, p, hr, hb1 p hpb.1 hpb.2, hb2, p1, p2, ?_, h1, h2⟩
    have hpm : |p| ≤ max |b.p0| |b.p1| := abs_le_max_abs_abs hpb.1 hpb.2
    have h4' : |z - p| ≤ τ := by
      refine h4.trans ?_
      rw [hτ]
      gcongr
    have c := hcmp z z1 z2
    have s1 := hsep z z1 z2
    have s2 : m * |z - S'.z| ≤ Λ * d + δ := by
      have := abs_sub_abs_le_abs_sub (S.res E S' z) (E sB tB ((pB + z) / 2) - E (S'.gS z) (S'.gT z) ((pB + z) / 2))
      rw [abs_sub_comm (S.res E S' z)] at this
      linarith
    have s3 := abs_sub_le p z S'.z
    rw [abs_sub_comm p z] at s3
    have s4 : |z - S'.z| ≤ d' - τ := by
      refine le_of_mul_le_mul_left ?_ hm
      rw [mul_sub, hmd]
      linarith
    linarith

/-- **C172** A neutral trajectory computed in floating point follows the exact one: when the exact trajectory stays inside the data of
every cast by at least the bound on the error, no link is lost, and the pressure on the `i`-th cast is within the bound of the
exact pressure, with salinity and temperature within `eS` and `eT` of the exact interpolants there.  The bound is a geometric
sum: each link adds the tolerance of the solver and the error of the density over the stratification `m`, and multiplies what
was there by the ratio of the greatest and the least slope of the density. -/
theorem trajectory_tracks (R : BinRound rnd) (kind : PPKind) (H : EosBox rnd b eos e E η Ls Lt Lp) {MS MT tol m : ℝ} {n : ℕ}
    (hp : rnd b.p0 = b.p0 ∧ rnd b.p1 = b.p1) (htol : 0 < tol) (hm : 0 < m) (hMS : 0 ≤ MS) (hMT : 0 ≤ MT)
    (S0 : Station rnd) (Ss : List (Station rnd)) (hOK : ∀ S ∈ S0 :: Ss, S.OK b kind eS eT MS MT tol n)
    (hex : ExactTraj E m S0 Ss) (hrep : rnd S0.z = S0.z)
    {δ ε ρ : ℝ} (hδ : δ = 2 * η + 2 * Ls * eS + 2 * Lt * eT + 2 * Lp * (max |b.p0| |b.p1| / 2 ^ 53))
    (hε : ε = (2 + 1 / 2 ^ 46) * (2 * (1 / 2 ^ 52) * max |b.p0| |b.p1| + tol) + δ / m) (hρ : ρ = (Ls * MS + Lt * MT + Lp) / m)
    (hmar : ∀ i S, (S0 :: Ss)[i]? = some S →
      S.top + ε * ∑ j ∈ Finset.range i, ρ ^ j ≤ S.z ∧ S.z + ε * ∑ j ∈ Finset.range i, ρ ^ j ≤ S.bot) :
    ∃ out, neutralTrajectory (n + 13) (Rfl.fin tol) eos kind (Rfl.fin S0.z) ((S0 :: Ss).map Station.c) = .ret out ∧
      out.length = Ss.length + 1 ∧
      ∀ i S, (S0 :: Ss)[i]? = some S → ∃ s t p, out[i]? = some (Rfl.fin s, Rfl.fin t, Rfl.fin p) ∧ S.top ≤ p ∧ p ≤ S.bot ∧
        |p - S.z| ≤ ε * ∑ j ∈ Finset.range i, ρ ^ j ∧ |s - S.gS p| ≤ eS ∧ |t - S.gT p| ≤ eT := by
  have key : ∀ (Ss : List (Station rnd)) (S0 : Station rnd) (sB tB pB d : ℝ), (∀ S ∈ S0 :: Ss, S.OK b kind eS eT MS MT tol n) →
      ExactTraj E m S0 Ss → b.In sB tB pB → rnd pB = pB → S0.top ≤ pB → pB ≤ S0.bot → |pB - S0.z| ≤ d → |sB - S0.gS pB| ≤ eS →
      |tB - S0.gT pB| ≤ eT → (∀ i S, Ss[i]? = some S →
        S.top + linkErr ρ ε d (i + 1) ≤ S.z ∧ S.z + linkErr ρ ε d (i + 1) ≤ S.bot) →
      ∃ out, trajLoop (n + 13) (Rfl.fin tol) eos kind (Rfl.fin sB, Rfl.fin tB, Rfl.fin pB) (Ss.map Station.c) = .ret out ∧
        out.length = Ss.length ∧ ∀ i S, Ss[i]? = some S → ∃ s t p, out[i]? = some (Rfl.fin s, Rfl.fin t, Rfl.fin p) ∧
          S.top ≤ p ∧ p ≤ S.bot ∧ |p - S.z| ≤ linkErr ρ ε d (i + 1) ∧ |s - S.gS p| ≤ eS ∧ |t - S.gT p| ≤ eT := by
    intro Ss
    induction Ss with
    | nil =>
      intro S0 sB tB pB d _ _ _ _ _ _ _ _ _ _
      exact ⟨[], rfl, rfl, fun i S h => by simp at h⟩
    | cons S' Ss ih =>
      intro S0 sB tB pB d hOK hex hB hrep h1 h2 hd hs ht hmar
      have h0 := hmar 0 S' rfl
      rw [← linkErr_succ, linkErr_zero] at h0
      obtain ⟨s, t, p, hr, q1, q2, q3, q4, q5, q6, q7⟩ := link_step R kind H hp htol hm hMS hMT (hOK S0 (by simp)) (hOK S' (by simp))
        hex.1 hB hrep ⟨h1, h2⟩ hd hs ht hδ (d' := ρ * d + ε) (by rw [hρ, hε]) h0
      obtain ⟨out, ho, hlen, hi⟩ := ih S' s t p (ρ * d + ε) (fun S hS => hOK S (List.mem_cons_of_mem _ hS)) hex.2 q1 q2 q3 q4 q5 q6 q7
        (fun i S hS => by rw [linkErr_succ]; exact hmar (i + 1) S hS)
      refine ⟨(Rfl.fin s, Rfl.fin t, Rfl.fin p) :: out, ?_, by simp [hlen], ?_⟩
      · rw [List.map_cons]
        unfold trajLoop
        simp only [hr, Outcome.bind, Rfl.isNaN_fin, ho]
        rfl
      · intro i S hS
        cases i with
        | zero =>
          have : S' = S := by simpa using hS
          subst this
          exact ⟨s, t, p, rfl, q3, q4, by rw [← linkErr_succ, linkErr_zero]; exact q5, q6, q7⟩
        | succ i =>
          obtain ⟨s', t', p', g⟩ := hi i S (by simpa using hS)
          rw [linkErr_succ] at g
          exact ⟨s', t', p', g⟩
  have hS0 := hOK S0 (by simp)
  obtain ⟨_, _, _, _, hin⟩ := hS0.box.inside R.toStdRound kind
  obtain ⟨Sp, Tp, gS, gT, h1, h2, _, _, h3⟩ := hS0.box.good.curves R.toStdRound kind (D := b.In) (pr := fun _ => S0.z)
    (fun x s t x1 x2 hs ht => ((hin x x1 x2).2.2.2 s t hs ht).1 _ (hS0.box.inP.1.trans hS0.on.1) (hS0.on.2.trans hS0.box.inP.2))
  have htwo := hS0.box.good.S.two
  obtain ⟨v1, v2, v3, v4⟩ := h3 S0.z hS0.on.1 hS0.on.2
  obtain ⟨w1, w2, _, w4⟩ := hin S0.z hS0.on.1 hS0.on.2
  rw [(hS0.interp _ hS0.on.1 hS0.on.2).1] at w1
  rw [(hS0.interp _ hS0.on.1 hS0.on.2).2] at w2
  obtain ⟨w5, w6, w7⟩ := w4 _ _ v2 v3
  rw [← Fl.fin.inj (Option.some.inj w1)] at w6
  rw [← Fl.fin.inj (Option.some.inj w2)] at w7
  obtain ⟨out, ho, hlen, hi⟩ := key Ss S0 _ _ S0.z 0 hOK hex v4 hrep hS0.on.1 hS0.on.2 (by simp) w6 w7 (fun i S hS => by
    have := hmar (i + 1) S (by simpa using hS)
    simpa [linkErr] using this)
  have hst : trajStart kind (Rfl.fin S0.z) S0.c = .ret (Rfl.fin (gS S0.z), Rfl.fin (gT S0.z), Rfl.fin S0.z) := by
    unfold trajStart
    simp only [hS0.box.good.S.vr.2, h1, h2, v1]
    rw [if_neg]
    show ¬ S0.K - S0.k = 0
    omega
  refine ⟨(Rfl.fin (gS S0.z), Rfl.fin (gT S0.z), Rfl.fin S0.z) :: out, ?_, by simp [hlen], ?_⟩
  · rw [List.map_cons]
    unfold neutralTrajectory
    simp only [hst, Outcome.bind, Rfl.isNaN_fin, ho]
    rfl
  · intro i S hS
    cases i with
    | zero =>
      have : S0 = S := by simpa using hS
      subst this
      exact ⟨_, _, _, rfl, hS0.on.1, hS0.on.2, by simp, w6, w7⟩
    | succ i =>
      obtain ⟨s', t', p', g⟩ := hi i S (by simpa using hS)
      simp only [linkErr, mul_zero, zero_add] at g
      exact ⟨s', t', p', g⟩

/-! ## An example -/

/-- the example cast as a station, with the trajectory at pressure 2 -/
def exStation (rnd : ℝ → ℝ) : Station rnd := ⟨exCastR rnd, 1, 4, exA, exS, exT, fun x => 34 + x, fun x => 8 - x, 2⟩

theorem exStation_ok (R : BinRound rnd) : (exStation rnd).OK exBox .linear (4000 / 2 ^ 53) (4000 / 2 ^ 53) 1 1 (1 / 10) 100 := by
  have e1 : (exStation rnd).top = 0 := by norm_num [exStation, Station.top, exA]
  have e4 : (exStation rnd).bot = 4 := by norm_num [exStation, Station.bot, exA]
  refine ⟨exCastBox R, ?_, ?_, ?_, ?_, ?_⟩
  · rw [e1, e4]; norm_num
  · rw [e1, e4]; exact fun x h1 h2 => exLines h1 h2
  · intro x y _ _ _ _
    show |34 + x - (34 + y)| ≤ _
    rw [add_sub_add_left_eq_sub, one_mul]
  · intro x y _ _ _ _
    show |8 - x - (8 - y)| ≤ _
    rw [sub_sub_sub_cancel_left, one_mul, abs_sub_comm]
  · rw [e1, e4]; norm_num [exStation]

/-- In IEEE rounding to nearest, a trajectory through three of the example casts with solver tolerance 1/10 is within 0.41 of
the exact pressure on the third. -/
example : ∃ out, neutralTrajectory 113 (Rfl.fin (1 / 10) : Rfl Rounding53.rndNear) (fun s t _ => s - t) .linear (Rfl.fin 2)
      [exCastR Rounding53.rndNear, exCastR Rounding53.rndNear, exCastR Rounding53.rndNear] = .ret out ∧
    ∃ s t p, out[2]? = some (Rfl.fin s, Rfl.fin t, Rfl.fin p) ∧ |p - 2| ≤ 41 / 100 := by
  have R := Rounding53.rndNear_bin (α := ℝ)
  have h4 : Rounding53.rndNear (4 : ℝ) = 4 := by
    have h := (exCastBox R).rep.2
    norm_num [exA] at h
    exact h
  have h2 : Rounding53.rndNear (2 : ℝ) = 2 := by
    have := R.two 1; have := R.one
    norm_num at *
    linarith
  have e1 : (exStation Rounding53.rndNear).top = 0 := by norm_num [exStation, Station.top, exA]
  have e4 : (exStation Rounding53.rndNear).bot = 4 := by norm_num [exStation, Station.bot, exA]
  have hres : ∀ x, (exStation Rounding53.rndNear).res (fun s t _ => s - t) (exStation Rounding53.rndNear) x = 2 * (2 - x) := by
    intro x
    simp only [Station.res, exStation]
    ring
  have hl : (exStation Rounding53.rndNear).Link (fun s t _ => s - t) 2 (exStation Rounding53.rndNear) :=
    ⟨by rw [hres]; norm_num [exStation], Or.inl fun x y _ _ _ => by rw [hres, hres]; linarith⟩
  obtain ⟨out, ho, _, hi⟩ := trajectory_tracks R .linear (exEosBox R.toStdRound) (b := exBox) (eS := 4000 / 2 ^ 53) (eT := 4000 / 2 ^ 53)
    (MS := 1) (MT := 1) (tol := 1 / 10) (m := 2) (n := 100) ⟨R.zero, h4⟩ (by norm_num) (by norm_num) (by norm_num) (by norm_num)
    (exStation _) [exStation _, exStation _]
    (fun S hS => by
      have : S = exStation _ := by simpa using hS
      rw [this]; exact exStation_ok R)
    ⟨hl, hl, trivial⟩ h2 rfl rfl rfl (by
      intro i S hS
      have hS' : S = exStation _ ∧ i < 3 := by
        match i, hS with
        | 0, h => exact ⟨by simpa using h.symm, by norm_num⟩
        | 1, h => exact ⟨by simpa using h.symm, by norm_num⟩
        | 2, h => exact ⟨by simpa using h.symm, by norm_num⟩
        | i + 3, h => simp at h
      obtain ⟨rfl, hi⟩ := hS'
      rw [e1, e4]
      interval_cases i <;> norm_num [exStation, exBox, Finset.sum_range_succ])
  refine ⟨out, ho, ?_⟩
  obtain ⟨s, t, p, h, _, _, h', _⟩ := hi 2 _ rfl
  refine ⟨s, t, p, h, h'.trans ?_⟩
  norm_num [exBox, Finset.sum_range_succ]

end Traj
