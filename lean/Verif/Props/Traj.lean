import Verif.Lemmas.Column

/-!
# Neutral tangent planes and trajectories (C07, C36, C37, C38, C65)

`Traj.Col` and `Traj.interpAt` (the public interpolation function) are in `Verif/Lemmas/Column.lean`.
-/

set_option linter.unusedSectionVars false

namespace Traj
open FloatLike Fzero Interp
open Fl hiding nan

/-- A cast with data at the sites `k ≤ i < K`: pressures `a` (increasing), salinity `s`, temperature `t`; `S` and `T`
have the same NaN structure. -/
structure GoodCast (c : Cast (Fl ℝ)) (k K : ℕ) (a s t : ℕ → ℝ) : Prop where
  S : Col c.P c.S k K a s
  T : Col c.P c.T k K a t

/-- The equation of state is finite and continuous for salinities at least `smin`; its value is `e`. -/
structure EosOn (eos : Fl ℝ → Fl ℝ → Fl ℝ → Fl ℝ) (e : ℝ → ℝ → ℝ → ℝ) (smin : ℝ) : Prop where
  val : ∀ s t p, smin ≤ s → eos (fin s) (fin t) (fin p) = fin (e s t p)
  cont : ContinuousOn (fun x : ℝ × ℝ × ℝ => e x.1 x.2.1 x.2.2) {x | smin ≤ x.1}

/-- Search and solve, for continuous functions: with enough passes it succeeds unless the end values have the same strict sign. -/
theorem search_solve {f : Fl ℝ → Fl ℝ} {g : ℝ → ℝ} {x A B t : ℝ} (n : ℕ)
    (hAB : A ≤ B) (hf : FiniteOn f g A B) (hg : ContinuousOn g (Set.Icc A B)) (ht : 0 < t)
    (hn : 2 * (B - A) / t ≤ n) :
    (guessToBounds (n + 13) f (fin x) (fin A) (fin B) = .ret (Fl.nan, Fl.nan) ∧ 0 < g A * g B) ∨
    ∃ a b r z, guessToBounds (n + 13) f (fin x) (fin A) (fin B) = .ret (fin a, fin b) ∧
      brent (n + 13) f (fin a) (fin b) (fin t) = .ret (fin r) ∧ A ≤ r ∧ r ≤ B ∧
      A ≤ z ∧ z ≤ B ∧ g z = 0 ∧ |z - r| ≤ 2 * (2 * (1 / 2 ^ 52) * |r| + t) := by
  rcases guessToBounds_spec (x := x) (n + 13) hAB hf (by omega) with ⟨h, h1⟩ | ⟨a, b, h, h1, h2, h3, h4, _⟩
  · exact Or.inl ⟨h, h1⟩
  · right
    have hf' : FiniteOn f g a b := fun y h5 h6 => hf y (h1.trans h5) (h6.trans h3)
    have hn' : 2 * (b - a) / t ≤ ((n + 12 : ℕ) : ℝ) := by
      refine le_trans ?_ (hn.trans (by push_cast; linarith))
      apply div_le_div_of_nonneg_right _ ht.le
      linarith
    obtain ⟨r, hr, _⟩ := brent_terminates (n + 12) h2 hf' ht hn'
    obtain ⟨y, z, rfl, e1, e2, e3, e4, e5, e6⟩ := brent_root_nearby h2 hf'
      (hg.mono (Set.Icc_subset_Icc h1 h3)) ht.le h4 hr
    exact ⟨a, b, y, z, h, hr, h1.trans e1, e2.trans h3, h1.trans e3, e4.trans h3, e5, e6⟩

variable {c : Cast (Fl ℝ)} {k K : ℕ} {a s t : ℕ → ℝ} {eos : Fl ℝ → Fl ℝ → Fl ℝ → Fl ℝ} {e : ℝ → ℝ → ℝ → ℝ} {smin : ℝ}

/-- The interpolants of a good cast, with salinity at least `smin`. -/
theorem GoodCast.curves (kind : PPKind) (G : GoodCast c k K a s t) (hs : ∀ i, k ≤ i → i < K → smin ≤ s i) :
    ∃ (Sp Tp : PPC (Fl ℝ)) (gS gT : ℝ → ℝ),
      ppcFn kind (c.P.slice k K) (c.S.slice k K) = some Sp ∧ ppcFn kind (c.P.slice k K) (c.T.slice k K) = some Tp ∧
      (∀ x, a k ≤ x → x ≤ a (K - 1) → ppval1NonanTwo (fin x) (c.P.slice k K) Sp Tp 0 = (fin (gS x), fin (gT x)) ∧
        interpAt kind (fin x) c.P c.S = some (fin (gS x)) ∧ interpAt kind (fin x) c.P c.T = some (fin (gT x)) ∧
        smin ≤ gS x) ∧
      (∀ x, x < a k ∨ a (K - 1) < x → ppval1NonanTwo (fin x) (c.P.slice k K) Sp Tp 0 = (Fl.nan, Fl.nan)) ∧
      ContinuousOn gS (Set.Icc (a k) (a (K - 1))) ∧ ContinuousOn gT (Set.Icc (a k) (a (K - 1))) := by
  obtain ⟨Sp, gS, h1, h2, h3, h4, h5, h6⟩ := G.S.curve kind
  obtain ⟨Tp, gT, i1, i2, i3, i4, i5, i6⟩ := G.T.curve kind
  have htwo := G.S.two
  refine ⟨Sp, Tp, gS, gT, h1, i1, ?_, ?_, h4, i4⟩
  · intro x hx hx'
    rw [ppval1NonanTwo_eq, (h2 x hx hx').1, (i2 x hx hx').1]
    refine ⟨rfl, (h2 x hx hx').2, (i2 x hx hx').2, ?_⟩
    have B := G.S.block
    have ho := (B.outside_iff x).mpr ⟨hx, by
      show x ≤ a (k + (K - k - 1)); rw [show k + (K - k - 1) = K - 1 by omega]; exact hx'⟩
    obtain ⟨e1, e2, e3, e4, _⟩ := pieceIndex_bracket B.hX B.mono ho
    have := (h6 (k + pieceIndex (c.P.slice k K) 0 (K - k) (fin x)) (by omega) (by omega) x e3 e4).1
    exact le_trans (le_min (hs _ (by omega) (by omega)) (hs _ (by omega) (by omega))) this
  · intro x hx
    rw [ppval1NonanTwo_eq, (h3 x hx).1, (i3 x hx).1]

/-- Continuity of the density along the cast. -/
theorem EosOn.along (E : EosOn eos e smin) {gS gT gP : ℝ → ℝ} {A B : ℝ} (h1 : ContinuousOn gS (Set.Icc A B))
    (h2 : ContinuousOn gT (Set.Icc A B)) (h3 : ContinuousOn gP (Set.Icc A B))
    (hs : ∀ x, A ≤ x → x ≤ B → smin ≤ gS x) :
    ContinuousOn (fun x => e (gS x) (gT x) (gP x)) (Set.Icc A B) :=
  E.cont.comp (h1.prodMk (h2.prodMk h3)) (fun x hx => hs x hx.1 hx.2)

/-- **C36** `ntp_bottle_to_cast` on a cast with two or more valid sites: with enough loop passes it returns; either all
outputs are NaN and the density differences at the two ends of the cast have the same strict sign, or `p` is in the data
range, `s` and `t` are the interpolants at `p`, and a point `z` of exact neutrality lies within
`2*(2*eps*|p|+tol_p)` of `p`. -/
theorem ntp_spec (kind : PPKind) (E : EosOn eos e smin) (G : GoodCast c k K a s t)
    (hs : ∀ i, k ≤ i → i < K → smin ≤ s i) {sB tB pB tol : ℝ} (hsB : smin ≤ sB) (htol : 0 < tol) (n : ℕ)
    (hn : 2 * (a (K - 1) - a k) / tol ≤ n) :
    ∃ gS gT : ℝ → ℝ,
      (∀ x, a k ≤ x → x ≤ a (K - 1) → interpAt kind (fin x) c.P c.S = some (fin (gS x)) ∧
        interpAt kind (fin x) c.P c.T = some (fin (gT x))) ∧
      ((ntpBottleToCast (n + 13) (fin tol) eos kind (fin sB) (fin tB) (fin pB) c = .ret (Fl.nan, Fl.nan, Fl.nan) ∧
        0 < (e sB tB ((pB + a k) / 2) - e (gS (a k)) (gT (a k)) ((pB + a k) / 2)) *
          (e sB tB ((pB + a (K - 1)) / 2) - e (gS (a (K - 1))) (gT (a (K - 1))) ((pB + a (K - 1)) / 2))) ∨
      ∃ p z, ntpBottleToCast (n + 13) (fin tol) eos kind (fin sB) (fin tB) (fin pB) c = .ret (fin (gS p), fin (gT p), fin p) ∧
        a k ≤ p ∧ p ≤ a (K - 1) ∧ a k ≤ z ∧ z ≤ a (K - 1) ∧
        e sB tB ((pB + z) / 2) = e (gS z) (gT z) ((pB + z) / 2) ∧ |z - p| ≤ 2 * (2 * (1 / 2 ^ 52) * |p| + tol)) := by
  obtain ⟨Sp, Tp, gS, gT, h1, h2, h3, h4, h5, h6⟩ := G.curves kind hs
  have htwo := G.S.two
  have hAB := G.S.a_le
  refine ⟨gS, gT, fun x hx hx' => ⟨(h3 x hx hx').2.1, (h3 x hx hx').2.2.1⟩, ?_⟩
  have hP0 : (c.P.slice k K).get 0 = fin (a k) := G.S.hX k (le_refl _) (by omega)
  have hP1 : (c.P.slice k K).get ((c.P.slice k K).size - 1) = fin (a (K - 1)) := by
    show c.P.get (k + (K - k - 1)) = _
    rw [show k + (K - k - 1) = K - 1 by omega]
    exact G.S.hX (K - 1) (by omega) (by omega)
  have hf : FiniteOn (potDensDiff eos (fin sB) (fin tB) (fin pB) (c.P.slice k K) Sp Tp)
      (fun x => e sB tB ((pB + x) / 2) - e (gS x) (gT x) ((pB + x) / 2)) (a k) (a (K - 1)) := by
    intro x hx hx'
    unfold potDensDiff
    rw [(h3 x hx hx').1]
    simp only [fin_add, lit_eq, fin_mul]
    have e2 : (pB + x) * (((1 / 2 : ℚ)) : ℝ) = (pB + x) / 2 := by push_cast; ring
    rw [e2, E.val _ _ _ hsB, E.val _ _ _ (h3 x hx hx').2.2.2, fin_sub]
  have hg : ContinuousOn (fun x => e sB tB ((pB + x) / 2) - e (gS x) (gT x) ((pB + x) / 2)) (Set.Icc (a k) (a (K - 1))) := by
    have hp : ContinuousOn (fun x : ℝ => (pB + x) / 2) (Set.Icc (a k) (a (K - 1))) := by fun_prop
    exact (E.along (gS := fun _ => sB) (gT := fun _ => tB) continuousOn_const continuousOn_const hp (fun _ _ _ => hsB)).sub
      (E.along h5 h6 hp (fun x hx hx' => (h3 x hx hx').2.2.2))
  unfold ntpBottleToCast ntpCast
  rw [G.S.vr.2]
  simp only [h1, h2]
  rw [if_pos (by omega)]
  unfold ntpPpc solveRoot
  rw [hP0, hP1]
  rcases search_solve (x := pB) n hAB hf hg htol hn with ⟨h, h'⟩ | ⟨lb, ub, r, z, hb, hr, r1, r2, z1, z2, hz, hd⟩
  · left
    rw [h]
    exact ⟨rfl, h'⟩
  · right
    refine ⟨r, z, ?_, r1, r2, z1, z2, by linarith, hd⟩
    rw [hb]
    simp only [Outcome.bind, isFinite_fin, if_true, hr]
    rw [(h3 r r1 r2).1]

/-- **C36** If the density difference changes sign (or vanishes) between the ends of the cast, a point is found. -/
theorem ntp_finds (kind : PPKind) (E : EosOn eos e smin) (G : GoodCast c k K a s t)
    (hs : ∀ i, k ≤ i → i < K → smin ≤ s i) {sB tB pB tol : ℝ} (hsB : smin ≤ sB) (htol : 0 < tol) (n : ℕ)
    (hn : 2 * (a (K - 1) - a k) / tol ≤ n)
    (hch : (e sB tB ((pB + a k) / 2) - e (s k) (t k) ((pB + a k) / 2)) *
      (e sB tB ((pB + a (K - 1)) / 2) - e (s (K - 1)) (t (K - 1)) ((pB + a (K - 1)) / 2)) ≤ 0) :
    ∃ s' t' p, ntpBottleToCast (n + 13) (fin tol) eos kind (fin sB) (fin tB) (fin pB) c = .ret (fin s', fin t', fin p) ∧
      interpAt kind (fin p) c.P c.S = some (fin s') ∧ interpAt kind (fin p) c.P c.T = some (fin t') := by
  obtain ⟨gS, gT, hi, h⟩ := ntp_spec kind E G hs (sB := sB) (tB := tB) (pB := pB) hsB htol n hn
  have htwo := G.S.two
  have hAB := G.S.a_le
  have end1 : gS (a k) = s k ∧ gT (a k) = t k := by
    obtain ⟨_, g, _, q, _, _, w, _⟩ := G.S.curve kind
    obtain ⟨_, g', _, q', _, _, w', _⟩ := G.T.curve kind
    have e1 := (hi (a k) (le_refl _) hAB)
    rw [(q _ (le_refl _) hAB).2, (q' _ (le_refl _) hAB).2, w k (le_refl _) (by omega), w' k (le_refl _) (by omega)] at e1
    simp only [Option.some.injEq, Fl.fin.injEq] at e1
    exact ⟨e1.1.symm, e1.2.symm⟩
  have end2 : gS (a (K - 1)) = s (K - 1) ∧ gT (a (K - 1)) = t (K - 1) := by
    obtain ⟨_, g, _, q, _, _, w, _⟩ := G.S.curve kind
    obtain ⟨_, g', _, q', _, _, w', _⟩ := G.T.curve kind
    have e1 := (hi (a (K - 1)) hAB (le_refl _))
    rw [(q _ hAB (le_refl _)).2, (q' _ hAB (le_refl _)).2, w (K - 1) (by omega) (by omega), w' (K - 1) (by omega) (by omega)] at e1
    simp only [Option.some.injEq, Fl.fin.injEq] at e1
    exact ⟨e1.1.symm, e1.2.symm⟩
  rcases h with ⟨_, h⟩ | ⟨p, z, hr, p1, p2, _⟩
  · rw [end1.1, end1.2, end2.1, end2.2] at h
    exact absurd h (not_lt.mpr hch)
  · exact ⟨_, _, p, hr, (hi p p1 p2).1, (hi p p1 p2).2⟩

/-- **C36** Under two valid sites the result is NaN (any arithmetic, any data). -/
theorem ntp_few {F : Type*} [FloatLike F] (fuel : ℕ) (tol : F) (eos : F → F → F → F) (kind : PPKind) (sB tB pB : F) (c : Cast F)
    (h : (validRange2 c.S c.P).2 ≤ (validRange2 c.S c.P).1 + 1) :
    ntpBottleToCast fuel tol eos kind sB tB pB c = .ret (nan, nan, nan) := by
  unfold ntpBottleToCast ntpCast
  rw [if_neg (by omega)]

/-- **C36** In any arithmetic `s` and `t` are non-NaN only if `p` is finite: if `p` is not finite then `s = t = NaN`. -/
theorem ntp_nan_together {F : Type*} [FloatLike F] {fuel : ℕ} {tol : F} {eos : F → F → F → F} {kind : PPKind} {sB tB pB : F}
    {c : Cast F} {r : F × F × F} (h : ntpBottleToCast fuel tol eos kind sB tB pB c = .ret r) (hp : isFinite r.2.2 = false) :
    r.1 = nan ∧ r.2.1 = nan := by
  unfold ntpBottleToCast ntpCast at h
  split_ifs at h with h1
  · simp only at h
    split at h
    · rename_i Sp Tp _ _
      generalize ntpPpc fuel tol eos sB tB pB (c.P.slice _ _) Sp Tp = o at h
      cases o <;> simp only [Outcome.bind] at h <;> try cases h
      split_ifs at h with h2
      · cases h; simp only at hp; rw [h2] at hp; cases hp
      · cases h; exact ⟨rfl, rfl⟩
    · cases h
  · cases h; exact ⟨rfl, rfl⟩

/-- A cast used in examples: pressures 0, 1, 3; salinity 35, 36, 37; temperature 5, 4, 3; one NaN site on each side. -/
def exCast : Cast (Fl ℝ) :=
  ⟨Arr.ofList [Fl.nan, fin 35, fin 36, fin 37, Fl.nan], Arr.ofList [Fl.nan, fin 5, fin 4, fin 3, Fl.nan],
    Arr.ofList [fin (-1), fin 0, fin 1, fin 3, fin 5]⟩

theorem exGood : GoodCast exCast 1 4 (fun i => if i = 1 then 0 else if i = 2 then 1 else 3)
    (fun i => if i = 1 then 35 else if i = 2 then 36 else 37) (fun i => if i = 1 then 5 else if i = 2 then 4 else 3) := by
  constructor
  all_goals
    refine ⟨rfl, by omega, by decide, ?_, fun _ => Or.inr rfl, ?_, ?_, ?_⟩
    · intro i hi
      have : i = 0 := by omega
      subst this; exact Or.inr rfl
    · intro i h1 h2
      have : i = 1 ∨ i = 2 ∨ i = 3 := by omega
      rcases this with rfl | rfl | rfl <;> rfl
    · intro i h1 h2
      have : i = 1 ∨ i = 2 ∨ i = 3 := by omega
      rcases this with rfl | rfl | rfl <;> rfl
    · intro i h1 h2
      have : i = 1 ∨ i = 2 := by omega
      rcases this with rfl | rfl <;> norm_num

/-- a linear equation of state `s - t` -/
theorem exEos : EosOn (fun s t _ => s - t) (fun s t _ => s - t) 0 :=
  ⟨fun s t p _ => by simp, by fun_prop⟩

example : (∀ i, 1 ≤ i → i < 4 → (0 : ℝ) ≤ (fun i => if i = 1 then 35 else if i = 2 then 36 else 37 : ℕ → ℝ) i) ∧
    (((36.5 : ℝ) - 4) - (35 - 5)) * ((36.5 - 4) - (37 - 3)) ≤ 0 := by
  constructor
  · intro i _ _; simp only; split_ifs <;> norm_num
  · norm_num

/-! ## C37 trajectories -/

section trajectories
variable {F : Type*} [FloatLike F]

theorem bind_ret {R Q : Type*} {o : Outcome R} {g : R → Outcome Q} {q : Q} (h : o.bind g = .ret q) :
    ∃ r, o = .ret r ∧ g r = .ret q := by
  cases o <;> simp only [Outcome.bind] at h <;> first | exact ⟨_, rfl, h⟩ | cases h

/-- Specification: `out` continues a trajectory from `b` through `casts`: each entry is linked to the one before it, and
once a pressure is NaN everything after is NaN. -/
def Linked (link : F × F × F → Cast F → F × F × F → Prop) : F × F × F → List (Cast F) → List (F × F × F) → Prop
  | _, [], out => out = []
  | b, c :: cs, out => ∃ b' out', out = b' :: out' ∧
      (isNaN b.2.2 = true → b' = (nan, nan, nan)) ∧ (isNaN b.2.2 = false → link b c b') ∧ Linked link b' cs out'

theorem linked_nan (hn : isNaN (nan : F) = true) (link : F × F × F → Cast F → F × F × F → Prop) (cs : List (Cast F)) :
    ∀ b : F × F × F, isNaN b.2.2 = true → Linked link b cs (cs.map fun _ => (nan, nan, nan)) := by
  induction cs with
  | nil => intro b _; rfl
  | cons c cs ih =>
    intro b hb
    exact ⟨_, _, rfl, fun _ => rfl, fun h => (by rw [hb] at h; cases h), ih _ hn⟩

theorem linked_unique {link : F × F × F → Cast F → F × F × F → Prop}
    (hu : ∀ b c x y, link b c x → link b c y → x = y) (cs : List (Cast F)) :
    ∀ (b : F × F × F) (o o' : List (F × F × F)), Linked link b cs o → Linked link b cs o' → o = o' := by
  induction cs with
  | nil => intro b o o' h h'; rw [h, h']
  | cons c cs ih =>
    rintro b o o' ⟨x, u, rfl, h1, h2, h3⟩ ⟨y, v, rfl, i1, i2, i3⟩
    have e : x = y := by
      cases hb : isNaN b.2.2 with
      | true => rw [h1 hb, i1 hb]
      | false => exact hu _ _ _ _ (h2 hb) (i2 hb)
    subst e
    rw [ih x u v h3 i3]

theorem trajLoop_linked (hn : isNaN (nan : F) = true) {fuel : ℕ} {tol : F} {eos : F → F → F → F} {kind : PPKind} (cs : List (Cast F)) :
    ∀ (b : F × F × F) (out : List (F × F × F)), isNaN b.2.2 = false → trajLoop fuel tol eos kind b cs = .ret out →
    Linked (fun b c b' => ntpBottleToCast fuel tol eos kind b.1 b.2.1 b.2.2 c = .ret b') b cs out := by
  induction cs with
  | nil => intro b out _ h; cases h; rfl
  | cons c cs ih =>
    intro b out hb h
    unfold trajLoop at h
    obtain ⟨b', h1, h2⟩ := bind_ret h
    split_ifs at h2 with h3
    · cases h2
      exact ⟨_, _, rfl, fun h => (by rw [hb] at h; cases h), fun _ => h1, linked_nan hn _ _ _ h3⟩
    · obtain ⟨r, h4, h5⟩ := bind_ret h2
      cases h5
      exact ⟨_, _, rfl, fun h => (by rw [hb] at h; cases h), fun _ => h1, ih b' r (by simpa using h3) h4⟩

/-- **C37** Any arithmetic, any casts: the first pressure is `p0`, every later bottle is the neutral tangent link from the
one before it (as `ntp_bottle_to_cast` computes it), and after the first NaN pressure all outputs are NaN. -/
theorem trajectory_spec (hn : isNaN (nan : F) = true) {fuel : ℕ} {tol : F} {eos : F → F → F → F} {kind : PPKind} {p0 : F} {c : Cast F}
    {cs : List (Cast F)} {out : List (F × F × F)} (h : neutralTrajectory fuel tol eos kind p0 (c :: cs) = .ret out) :
    ∃ s0 t0 rest, out = (s0, t0, p0) :: rest ∧
      Linked (fun b c b' => ntpBottleToCast fuel tol eos kind b.1 b.2.1 b.2.2 c = .ret b') (s0, t0, p0) cs rest := by
  unfold neutralTrajectory at h
  obtain ⟨b, h1, h2⟩ := bind_ret h
  have hb : b = (b.1, b.2.1, p0) := by
    unfold trajStart at h1
    simp only at h1
    split_ifs at h1
    split at h1
    · cases h1; rfl
    · cases h1
  split_ifs at h2 with h3
  · cases h2
    refine ⟨b.1, b.2.1, _, by rw [← hb], ?_⟩
    rw [← hb]
    exact linked_nan hn _ _ _ h3
  · obtain ⟨r, h4, h5⟩ := bind_ret h2
    cases h5
    refine ⟨b.1, b.2.1, r, by rw [← hb], ?_⟩
    rw [← hb]
    exact trajLoop_linked hn _ _ _ (by simpa using h3) h4

theorem Linked.length {link : F × F × F → Cast F → F × F × F → Prop} {cs : List (Cast F)} :
    ∀ {b : F × F × F} {out : List (F × F × F)}, Linked link b cs out → out.length = cs.length := by
  induction cs with
  | nil => rintro b out rfl; rfl
  | cons c cs ih => rintro b out ⟨x, u, rfl, _, _, h⟩; simp [ih h]

theorem trajLoop_prefix {fuel : ℕ} {tol : F} {eos : F → F → F → F} {kind : PPKind} (cs ds : List (Cast F)) :
    ∀ (b : F × F × F) (out : List (F × F × F)), trajLoop fuel tol eos kind b (cs ++ ds) = .ret out →
    trajLoop fuel tol eos kind b cs = .ret (out.take cs.length) := by
  induction cs with
  | nil => intro b out h; rfl
  | cons c cs ih =>
    intro b out h
    rw [List.cons_append] at h
    unfold trajLoop at h ⊢
    obtain ⟨b', h1, h2⟩ := bind_ret h
    rw [h1]
    simp only [Outcome.bind]
    split_ifs at h2 ⊢ with h3
    · cases h2
      rw [List.length_cons, List.take_succ_cons, List.map_append, List.take_append_of_le_length (by simp)]
      simp
    · obtain ⟨r, h4, h5⟩ := bind_ret h2
      cases h5
      rw [ih b' r h4]
      simp

/-- **C37** The first entries of a trajectory depend only on the first casts. -/
theorem trajectory_prefix {fuel : ℕ} {tol : F} {eos : F → F → F → F} {kind : PPKind} {p0 : F} {cs ds : List (Cast F)}
    {out : List (F × F × F)} (h : neutralTrajectory fuel tol eos kind p0 (cs ++ ds) = .ret out) :
    neutralTrajectory fuel tol eos kind p0 cs = .ret (out.take cs.length) := by
  cases cs with
  | nil => rfl
  | cons c cs =>
    rw [List.cons_append] at h
    unfold neutralTrajectory at h ⊢
    obtain ⟨b', h1, h2⟩ := bind_ret h
    simp only [h1, Outcome.bind]
    split_ifs at h2 ⊢ with h3
    · cases h2
      rw [List.length_cons, List.take_succ_cons, List.map_append, List.take_append_of_le_length (by simp)]
      simp
    · obtain ⟨r, h4, h5⟩ := bind_ret h2
      cases h5
      rw [trajLoop_prefix cs ds b' r h4]
      simp

/-- **C37** The output has one entry per cast. -/
theorem trajectory_length (hn : isNaN (nan : F) = true) {fuel : ℕ} {tol : F} {eos : F → F → F → F} {kind : PPKind} {p0 : F}
    {cs : List (Cast F)} {out : List (F × F × F)} (h : neutralTrajectory fuel tol eos kind p0 cs = .ret out) :
    out.length = cs.length := by
  cases cs with
  | nil => cases h; rfl
  | cons c cs =>
    obtain ⟨s0, t0, rest, rfl, hl⟩ := trajectory_spec hn h
    simp [hl.length]

end trajectories

/-- A cast whose data is well formed, with salinity at least `smin`, and short enough for `n` solver passes. -/
def CastOK (smin tol : ℝ) (n : ℕ) (c : Cast (Fl ℝ)) : Prop :=
  ∃ k K a s t, GoodCast c k K a s t ∧ (∀ i, k ≤ i → i < K → smin ≤ s i) ∧ 2 * (a (K - 1) - a k) / tol ≤ n

/-- A point of the trajectory: three numbers, or three NaNs. -/
def AllOrNone (smin : ℝ) (b : Fl ℝ × Fl ℝ × Fl ℝ) : Prop :=
  b = (Fl.nan, Fl.nan, Fl.nan) ∨ ∃ s t p, b = (fin s, fin t, fin p) ∧ smin ≤ s

theorem ntp_total (kind : PPKind) (E : EosOn eos e smin) {tol : ℝ} {n : ℕ} (htol : 0 < tol) (hc : CastOK smin tol n c)
    {sB tB pB : ℝ} (hsB : smin ≤ sB) :
    ∃ b, ntpBottleToCast (n + 13) (fin tol) eos kind (fin sB) (fin tB) (fin pB) c = .ret b ∧ AllOrNone smin b := by
  obtain ⟨k, K, a, s, t, G, hs, hn⟩ := hc
  obtain ⟨gS, gT, hi, h⟩ := ntp_spec kind E G hs (sB := sB) (tB := tB) (pB := pB) hsB htol n hn
  rcases h with ⟨h, _⟩ | ⟨p, z, h, p1, p2, _⟩
  · exact ⟨_, h, Or.inl rfl⟩
  · refine ⟨_, h, Or.inr ⟨_, _, _, rfl, ?_⟩⟩
    obtain ⟨_, _, gS', _, _, _, h3, _⟩ := G.curves kind hs
    have e1 := (hi p p1 p2).1
    rw [(h3 p p1 p2).2.1] at e1
    have := Fl.fin.inj (Option.some.inj e1)
    rw [← this]
    exact (h3 p p1 p2).2.2.2

theorem trajLoop_total (kind : PPKind) (E : EosOn eos e smin) {tol : ℝ} {n : ℕ} (htol : 0 < tol) (cs : List (Cast (Fl ℝ))) :
    (∀ c ∈ cs, CastOK smin tol n c) → ∀ sB tB pB : ℝ, smin ≤ sB →
    ∃ out, trajLoop (n + 13) (fin tol) eos kind (fin sB, fin tB, fin pB) cs = .ret out ∧ ∀ b ∈ out, AllOrNone smin b := by
  induction cs with
  | nil => intro _ _ _ _ _; exact ⟨[], rfl, by simp⟩
  | cons c cs ih =>
    intro h sB tB pB hsB
    obtain ⟨b, hb, hb'⟩ := ntp_total kind E htol (h c (by simp)) (tB := tB) (pB := pB) hsB
    unfold trajLoop
    simp only [hb, Outcome.bind]
    rcases hb' with rfl | ⟨s1, t1, p1, rfl, hs1⟩
    · refine ⟨_, rfl, ?_⟩
      intro b hb
      simp only [List.mem_cons, List.mem_map] at hb
      rcases hb with rfl | ⟨_, _, rfl⟩
      · exact Or.inl rfl
      · exact Or.inl rfl
    · obtain ⟨out, ho, ho'⟩ := ih (fun c hc => h c (by simp [hc])) s1 t1 p1 hs1
      simp only [isNaN_fin, ho]
      refine ⟨(fin s1, fin t1, fin p1) :: out, rfl, ?_⟩
      intro b hb
      rcases List.mem_cons.mp hb with rfl | hb
      · exact Or.inr ⟨_, _, _, rfl, hs1⟩
      · exact ho' b hb

/-- **C37/C38 (partial: `p0` inside the data of the first cast)** On well formed casts `neutral_trajectory` always
returns, and each `(s[c], t[c], p[c])` consists of three numbers or three NaNs.  Missing: `p0` outside the data of the
first cast, where it is false (`trajectory_nan_structure_false`). -/
theorem trajectory_nan_structure_partial (kind : PPKind) (E : EosOn eos e smin) {tol p0 : ℝ} {n : ℕ} (htol : 0 < tol)
    (G : GoodCast c k K a s t) (hs : ∀ i, k ≤ i → i < K → smin ≤ s i) (hp : a k ≤ p0) (hp' : p0 ≤ a (K - 1))
    (cs : List (Cast (Fl ℝ))) (hcs : ∀ c ∈ cs, CastOK smin tol n c) :
    ∃ s0 t0 rest, neutralTrajectory (n + 13) (fin tol) eos kind (fin p0) (c :: cs) = .ret ((fin s0, fin t0, fin p0) :: rest) ∧
      interpAt kind (fin p0) c.P c.S = some (fin s0) ∧ interpAt kind (fin p0) c.P c.T = some (fin t0) ∧
      ∀ b ∈ rest, AllOrNone smin b := by
  obtain ⟨Sp, Tp, gS, gT, h1, h2, h3, _⟩ := G.curves kind hs
  have htwo := G.S.two
  obtain ⟨out, ho, ho'⟩ := trajLoop_total kind E htol cs hcs (gS p0) (gT p0) p0 (h3 p0 hp hp').2.2.2
  refine ⟨gS p0, gT p0, out, ?_, (h3 p0 hp hp').2.1, (h3 p0 hp hp').2.2.1, ho'⟩
  have hst : trajStart kind (fin p0) c = .ret (fin (gS p0), fin (gT p0), fin p0) := by
    unfold trajStart
    simp only [G.S.vr.2, h1, h2, (h3 p0 hp hp').1]
    rw [if_neg]
    show ¬ K - k = 0
    omega
  unfold neutralTrajectory
  simp only [hst, Outcome.bind, isNaN_fin, ho]
  rfl

/-- Rational casts for witnesses. -/
def qCast (S T P : List (Fl ℚ)) : Cast (Fl ℚ) := ⟨Arr.ofList S, Arr.ofList T, Arr.ofList P⟩

/-- **C38 is violated**: for a start pressure outside the first cast, `p[0]` is finite while `s[0]` and `t[0]` are NaN. -/
theorem trajectory_nan_structure_false :
    ∃ (eos : Fl ℚ → Fl ℚ → Fl ℚ → Fl ℚ) (cs : List (Cast (Fl ℚ))) (p0 : Fl ℚ) (s t p : Fl ℚ) (rest : List (Fl ℚ × Fl ℚ × Fl ℚ)),
      neutralTrajectory 20 (fin (1/100)) eos .linear p0 cs = .ret ((s, t, p) :: rest) ∧
      isFinite p = true ∧ isFinite s = false ∧ isFinite t = false :=
  ⟨fun s _ _ => s, [qCast [fin 35, fin 36] [fin 5, fin 4] [fin 0, fin 1]], fin 10, Fl.nan, Fl.nan, fin 10, [],
    by decide +kernel, rfl, rfl, rfl⟩

/-! ## C07 -/

/-- The cast of the C07 witness. -/
def c07 : Cast (Fl ℚ) := qCast [fin 1, fin 0, fin (-1)] [fin 0, fin 0, fin 0] [fin 0, fin (1/1000), fin 2]

theorem c07Block : Block c07.P c07.S 0 3 (fun i => if i = 0 then 0 else if i = 1 then 1/1000 else 2)
    (fun i => if i = 0 then 1 else if i = 1 then 0 else -1) := by
  refine ⟨rfl, by decide +kernel, by omega, ?_, ?_, ?_⟩
  · intro i h1 h2
    have : i = 0 ∨ i = 1 ∨ i = 2 := by omega
    rcases this with rfl | rfl | rfl <;> rfl
  · intro i h1 h2
    have : i = 0 ∨ i = 1 ∨ i = 2 := by omega
    rcases this with rfl | rfl | rfl <;> rfl
  · intro i h1 h2
    have : i = 0 ∨ i = 1 := by omega
    rcases this with rfl | rfl <;> norm_num

/-- **C07 is violated**: a bottle and cast for which `ntp_bottle_to_cast` with tolerance `tol_p = 0.03` returns a point
`p` such that no point within `tol_p` of `p` on the cast is neutrally related to the bottle (equation of state
`eos(s,t,p) = s`, bottle `s = 0`, `p = 0`). -/
theorem ntp_tol_doc_false :
    ∃ s t p, ntpBottleToCast 40 (fin (3/100)) (fun s _ _ => s) .linear (fin 0) (fin 0) (fin 0) c07 = .ret (fin s, fin t, fin p) ∧
      ∀ z : ℚ, |z - p| ≤ 3/100 → ∀ v, interpAt .linear (fin z) c07.P c07.S = some v → v ≠ fin (0 : ℚ) := by
  refine ⟨-277842712474619 / 9995000000000000, 0, 282842712474619/5000000000000000, by decide +kernel, ?_⟩
  intro z hz v hv
  have h1 := abs_le.mp hz
  have := (linear_chord c07Block (i := 1) (x := z) (by omega) (by omega) (by norm_num; linarith) (by norm_num; linarith)).2.1
  simp only [interpAt] at hv
  rw [this] at hv
  have := Option.some.inj hv
  rw [← this]
  intro h
  have := Fl.fin.inj h
  norm_num at this
  linarith

/-! ## C65 -/

/-- **C65 is violated**: started from a NaN guess, `guess_to_bounds` never returns (whatever the number of loop passes
allowed), unless `f` vanishes at an end of the range. -/
theorem guessToBounds_nan_guess_hangs {α : Type*} [Field α] [LinearOrder α] [IsStrictOrderedRing α] (f : Fl α → Fl α) (A B : Fl α)
    (hA : feq (f A) (lit 0) = false) (hB : feq (f B) (lit 0) = false) (fuel : ℕ) :
    guessToBounds fuel f Fl.nan A B = .outOfFuel := by
  have hx : fmin (fmax (Fl.nan : Fl α) A) B = Fl.nan := by simp [fmin, fmax]
  unfold guessToBounds
  rw [if_neg (by rw [hA]; simp), if_neg (by rw [hB]; simp)]
  simp only [hx]
  have hi : (gtbInit f Fl.nan A B).a = Fl.nan ∧ (gtbInit f Fl.nan A B).b = Fl.nan := by
    simp [gtbInit]
  generalize gtbInit f Fl.nan A B = st at hi
  induction fuel with
  | zero => rfl
  | succ n ih =>
    have hl : gtbLeft f Fl.nan A B st = .next st := by simp [gtbLeft, hi.1, hi.2]
    have hr : gtbRight f Fl.nan A B st = .next st := by simp [gtbRight, hi.1, hi.2]
    unfold gtbLoop
    simp only [hl, hr]
    exact ih

/-- **C65 is violated** for `ntp_bottle_to_cast`: a bottle with NaN pressure makes it loop forever on every well formed
cast (for an equation of state that is NaN at NaN pressure). -/
theorem ntp_nan_pressure_hangs (kind : PPKind) (heos : ∀ s t, eos s t Fl.nan = Fl.nan) (G : GoodCast c k K a s t)
    (tol sB tB : Fl ℝ) (fuel : ℕ) :
    ntpBottleToCast fuel tol eos kind sB tB Fl.nan c = .outOfFuel := by
  obtain ⟨Sp, gS, h1, _⟩ := G.S.curve kind
  obtain ⟨Tp, gT, h2, _⟩ := G.T.curve kind
  have htwo := G.S.two
  unfold ntpBottleToCast ntpCast
  rw [G.S.vr.2]
  simp only [h1, h2]
  rw [if_pos (by omega)]
  unfold ntpPpc solveRoot
  have hf : ∀ x, potDensDiff eos sB tB Fl.nan (c.P.slice k K) Sp Tp x = Fl.nan := by
    intro x; simp [potDensDiff, heos]
  rw [guessToBounds_nan_guess_hangs _ _ _ (by rw [hf]; simp) (by rw [hf]; simp)]
  rfl

/-- The hypotheses of the trajectory theorem hold for a sequence of three copies of `exCast`. -/
example : CastOK 0 (1/100) 600 exCast :=
  ⟨1, 4, _, _, _, exGood, fun i _ _ => by split_ifs <;> norm_num, by norm_num⟩

end Traj
