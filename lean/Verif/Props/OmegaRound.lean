import Verif.Props.OmegaTotal
import Verif.Props.PerimRound
import Verif.Props.SolveAccuracy

/-!
# A whole run of `omega_surf` in floating point arithmetic (C154)

Every operation is rounded.  The casts are land or well formed, the equation of state computes numbers for the salinities, temperatures and pressures that occur and
NaN for NaN, and the matrix solver may return anything at all on its region, except at the pinning cast where it returns zero.
-/

set_option linter.unusedSectionVars false

namespace Fzero
open FloatLike

variable {F : Type*} [FloatLike F]

/-- `guess_to_bounds` only sees which values of the function are zero and which are positive. -/
theorem gtb_congr {f g : F → F} (h0 : ∀ y, feq (f y) (lit 0) = feq (g y) (lit 0)) (h1 : ∀ y, lt (lit 0) (f y) = lt (lit 0) (g y))
    (fuel : ℕ) (x A B : F) : guessToBounds fuel f x A B = guessToBounds fuel g x A B := by
  have hl : ∀ x s, gtbLeft f x A B s = gtbLeft g x A B s := by intro x s; unfold gtbLeft; simp only [h1]
  have hr : ∀ x s, gtbRight f x A B s = gtbRight g x A B s := by intro x s; unfold gtbRight; simp only [h1]
  have hi : ∀ x, gtbInit f x A B = gtbInit g x A B := by intro x; unfold gtbInit; simp only [h1]
  have hloop : ∀ x n s, gtbLoop f x A B n s = gtbLoop g x A B n s := by
    intro x n
    induction n with
    | zero => intro s; rfl
    | succ n ih => intro s; unfold gtbLoop; simp only [hl, hr, ih]
  unfold guessToBounds
  simp only [h0, hi, hloop]

variable {α : Type*} [Field α] [LinearOrder α] [IsStrictOrderedRing α] {rnd : α → α}

/-- A function that is NaN everywhere has no sign change. -/
theorem gtb_nan (R : StdRound rnd) {x A B : α} (n : ℕ) (hAB : A ≤ B) (hx : rnd x = x) (hA : rnd A = A) (hB : rnd B = B) {f : Rfl rnd → Rfl rnd}
    (hf : ∀ y, f y = Rfl.qnan) : guessToBounds (n + 13) f (Rfl.fin x) (Rfl.fin A) (Rfl.fin B) = .ret (Rfl.qnan, Rfl.qnan) := by
  rw [gtb_congr (g := fun _ => Rfl.fin (-1)) (fun y => by rw [hf]; simp [R.zero]; rfl)
    (fun y => by rw [hf, Rfl.lit_eq, Rat.cast_zero, R.zero, Rfl.lt_fin, decide_eq_false (by norm_num)]; rfl)]
  rcases guessToBounds_rounded R (n + 13) (f := fun _ => Rfl.fin (-1)) (g := fun _ => -1) hAB hx hA hB (fun _ _ _ => rfl) (by omega) with h | ⟨a, b, _, _, _, _, h, _⟩
  · exact h.1
  · norm_num at h

end Fzero

namespace Omega
open FloatLike Fzero Interp Traj VertSolve Bfs
open Fl hiding nan

variable {α : Type*} [Field α] [LinearOrder α] [IsStrictOrderedRing α] {rnd : α → α}

theorem sub_qnan (x : Rfl rnd) : x - Rfl.qnan = Rfl.qnan := by cases x <;> rfl
theorem qnan_sub (x : Rfl rnd) : Rfl.qnan - x = Rfl.qnan := by cases x <;> rfl
theorem qnan_add (x : Rfl rnd) : Rfl.qnan + x = Rfl.qnan := by cases x <;> rfl

/-- A cast with fewer than two data. -/
def LandR (c : Cast (Rfl rnd)) : Prop :=
  (validRange2 c.S c.P).2 ≤ (validRange2 c.S c.P).1 + 1 ∧ (validRange2 c.P c.S).2 ≤ (validRange2 c.P c.S).1 + 1

/-- A well formed ocean in rounded arithmetic: density `e` computed in the domain `D`, pressures from `l` to `u`, `n` bisections. -/
structure WorldR (c : Cfg (Rfl rnd)) (e : α → α → α → α) (D : α → α → α → Prop) (l u tol : α) (n : ℕ) : Prop where
  rounding : BinRound rnd
  ok : Ok c
  tolEq : c.tol = Rfl.fin tol
  tolPos : 0 < tol
  fuel : c.fuel = n + 13
  low : rnd l = l
  high : rnd u = u
  pos : 0 ≤ l
  eos : EosR rnd c.eos e D
  eosNan : ∀ p, c.eos Rfl.qnan Rfl.qnan p = Rfl.qnan
  casts : ∀ m < c.N, LandR (c.casts m) ∨ CastOKR c.kind D l u tol n (c.casts m)
  pinZero : PinSolver c.solver
  total : Total c.solver

/-- The bottle is on the cast: its pressure is a floating point number between `l` and `u` and its salinity and temperature (in the domain of the equation of state) are
those of the cast interpolated to it. -/
def OnR (kind : PPKind) (c : Cast (Rfl rnd)) (D : α → α → α → Prop) (l u : α) (x : Rfl rnd × Rfl rnd × Rfl rnd) : Prop :=
  PointR D l u x ∧ interpAt kind x.2.2 c.P c.S = some x.1 ∧ interpAt kind x.2.2 c.P c.T = some x.2.1

/-- A wetted bottle that lost its salinity and temperature: its pressure is the computed mean of three or more, and with double precision not four, links with
its `d` neighbours, just outside the data of the cast. -/
def LostR (c : Cast (Rfl rnd)) (d : ℕ) (x : Rfl rnd × Rfl rnd × Rfl rnd) : Prop :=
  ∃ (p : α) (j k K : ℕ) (a s t : ℕ → α), x = (Rfl.qnan, Rfl.qnan, Rfl.fin p) ∧ rnd p = p ∧ GoodCastR c k K a s t ∧ ¬ (a k ≤ p ∧ p ≤ a (K - 1)) ∧
    3 ≤ j ∧ j ≤ d ∧ (j = 4 → ¬ ∀ x, rnd x = x → rnd (rnd (2 * x + x) + x) = 4 * x) ∧
    a k * (1 - 1 / 2 ^ 53) ^ (j + 1) / (1 + 1 / 2 ^ 53) ≤ p ∧ p ≤ a (K - 1) * (1 + 1 / 2 ^ 53) ^ (j + 1) / (1 - 1 / 2 ^ 53)

/-- Every point of the surface is on its cast, or dry, or (only if `L`) lost. -/
def FineR (c : Cfg (Rfl rnd)) (D : α → α → α → Prop) (l u : α) (L : Prop) (stp : Surf (Rfl rnd)) : Prop :=
  ∀ m < c.N, OnR c.kind (c.casts m) D l u (stp m) ∨ (stp m).2.2 = Rfl.qnan ∨ (L ∧ LostR (c.casts m) (c.G.nbrs m).length (stp m))

variable {c : Cfg (Rfl rnd)} {e : α → α → α → α} {D : α → α → α → Prop} {l u tol : α} {n : ℕ} {L : Prop}

theorem FineR.mono {L' : Prop} {stp : Surf (Rfl rnd)} (h : FineR c D l u L stp) (hL : L → L') : FineR c D l u L' stp := by
  intro m hm
  rcases h m hm with h | h | ⟨h, h'⟩
  · exact Or.inl h
  · exact Or.inr (Or.inl h)
  · exact Or.inr (Or.inr ⟨hL h, h'⟩)

theorem fineR_removeML {iter : ℕ} {stp : Surf (Rfl rnd)} (h : FineR c D l u L stp) : FineR c D l u L (removeML c iter stp) := by
  intro m hm
  unfold removeML
  split_ifs
  · dsimp only
    split_ifs
    · exact Or.inr (Or.inl rfl)
    · exact h m hm
  · exact h m hm

/-- A neutral link from a bottle without salinity and temperature fails. -/
theorem ntp_lost (W : WorldR c e D l u tol n) {v : ℕ} (hv : CastOKR c.kind D l u tol n (c.casts v)) {p : α} (hp : rnd p = p) :
    ntpBottleToCast (n + 13) (Rfl.fin tol) c.eos c.kind Rfl.qnan Rfl.qnan (Rfl.fin p) (c.casts v) = .ret (Rfl.qnan, Rfl.qnan, Rfl.qnan) := by
  obtain ⟨k, K, a, s, t, G, -, -, -, ha, ha', -⟩ := hv
  obtain ⟨Sp, Tp, gS, gT, h1, h2, hP0, hP1, -⟩ := G.curves W.rounding.toStdRound c.kind (D := fun _ _ _ => True) (pr := fun x => x) (fun _ _ _ _ _ _ _ => trivial)
  have htwo := G.S.two
  unfold ntpBottleToCast ntpCast
  rw [G.S.vr.2]
  simp only [h1, h2]
  rw [if_pos (by omega)]
  unfold ntpPpc solveRoot
  rw [hP0, hP1, gtb_nan W.rounding.toStdRound n G.S.a_le hp ha ha' (fun y => by
    unfold potDensDiff
    dsimp only
    rw [W.eosNan, qnan_sub])]
  rfl

/-- The correction of a bottle without salinity and temperature makes the cast dry. -/
theorem omega_lost (W : WorldR c e D l u tol n) {v : ℕ} (hv : CastOKR c.kind D l u tol n (c.casts v)) {p φ : α} (hp : rnd p = p) (hφ : φ ≠ 0) :
    omegaSolve1 (n + 13) (Rfl.fin tol) c.kind c.eos (Rfl.fin φ) (Rfl.qnan, Rfl.qnan, Rfl.fin p) (c.casts v) = .ret (Rfl.qnan, Rfl.qnan, Rfl.qnan) := by
  obtain ⟨k, K, a, s, t, G, -, -, -, ha, ha', -⟩ := hv
  obtain ⟨Sp, Tp, gS, gT, h1, h2, hP0, hP1, -⟩ := G.curves W.rounding.toStdRound c.kind (D := fun _ _ _ => True) (pr := fun x => x) (fun _ _ _ _ _ _ _ => trivial)
  have htwo := G.S.two
  unfold omegaSolve1
  rw [if_neg (by simpa [W.rounding.zero] using hφ)]
  simp only [G.S.vr.2, h1, h2, hP0, hP1]
  rw [if_pos ⟨by omega, rfl⟩, gtb_nan W.rounding.toStdRound n G.S.a_le hp ha ha' (fun y => by
    unfold zeroPotential
    dsimp only
    rw [W.eosNan, qnan_add, sub_qnan])]
  rfl

theorem castOKR_of_two (W : WorldR c e D l u tol n) {m : ℕ} (hm : m < c.N) (h : TwoData (c.casts m)) : CastOKR c.kind D l u tol n (c.casts m) := by
  rcases W.casts m hm with hl | h
  · have := (ofCasts_data c.fuel c.tol c.eos c.kind c.casts c.pml m).2 h
    simp only [Ocean.ofCasts, decide_eq_true_iff] at this
    have := hl.1
    omega
  · exact h

theorem reach_range (C : Ok c) {good : ℕ → Bool} {m : ℕ} (h : Reach c.G good c.pin m) : m < c.N := by
  obtain ⟨k, w⟩ := h
  induction w with
  | root _ => exact C.pin
  | step _ hn _ ih => exact C.graph _ ih _ hn

/-- Specification of wetting in floating point, before (`stp`) and after (`stp'`): the casts connected with the pinning cast keep their bottles; the casts `V` were dry and
are at the computed mean pressure of the neutral links with adjacent casts, connected or wetted before them, that end below the mixed layer
of those casts; everything else is dry. -/
structure WettedR (c : Cfg (Rfl rnd)) (e : α → α → α → α) (tol : α) (stp stp' : Surf (Rfl rnd)) (V : List ℕ) : Prop where
  nodup : V.Nodup
  kept : ∀ v, Reach c.G (wet stp) c.pin v → stp' v = stp v
  cut : ∀ v, ¬ Reach c.G (wet stp) c.pin v → v ∉ V → (stp' v).2.2 = Rfl.qnan
  was_dry : ∀ v ∈ V, wet stp v = false ∧ v < c.N
  linked : ∀ i v, V[i]? = some v → ∃ (ns : List ℕ) (g : ℕ → α), ns ≠ [] ∧ ns.Sublist (c.G.nbrs v) ∧ (stp' v).2.2 = Rfl.fin (meanR rnd g ns) ∧
      ∀ n ∈ ns, (Reach c.G (wet stp) c.pin n ∨ n ∈ V.take i) ∧ lt (c.pml n) (Rfl.fin (g n)) = true ∧
        ∃ s1 t1, LinkR c.kind e tol (stp' n) (c.casts v) (Rfl.fin s1, Rfl.fin t1, Rfl.fin (g n))

/-- **C154** Wetting in floating point. -/
theorem wetting_rounded (W : WorldR c e D l u tol n) {stp : Surf (Rfl rnd)} (hf : FineR c D l u L stp) :
    ∃ r V, wetting c stp = .ok r ∧ FineR c D l u True r.1 ∧ WettedR c e tol stp r.1 V ∧ r.2 = V.length := by
  have hnan : isFinite (nan : Rfl rnd) = false := rfl
  obtain ⟨r, V, h1, S⟩ := wetPerim_spec hnan c.G c.ocean c.N c.pin stp W.ok.graph W.ok.pin c.garbage c.nrep c.fuel W.ok.fuel
  have S' := S
  unfold Cfg.ocean at S'
  rw [W.fuel, W.tolEq] at S'
  -- bottles a link can start from
  have hlink : ∀ {v m : ℕ}, v < c.N → TwoData (c.casts v) → OnR c.kind (c.casts m) D l u (r.stp m) ∨ LostR (c.casts m) (c.G.nbrs m).length (r.stp m) →
      isFinite ((Ocean.ofCasts (n + 13) (Rfl.fin tol) c.eos c.kind c.casts c.pml).ntpP (r.stp m) v) = true → PointR D l u (r.stp m) := by
    intro v m hv h2d h hfin
    rcases h with h | ⟨p, _, _, _, _, _, _, hp, hp', -⟩
    · exact h.1
    · exfalso
      rw [ntpP_eq _ _ _ _ _ _ _ _ h2d, hp] at hfin
      simp only [Ocean.ofCasts, ntp_lost W (castOKR_of_two W hv h2d) hp', valueOr] at hfin
      cases hfin
  have hreach : ∀ m, Reach c.G (wet stp) c.pin m → OnR c.kind (c.casts m) D l u (r.stp m) ∨ LostR (c.casts m) (c.G.nbrs m).length (r.stp m) := by
    intro m hm
    have hw : wet stp m = true := by obtain ⟨k, w⟩ := hm; exact w.good
    rw [S.kept m hm]
    rcases hf m (reach_range W.ok hm) with h | h | h
    · exact Or.inl h
    · unfold wet at hw; rw [h] at hw; cases hw
    · exact Or.inr h.2
  have key : ∀ (i v : ℕ), V[i]? = some v → (OnR c.kind (c.casts v) D l u (r.stp v) ∨ LostR (c.casts v) (c.G.nbrs v).length (r.stp v)) ∧
      ∃ (ns : List ℕ) (g : ℕ → α), ns ≠ [] ∧ ns.Sublist (c.G.nbrs v) ∧ (r.stp v).2.2 = Rfl.fin (meanR rnd g ns) ∧
      ∀ n ∈ ns, (Reach c.G (wet stp) c.pin n ∨ n ∈ V.take i) ∧ lt (c.pml n) (Rfl.fin (g n)) = true ∧
        ∃ s1 t1, LinkR c.kind e tol (r.stp n) (c.casts v) (Rfl.fin s1, Rfl.fin t1, Rfl.fin (g n)) := by
    intro i
    induction i using Nat.strong_induction_on with
    | _ i ih =>
      intro v hv
      have hvN := (S.was_dry v (List.mem_of_getElem? hv)).2
      obtain ⟨ns, g, A, B, p, ⟨k, K, a, s, t, G, rfl, rfl⟩, n1, n2, n3, n4, n5, -, -, n8, n9, n10, n11, n12, n13⟩ :=
        perim_core W.rounding W.eos W.low W.high W.pos W.tolPos S' (fun m hm => castOKR_of_two W hm) hv (by
          intro m hm h2d hfin
          refine hlink hvN h2d ?_ hfin
          rcases hm with hm | hm
          · exact hreach m hm
          · obtain ⟨j, hj, e1⟩ := List.mem_take_iff_getElem.1 hm
            exact (ih j (by omega) m (by rw [← e1]; exact List.getElem?_eq_getElem _)).1)
      refine ⟨?_, ns, g, n1, n2, by rw [n4, n5], fun m hm => ⟨(n3 m hm).1, (n3 m hm).2.2.2.1, (n3 m hm).2.2.2.2⟩⟩
      by_cases hin : a k ≤ p ∧ p ≤ a (K - 1)
      · left
        obtain ⟨q1, q2, q3⟩ := n12 hin.1 hin.2
        exact ⟨q1, by rw [n4]; exact q2, by rw [n4]; exact q3⟩
      · right
        refine ⟨p, ns.length, k, K, a, s, t, n13 hin, by rw [n5]; exact W.rounding.idem _, G, hin, ?_, n2.length_le, fun h4 hh => hin (n11 h4 hh), n8, n9⟩
        by_contra hlt
        exact hin (n10 (by omega))
  refine ⟨(r.stp, r.newly), V, by unfold wetting; rw [h1]; rfl, ?_, ⟨S.nodup, S.kept, fun v h1 h2 => by show (r.stp v).2.2 = _; rw [S.cut v h1 h2]; rfl, S.was_dry,
    fun i v hv => (key i v hv).2⟩, S.count⟩
  intro m hm
  show OnR _ _ _ _ _ (r.stp m) ∨ (r.stp m).2.2 = _ ∨ _ ∧ LostR _ _ (r.stp m)
  by_cases hr : Reach c.G (wet stp) c.pin m
  · rcases hreach m hr with h | h
    · exact Or.inl h
    · exact Or.inr (Or.inr ⟨trivial, h⟩)
  · by_cases hV : m ∈ V
    · obtain ⟨i, hi⟩ := List.getElem?_of_mem hV
      rcases (key i m hi).1 with h | h
      · exact Or.inl h
      · exact Or.inr (Or.inr ⟨trivial, h⟩)
    · rw [S.cut m hr hV]; exact Or.inr (Or.inl rfl)

/-- Specification of the new bottle at a cast, given the old one and the correction: unchanged if the correction is zero; dry outside the region, on land, where
the correction is not a number and where salinity and temperature were lost; otherwise next to a sign change along the cast of the computed difference of the
potential density, referred to the old pressure, from the old density plus the correction, or dry when that difference has the same strict
sign at the two ends of the data. -/
def MovedR (kind : PPKind) (c : Cast (Rfl rnd)) (e : α → α → α → α) (tol : α) (old : Rfl rnd × Rfl rnd × Rfl rnd) (phi : Rfl rnd)
    (new : Rfl rnd × Rfl rnd × Rfl rnd) : Prop :=
  (phi = Rfl.fin 0 ∧ new = old) ∨
  (isFinite phi = false ∧ new = (Rfl.qnan, Rfl.qnan, Rfl.qnan)) ∨
  (∃ φ : α, phi = Rfl.fin φ ∧ φ ≠ 0 ∧
    (((LandR c ∨ ∃ d, LostR c d old) ∧ new = (Rfl.qnan, Rfl.qnan, Rfl.qnan)) ∨
      ∃ s0 t0 p0 k K a s t, old = (Rfl.fin s0, Rfl.fin t0, Rfl.fin p0) ∧ GoodCastR c k K a s t ∧
        SolvedR kind c (a k) (a (K - 1)) (fun s t _ => e s t p0 - rnd (e s0 t0 p0 + φ)) tol new))

/-- The pressure found by the vertical solve is a floating point number. -/
theorem omega_rep (hid : ∀ x, rnd (rnd x) = rnd x) {fuel : ℕ} {tol : Rfl rnd} {kind : PPKind} {eos : Rfl rnd → Rfl rnd → Rfl rnd → Rfl rnd} {phi : Rfl rnd}
    {s0 t0 : Rfl rnd} {p0 : α} {cast : Cast (Rfl rnd)} {k K : ℕ} {a s t : ℕ → α} (G : GoodCastR cast k K a s t) (hp : rnd p0 = p0)
    (ha : rnd (a k) = a k) (ha' : rnd (a (K - 1)) = a (K - 1)) {r : Rfl rnd × Rfl rnd × Rfl rnd}
    (h : omegaSolve1 fuel tol kind eos phi (s0, t0, Rfl.fin p0) cast = .ret r) : ∀ z, r.2.2 = Rfl.fin z → rnd z = z := by
  have C := rep_closed hid
  have hQ : ∀ {x : α}, rnd x = x → ∀ z, (Rfl.fin x : Rfl rnd) = Rfl.fin z → rnd z = z := fun hx z hz => by rw [← Rfl.fin_inj.mp hz]; exact hx
  have hqn : ∀ z, (Rfl.qnan : Rfl rnd) = Rfl.fin z → rnd z = z := fun z hz => absurd hz.symm (Rfl.fin_ne_qnan z)
  have htwo := G.S.two
  have e0 : (cast.P.slice k K).get 0 = Rfl.fin (a k) := G.S.hX k (le_refl _) (by omega)
  have e1 : (cast.P.slice k K).get ((cast.P.slice k K).size - 1) = Rfl.fin (a (K - 1)) := by
    show cast.P.get (k + (K - k - 1)) = _
    rw [show k + (K - k - 1) = K - 1 by omega]
    exact G.S.hX (K - 1) (by omega) (by omega)
  unfold omegaSolve1 at h
  simp only [G.S.vr.2, e0, e1] at h
  split_ifs at h
  · cases h; exact hQ hp
  · split at h
    · obtain ⟨ab, h3, h4⟩ := outcome_bind h
      obtain ⟨i1, i2⟩ := guessToBounds_closed C (hQ hp) (hQ ha) (hQ ha') h3
      split_ifs at h4
      · obtain ⟨p, h5, h6⟩ := outcome_bind h4
        cases h6
        exact brent_closed C i1 i2 h5
      · cases h4; exact hqn
    · cases h
  · cases h; exact hqn

/-- The vertical solve on one cast returns. -/
theorem moved_rounded (W : WorldR c e D l u tol n) {m : ℕ} (hm : m < c.N) {old : Rfl rnd × Rfl rnd × Rfl rnd} {phi : Rfl rnd}
    (hold : OnR c.kind (c.casts m) D l u old ∨ old.2.2 = Rfl.qnan ∨ (L ∧ LostR (c.casts m) (c.G.nbrs m).length old))
    (hdry : old.2.2 = Rfl.qnan → isFinite phi = false) :
    ∃ new, omegaSolve1 c.fuel c.tol c.kind c.eos phi old (c.casts m) = .ret new ∧ MovedR c.kind (c.casts m) e tol old phi new ∧
      (OnR c.kind (c.casts m) D l u new ∨ new.2.2 = Rfl.qnan ∨ (L ∧ LostR (c.casts m) (c.G.nbrs m).length new)) := by
  have hq : (nan, nan, nan) = ((Rfl.qnan, Rfl.qnan, Rfl.qnan) : Rfl rnd × Rfl rnd × Rfl rnd) := rfl
  by_cases hfin : isFinite phi = true
  swap
  · have hfin' : isFinite phi = false := by simpa using hfin
    have h0 : feq phi (lit 0) = false := by cases phi <;> first | rfl | cases hfin'
    exact ⟨_, omega_nan _ _ _ _ _ _ _ h0 (Or.inl hfin'), Or.inr (Or.inl ⟨hfin', rfl⟩), Or.inr (Or.inl rfl)⟩
  obtain ⟨φ, rfl⟩ : ∃ φ : α, phi = Rfl.fin φ := by
    cases phi with
    | fin φ => exact ⟨φ, rfl⟩
    | nan => cases hfin
    | ninf => cases hfin
    | pinf => cases hfin
  by_cases h0 : φ = 0
  · subst h0
    exact ⟨_, omega_zero _ _ _ _ _ _ _ (by simp [W.rounding.zero]), Or.inl ⟨rfl, rfl⟩, hold⟩
  have hne : feq (Rfl.fin φ : Rfl rnd) (lit 0) = false := by simpa [W.rounding.zero] using h0
  rcases W.casts m hm with hl | hok
  · exact ⟨_, omega_nan _ _ _ _ _ _ _ hne (Or.inr hl.1), Or.inr (Or.inr ⟨φ, rfl, h0, Or.inl ⟨Or.inl hl, rfl⟩⟩), Or.inr (Or.inl rfl)⟩
  rw [W.fuel, W.tolEq]
  rcases hold with ⟨⟨s0, t0, p0, rfl, hD, hlp, hpu, hp⟩, -⟩ | h | ⟨-, hlost⟩
  · obtain ⟨k, K, a, s, t, G, hs, hlo, hhi, ha, ha', hn⟩ := hok
    obtain ⟨r, h1, h2⟩ := omega_rounded W.rounding c.kind W.eos G ha ha' (hs p0 hlp hpu) h0 (hD p0 hlp hpu) hp W.tolPos n hn
    refine ⟨r, h1, Or.inr (Or.inr ⟨φ, rfl, h0, Or.inr ⟨s0, t0, p0, k, K, a, s, t, rfl, G, h2⟩⟩), ?_⟩
    have hrep := omega_rep W.rounding.idem G hp ha ha' h1
    obtain ⟨gS, gT, hi, ⟨g, -⟩ | ⟨p, rfl, b1, b2, -⟩⟩ := h2
    · rw [g]; exact Or.inr (Or.inl rfl)
    · exact Or.inl ⟨⟨gS p, gT p, p, rfl, fun q q1 q2 => hs q q1 q2 p _ _ b1 b2 (hi p b1 b2).1 (hi p b1 b2).2, hlo.trans b1, b2.trans hhi, hrep p rfl⟩, hi p b1 b2⟩
  · exact absurd (hdry h) (by simp)
  · have hl := hlost
    obtain ⟨p, _, _, _, _, _, _, rfl, hp, -⟩ := hlost
    exact ⟨_, omega_lost W hok hp h0, Or.inr (Or.inr ⟨φ, rfl, h0, Or.inl ⟨Or.inr ⟨_, hl⟩, rfl⟩⟩), Or.inr (Or.inl rfl)⟩

/-- The region of a pass, with or without wetting. -/
theorem region_rounded (W : WorldR c e D l u tol n) (iter : ℕ) {stp : Surf (Rfl rnd)} (hL : c.startWet ≤ iter ∧ iter ≤ c.stopWet → L)
    (hf : FineR c D l u L stp) (hpin : wet stp c.pin = true) :
    ∃ old qu newly, region c iter stp = .ok (old, qu, newly) ∧ FineR c D l u L old ∧ qu.Nodup ∧ c.pin ∈ qu ∧
      (∀ m ∈ qu, wet old m = true) ∧ (∀ m, Reach c.G (wet stp) c.pin m → old m = stp m ∧ m ∈ qu) ∧ (∀ m < c.N, m ∉ qu → (old m).2.2 = Rfl.qnan ∨ old m = stp m) ∧
      ((¬ (c.startWet ≤ iter ∧ iter ≤ c.stopWet) ∧ old = stp ∧ newly = 0) ∨
        ((c.startWet ≤ iter ∧ iter ≤ c.stopWet) ∧ ∃ V, WettedR c e tol stp old V ∧ newly = V.length)) := by
  have hnan : isFinite (nan : Rfl rnd) = false := rfl
  by_cases hw : c.startWet ≤ iter ∧ iter ≤ c.stopWet
  · obtain ⟨r, V, h1, h2, h3, h4⟩ := wetting_rounded W hf
    have hreg : region c iter stp = .ok (r.1, (List.range c.N).filter (fun n => isFinite (r.1 n).2.2), r.2) := by
      unfold region
      rw [if_pos hw, h1]; rfl
    obtain ⟨i1, -, i3, i4, -, i6⟩ := region_spec hnan W.ok hreg
    refine ⟨_, _, _, hreg, h2.mono (fun _ => hL hw), i1, i4 hpin, fun m hm => (i3 m hm).2, i6, fun m hm hq => Or.inl ?_, Or.inr ⟨hw, V, h3, h4⟩⟩
    rcases h2 m hm with ⟨⟨s, t, p, h, -⟩, -⟩ | h | ⟨-, p, _, _, _, _, _, _, h, -⟩
    · exact absurd (List.mem_filter.2 ⟨List.mem_range.2 hm, by rw [h]; rfl⟩) hq
    · exact h
    · exact absurd (List.mem_filter.2 ⟨List.mem_range.2 hm, by rw [h]; rfl⟩) hq
  · obtain ⟨q, h3, -⟩ := bfs_component c.G c.N c.pin (wet stp) W.ok.graph W.ok.pin c.fuel W.ok.fuel
    have hreg : region c iter stp = .ok (stp, q.q.insertionSort (· ≤ ·), 0) := by
      unfold region
      rw [if_neg hw]
      have : Bfs.bfs c.G c.pin (fun n => isFinite (stp n).2.2) c.fuel = some q := h3
      rw [this]; rfl
    obtain ⟨i1, -, i3, i4, -, i6⟩ := region_spec hnan W.ok hreg
    exact ⟨_, _, _, hreg, hf, i1, i4 hpin, fun m hm => (i3 m hm).2, i6, fun m _ _ => Or.inr rfl, Or.inl ⟨hw, rfl, rfl⟩⟩

/-- What a pass does in floating point. -/
structure PassR (c : Cfg (Rfl rnd)) (e : α → α → α → α) (D : α → α → α → Prop) (l u tol : α) (L : Prop) (iter : ℕ) (stp : Surf (Rfl rnd))
    (r : Iter (Rfl rnd)) : Prop where
  old : ¬ (c.startWet ≤ iter ∧ iter ≤ c.stopWet) → r.old = removeML c iter stp ∧ r.newly = 0
  wetted : (c.startWet ≤ iter ∧ iter ≤ c.stopWet) → ∃ V, WettedR c e tol (removeML c iter stp) r.old V ∧ r.newly = V.length
  solved : c.solver (fun m => (r.old m).1) (fun m => (r.old m).2.1) (fun m => (r.old m).2.2) r.qu c.pin = .ok r.phi
  moved : ∀ m < c.N, MovedR c.kind (c.casts m) e tol (r.old m) (r.phi m) (r.new m)
  fine : FineR c D l u L r.new

/-- **C154** A pass returns, provided the pinning bottle is wet and not above the mixed layer. -/
theorem step_rounded (W : WorldR c e D l u tol n) (iter : ℕ) (hL : c.startWet ≤ iter ∧ iter ≤ c.stopWet → L) {stp : Surf (Rfl rnd)} (hf : FineR c D l u L stp)
    {s0 t0 p0 : α} (hpin : stp c.pin = (Rfl.fin s0, Rfl.fin t0, Rfl.fin p0)) (hml : lt (Rfl.fin p0) (c.pml c.pin) = false) :
    ∃ r, step c (Rfl.fin p0) iter stp = .ok r ∧ PassR c e D l u tol L iter stp r ∧ r.new c.pin = (Rfl.fin s0, Rfl.fin t0, Rfl.fin p0) := by
  have hpin' : removeML c iter stp c.pin = (Rfl.fin s0, Rfl.fin t0, Rfl.fin p0) := removeML_pin hpin hml
  have hwet : wet (removeML c iter stp) c.pin = true := by unfold wet; rw [hpin']; rfl
  obtain ⟨old, qu, newly, q1, hfine, q2, q3, q4, q5, -, hspec⟩ := region_rounded W iter hL (fineR_removeML (iter := iter) hf) hwet
  have hold := (q5 _ ⟨0, .root hwet⟩).1
  rw [hpin'] at hold
  obtain ⟨phi, f1⟩ := W.total (fun m => (old m).1) (fun m => (old m).2.1) (fun m => (old m).2.2) qu c.pin (List.ne_nil_of_mem q3) q2
  have f2 := W.pinZero.zero _ _ _ _ _ _ f1 q3 q2
  have f3 := W.pinZero.out _ _ _ _ _ _ f1 q3 q2
  have hm : ∀ m, ∃ new, m < c.N → omegaSolve1 c.fuel c.tol c.kind c.eos (phi m) (old m) (c.casts m) = .ret new ∧
      MovedR c.kind (c.casts m) e tol (old m) (phi m) new ∧
      (OnR c.kind (c.casts m) D l u new ∨ new.2.2 = Rfl.qnan ∨ (L ∧ LostR (c.casts m) (c.G.nbrs m).length new)) := by
    intro m
    by_cases hN : m < c.N
    · obtain ⟨new, h⟩ := moved_rounded W hN (phi := phi m) (hfine m hN) (by
        intro hd
        by_cases hq : m ∈ qu
        · have := q4 m hq
          unfold wet at this; rw [hd] at this; cases this
        · rw [f3 m hq]; rfl)
      exact ⟨new, fun _ => h⟩
    · exact ⟨(Rfl.qnan, Rfl.qnan, Rfl.qnan), fun h => absurd h hN⟩
  choose new hnew using hm
  have hv : vertsolveOmega c.fuel c.tol c.kind c.eos phi c.casts old c.N = .ret (fun m => if m < c.N then new m else old m) := by
    rw [vertsolveOmega_pointwise]
    refine ⟨fun m hm => ?_, fun m hm => ?_⟩
    · rw [if_pos hm]; exact (hnew m hm).1
    · rw [if_neg (by omega)]
  have hpn : new c.pin = (Rfl.fin s0, Rfl.fin t0, Rfl.fin p0) := by
    have h1 := (hnew c.pin W.ok.pin).1
    rw [omega_zero _ _ _ _ _ _ _ f2, hold] at h1
    injection h1 with h1
    exact h1.symm
  have e1 : ∀ m < c.N, Function.update (fun m => if m < c.N then new m else old m) c.pin
      ((if c.pin < c.N then new c.pin else old c.pin).1, (if c.pin < c.N then new c.pin else old c.pin).2.1, Rfl.fin p0) m = new m := by
    intro m hm
    by_cases h : m = c.pin
    · subst h
      rw [Function.update_self, if_pos W.ok.pin, hpn]
    · rw [Function.update_of_ne h, if_pos hm]
  refine ⟨⟨old, Function.update (fun m => if m < c.N then new m else old m) c.pin
      ((if c.pin < c.N then new c.pin else old c.pin).1, (if c.pin < c.N then new c.pin else old c.pin).2.1, Rfl.fin p0), qu, phi, newly⟩,
    ?_, ⟨?_, ?_, f1, ?_, ?_⟩, ?_⟩
  · unfold step
    rw [q1]
    show (ofMat (c.solver _ _ _ qu c.pin)).bind _ = _
    rw [f1]
    show (ofOutcome _).bind _ = _
    rw [hv]
    rfl
  · intro hw
    rcases hspec with ⟨-, h⟩ | ⟨h, -⟩
    · exact h
    · exact absurd h hw
  · intro hw
    rcases hspec with ⟨h, -⟩ | ⟨-, h⟩
    · exact absurd hw h
    · exact h
  · intro m hm
    dsimp only
    rw [e1 m hm]; exact (hnew m hm).2.1
  · intro m hm
    dsimp only
    rw [e1 m hm]; exact (hnew m hm).2.2
  · dsimp only
    rw [e1 _ W.ok.pin, hpn]

/-- There is a pass with wetting. -/
def Wets (c : Cfg (Rfl rnd)) : Prop := ∃ iter, 1 ≤ iter ∧ iter ≤ c.iterMax ∧ c.startWet ≤ iter ∧ iter ≤ c.stopWet

/-- **C154** Every pass of the loop returns. -/
theorem loop_rounded (W : WorldR c e D l u tol n) {s0 t0 p0 : α} (hml : lt (Rfl.fin p0) (c.pml c.pin) = false) :
    ∀ (left k : ℕ) (s : State (Rfl rnd)), k + left ≤ c.iterMax → FineR c D l u (Wets c) s.stp → s.stp c.pin = (Rfl.fin s0, Rfl.fin t0, Rfl.fin p0) →
      ∃ s', loop c (Rfl.fin p0) left (k + 1) s = .ok s' ∧ FineR c D l u (Wets c) s'.stp ∧ s'.stp c.pin = (Rfl.fin s0, Rfl.fin t0, Rfl.fin p0) ∧
        (left = 0 ∧ s' = s ∨ k < s'.last) := by
  intro left
  induction left with
  | zero => intro k s _ hf hp; exact ⟨s, rfl, hf, hp, Or.inl ⟨rfl, rfl⟩⟩
  | succ left ih =>
    intro k s hk hf hp
    obtain ⟨r, h1, h2, h3⟩ := step_rounded W (k + 1) (fun h => ⟨k + 1, by omega, by omega, h⟩) hf hp hml
    unfold loop
    rw [h1]
    show ∃ s', (if converged c (k + 1) r (dpRMS c s.rms r) = true then _ else _) = _ ∧ _
    split_ifs
    · exact ⟨_, rfl, h2.fine, h3, Or.inr (by show k < k + 1; omega)⟩
    · obtain ⟨s', g1, g2, g3, g4⟩ := ih (k + 1) (after c (k + 1) s r) (by omega) h2.fine h3
      refine ⟨s', g1, g2, g3, Or.inr ?_⟩
      rcases g4 with ⟨_, rfl⟩ | g4
      · show k < k + 1; omega
      · omega

/-- `stp` is the surface before pass `k + 1` of a run that starts from `stp0`. -/
inductive BeforeR (c : Cfg (Rfl rnd)) (pinP : Rfl rnd) (stp0 : Surf (Rfl rnd)) : ℕ → Surf (Rfl rnd) → Prop
  | start : BeforeR c pinP stp0 0 stp0
  | pass {k stp r} : BeforeR c pinP stp0 k stp → step c pinP (k + 1) stp = .ok r → BeforeR c pinP stp0 (k + 1) r.new

/-- Every surface met in a run. -/
theorem run_rounded (W : WorldR c e D l u tol n) {s0 t0 p0 : α} (hml : lt (Rfl.fin p0) (c.pml c.pin) = false) {stp0 : Surf (Rfl rnd)}
    (hf : FineR c D l u (Wets c) stp0) (hp : stp0 c.pin = (Rfl.fin s0, Rfl.fin t0, Rfl.fin p0)) {k : ℕ} {stp : Surf (Rfl rnd)} (hk : k ≤ c.iterMax)
    (hb : BeforeR c (Rfl.fin p0) stp0 k stp) : FineR c D l u (Wets c) stp ∧ stp c.pin = (Rfl.fin s0, Rfl.fin t0, Rfl.fin p0) := by
  induction hb with
  | start => exact ⟨hf, hp⟩
  | @pass k stp r _ hr ih =>
    obtain ⟨i1, i2⟩ := ih (by omega)
    obtain ⟨r', h1, h2, h3⟩ := step_rounded W (k + 1) (fun h => ⟨k + 1, by omega, by omega, h⟩) i1 i2 hml
    rw [hr] at h1
    cases h1
    exact ⟨h2.fine, h3⟩

/-- Interpolation to a floating point number on a cast of the ocean: never fails; a bottle of the cast, or two NaN. -/
theorem interp_rounded (W : WorldR c e D l u tol n) {m : ℕ} (hm : m < c.N) (x : Rfl rnd) (hx : ∀ z, x = Rfl.fin z → rnd z = z) :
    interpTwo c x m = some (Rfl.qnan, Rfl.qnan) ∨ ∃ s t, interpTwo c x m = some (s, t) ∧ OnR c.kind (c.casts m) D l u (s, t, x) := by
  have hout : outside (c.casts m).P (validRange2 (c.casts m).P (c.casts m).S).1 (validRange2 (c.casts m).P (c.casts m).S).2 x = true →
      interpTwo c x m = some (Rfl.qnan, Rfl.qnan) := by
    intro h
    unfold interpTwo
    cases c.kind <;> (simp only [ppinterp1Two]; rw [if_pos h]; rfl)
  rcases W.casts m hm with hl | ⟨k, K, a, s, t, G, hs, hlo, hhi, ha, ha', -⟩
  · left
    apply hout
    unfold outside
    have := hl.2
    rw [decide_eq_true (by omega)]; simp
  · have hvr := G.S.vr.1
    have htwo := G.S.two
    rw [hvr] at hout
    have hk : (c.casts m).P.get k = Rfl.fin (a k) := G.S.hX k le_rfl (by omega)
    have hK : (c.casts m).P.get (K - 1) = Rfl.fin (a (K - 1)) := G.S.hX (K - 1) (by omega) (by omega)
    have ho : outside (c.casts m).P k K x = (isNaN x || lt x (Rfl.fin (a k)) || lt (Rfl.fin (a (K - 1))) x) := by
      unfold outside
      rw [decide_eq_false (by omega), hk, hK, Bool.false_or]
    cases x with
    | nan => exact Or.inl (hout (by rw [ho]; rfl))
    | ninf => exact Or.inl (hout (by rw [ho]; rfl))
    | pinf => exact Or.inl (hout (by rw [ho]; rfl))
    | fin x =>
      change interpTwo c (Rfl.fin x) m = _ ∨ ∃ s t, interpTwo c (Rfl.fin x) m = _ ∧ OnR _ _ _ _ _ (s, t, Rfl.fin x)
      by_cases hx' : a k ≤ x ∧ x ≤ a (K - 1)
      · right
        obtain ⟨Sp, Tp, gS, gT, -, -, -, -, h3⟩ := G.curves W.rounding.toStdRound c.kind (D := fun _ _ _ => True) (pr := fun x => x) (fun _ _ _ _ _ _ _ => trivial)
        obtain ⟨-, i1, i2, -⟩ := h3 x hx'.1 hx'.2
        refine ⟨_, _, ?_, ⟨gS x, gT x, x, rfl, fun q q1 q2 => hs q q1 q2 x _ _ hx'.1 hx'.2 i1 i2, hlo.trans hx'.1, hx'.2.trans hhi, hx x rfl⟩, i1, i2⟩
        have hv : validRange2 (c.casts m).P (c.casts m).S = validRange2 (c.casts m).P (c.casts m).T := by rw [hvr, G.T.vr.1]
        unfold interpTwo
        cases hkind : c.kind with
        | linear => rw [hkind] at i1 i2; exact (ppinterp1Two_eq hv _ _ _ _).2 ⟨i1, i2⟩
        | pchip => rw [hkind] at i1 i2; exact (ppinterp1Two_eq hv _ _ _ _).2 ⟨i1, i2⟩
      · left
        apply hout
        show outside _ _ _ (Rfl.fin x) = _
        rw [show outside (c.casts m).P k K (Rfl.fin x) = (isNaN (Rfl.fin x : Rfl rnd) || lt (Rfl.fin x : Rfl rnd) (Rfl.fin (a k)) || lt (Rfl.fin (a (K - 1)) : Rfl rnd) (Rfl.fin x)) from ho]
        simp only [Rfl.isNaN_fin, Rfl.lt_fin, Bool.false_or, Bool.or_eq_true, decide_eq_true_eq]
        by_contra hh
        push Not at hh
        exact hx' ⟨hh.1, hh.2⟩

/-- The pressures of `p_init` are floating point numbers (or NaN or infinite). -/
def RepInit (N : ℕ) : PInit (Rfl rnd) → Prop
  | .scalar p => ∀ z, p = Rfl.fin z → rnd z = z
  | .array p => ∀ m < N, ∀ z, p m = Rfl.fin z → rnd z = z

/-- **C154** The initial surface: returned with every cast on the data or dry, or `RuntimeError`, the latter just when the pinning pressure misses the data. -/
theorem init_rounded (W : WorldR c e D l u tol n) {P : PInit (Rfl rnd)} (hP : RepInit c.N P) :
    (init c P = .runtimeError ∧ interpTwo c (pinPOf c P) c.pin = some (Rfl.qnan, Rfl.qnan)) ∨
    ∃ stp0 s0 t0, init c P = .ok stp0 ∧ FineR c D l u False stp0 ∧ stp0 c.pin = (s0, t0, pinPOf c P) ∧
      OnR c.kind (c.casts c.pin) D l u (s0, t0, pinPOf c P) := by
  have hon : ∀ {x : Rfl rnd × Rfl rnd × Rfl rnd} {m}, OnR c.kind (c.casts m) D l u x → isNaN x.1 = false := by
    rintro x m ⟨⟨s, t, p, rfl, -⟩, -⟩; rfl
  cases P with
  | array p =>
    have hI := fun m (hm : m < c.N) => interp_rounded W hm (p m) (hP m hm)
    have hraw : initRaw c (.array p) = .ok fun m => if m < c.N then ((((interpTwo c (p m) m).getD (nan, nan)).1), ((interpTwo c (p m) m).getD (nan, nan)).2, p m)
          else (nan, nan, nan) := by
      unfold initRaw
      dsimp only
      rw [if_pos]
      intro m hm
      rcases hI m hm with h | ⟨_, _, h, _⟩ <;> rw [h] <;> rfl
    unfold init
    rw [hraw]
    show (if isNaN (if c.pin < c.N then _ else _ : Rfl rnd × Rfl rnd × Rfl rnd).1 = true then _ else _) = _ ∧ _ ∨
      ∃ stp0 s0 t0, (if isNaN (if c.pin < c.N then _ else _ : Rfl rnd × Rfl rnd × Rfl rnd).1 = true then _ else _) = _ ∧ _
    rcases hI c.pin W.ok.pin with h | ⟨s0, t0, h, h'⟩
    · left
      rw [if_pos]
      · exact ⟨rfl, h⟩
      · rw [if_pos W.ok.pin, h]; rfl
    · right
      rw [if_neg]
      · refine ⟨_, s0, t0, rfl, ?_, ?_, h'⟩
        · intro m hm
          simp only [if_pos hm]
          rcases hI m hm with h | ⟨s, t, h2, h3⟩
          · rw [h]; exact Or.inr (Or.inl rfl)
          · rw [h2]
            left
            simp only [Option.getD_some, hon h3]
            exact h3
        · simp only [if_pos W.ok.pin, h]
          simp only [Option.getD_some, hon h']
          rfl
      · rw [if_pos W.ok.pin, h]
        simp [hon h']
  | scalar p =>
    rcases interp_rounded W W.ok.pin p hP with h | ⟨s0, t0, h, h'⟩
    · left
      refine ⟨?_, h⟩
      have hnan : isFinite (nan : Rfl rnd) = false := rfl
      obtain ⟨one, hone⟩ : ∃ x : Surf (Rfl rnd), x = Function.update (fun _ => (nan, nan, nan)) c.pin (Rfl.qnan, Rfl.qnan, p) := ⟨_, rfl⟩
      have hpin1 : one c.pin = (Rfl.qnan, Rfl.qnan, p) := by rw [hone, Function.update_self]
      obtain ⟨r, V, h1, S⟩ := wetPerim_spec hnan c.G c.ocean c.N c.pin one W.ok.graph W.ok.pin c.garbage c.nrep c.fuel W.ok.fuel
      have hs : (r.stp c.pin).1 = Rfl.qnan := by
        by_cases hw : wet one c.pin = true
        · rw [S.kept c.pin ⟨0, .root hw⟩, hpin1]
        · have hw' : wet one c.pin = false := by simpa using hw
          have hV := perim_dry S hw'
          rw [S.cut c.pin ?_ (by rw [hV]; simp), hpin1]
          rintro ⟨k, w⟩
          exact hw w.good
      unfold init initRaw
      dsimp only
      rw [h]
      show ((wetting c (Function.update (fun _ => (nan, nan, nan)) c.pin (Rfl.qnan, Rfl.qnan, p))).bind _ : Res (Surf (Rfl rnd))).bind _ = _
      rw [← hone]
      unfold wetting
      rw [h1]
      show (if isNaN (r.stp c.pin).1 = true then _ else _) = _
      rw [hs]; rfl
    · right
      obtain ⟨one, hone⟩ : ∃ x : Surf (Rfl rnd), x = Function.update (fun _ => (nan, nan, nan)) c.pin (s0, t0, p) := ⟨_, rfl⟩
      have hpin1 : one c.pin = (s0, t0, p) := by rw [hone, Function.update_self]
      have hfine1 : FineR c D l u False one := by
        intro m _
        by_cases h : m = c.pin
        · rw [h, hpin1]; exact Or.inl h'
        · rw [hone, Function.update_of_ne h]; exact Or.inr (Or.inl rfl)
      obtain ⟨r, V, w1, w2, w3, -⟩ := wetting_rounded W hfine1
      have hw : wet one c.pin = true := by
        unfold wet; rw [hpin1]
        obtain ⟨⟨_, _, _, he, -⟩, -⟩ := h'
        rw [he]; rfl
      have hpin2 : r.1 c.pin = (s0, t0, p) := by rw [w3.kept c.pin ⟨0, .root hw⟩, hpin1]
      have hraw : initRaw c (.scalar p) = .ok r.1 := by
        unfold initRaw
        dsimp only
        rw [h]
        show (wetting c (Function.update (fun _ => (nan, nan, nan)) c.pin (s0, t0, p))).bind _ = _
        rw [← hone, w1]; rfl
      have h0 : init c (.scalar p) = .ok (fun m => if isNaN (r.1 m).1 then ((r.1 m).1, (r.1 m).2.1, nan) else r.1 m) := by
        unfold init
        rw [hraw]
        show (if isNaN (r.1 c.pin).1 = true then _ else _) = _
        rw [if_neg (by rw [hpin2]; simp [hon h'])]
      refine ⟨_, s0, t0, h0, ?_, ?_, h'⟩
      · intro m hm
        dsimp only
        rcases w2 m hm with h | h | ⟨-, p, _, _, _, _, _, _, h, -⟩
        · rw [hon h]; exact Or.inl h
        · right; left
          split_ifs
          · rfl
          · exact h
        · right; left
          rw [h]; rfl
      · rw [hpin2]
        simp only [hon h']
        rfl

/-- What is claimed of a run from `P`: it returns; the initial surface consists of bottles on their casts; every pass is as specified; the surface goes through the
pinning bottle, which does not change; every bottle of the result is on its cast or dry or, if there were passes with wetting, lost. -/
def RunR (c : Cfg (Rfl rnd)) (e : α → α → α → α) (D : α → α → α → Prop) (l u tol : α) (P : PInit (Rfl rnd)) : Prop :=
  ∃ s stp0 s0 t0, omega c P = .ok s ∧ init c P = .ok stp0 ∧ FineR c D l u False stp0 ∧ FineR c D l u (Wets c) s.stp ∧
    stp0 c.pin = (s0, t0, pinPOf c P) ∧ s.stp c.pin = (s0, t0, pinPOf c P) ∧ OnR c.kind (c.casts c.pin) D l u (s0, t0, pinPOf c P) ∧
    (∀ k stp, k < c.iterMax → BeforeR c (pinPOf c P) stp0 k stp → ∃ r, step c (pinPOf c P) (k + 1) stp = .ok r ∧
      PassR c e D l u tol (Wets c) (k + 1) stp r)

/-- **C154** In floating point arithmetic `omega_surf` returns on every well formed ocean, whatever the matrix solver returns (zero at the pinning cast), from any initial
surface whose bottle at the pinning cast is not above the mixed layer, with any wetting, any tolerances and any number of passes (at least one if diagnostics are asked
for): the run is as specified by `RunR`, or a `RuntimeError` says that the pinning pressure misses the data. -/
theorem omega_float (W : WorldR c e D l u tol n) {P : PInit (Rfl rnd)} (hP : RepInit c.N P) (hml : lt (pinPOf c P) (c.pml c.pin) = false)
    (hd : c.diags = true → 1 ≤ c.iterMax) :
    (omega c P = .runtimeError ∧ interpTwo c (pinPOf c P) c.pin = some (Rfl.qnan, Rfl.qnan)) ∨ RunR c e D l u tol P := by
  rcases init_rounded W hP with ⟨h, h'⟩ | ⟨stp0, s0, t0, h0, hf, hpin, hon⟩
  · left
    refine ⟨?_, h'⟩
    unfold omega
    rw [h]; rfl
  · right
    have hon' := hon
    obtain ⟨⟨s1, t1, p1, he, -⟩, -⟩ := hon
    obtain ⟨rfl, h2⟩ := Prod.mk.inj he
    obtain ⟨rfl, h3⟩ := Prod.mk.inj h2
    rw [h3] at hml hpin
    have hf' : FineR c D l u (Wets c) stp0 := hf.mono False.elim
    obtain ⟨s', g1, g2, g3, g4⟩ := loop_rounded W hml c.iterMax 0 ⟨stp0, lit 0, if c.diags then [diag0 c stp0] else [], 0⟩ (by omega) hf' hpin
    refine ⟨s', stp0, _, _, ?_, h0, hf, g2, by rw [h3]; exact hpin, by rw [h3]; exact g3, hon', ?_⟩
    · unfold omega
      rw [h0]
      show (loop c (pinPOf c P) c.iterMax (0 + 1) _).bind _ = _
      rw [h3, g1]
      show (if (c.diags && decide (s'.last = 0)) = true then _ else _) = _
      rw [if_neg]
      intro hh
      rw [Bool.and_eq_true, decide_eq_true_eq] at hh
      have := hd hh.1
      rcases g4 with ⟨h, _⟩ | h <;> omega
    · intro k stp hk hb
      rw [h3] at hb ⊢
      obtain ⟨i1, i2⟩ := run_rounded W hml hf' hpin (by omega) hb
      obtain ⟨r', h1, h2, _⟩ := step_rounded W (k + 1) (fun h => ⟨k + 1, by omega, by omega, h⟩) i1 i2 hml
      exact ⟨r', h1, h2⟩

/-- **C154** With no wetting after the initial surface, or on grids where no cast has more than two neighbours (sections), every bottle of the result is on its cast or dry. -/
theorem omega_float_on (h : ¬ Wets c ∨ ∀ m < c.N, (c.G.nbrs m).length ≤ 2) {stp : Surf (Rfl rnd)} (hf : FineR c D l u (Wets c) stp) :
    FineR c D l u False stp := by
  intro m hm
  rcases hf m hm with h1 | h1 | ⟨hw, p, j, _, _, _, _, _, _, _, _, _, h3, h4, _⟩
  · exact Or.inl h1
  · exact Or.inr (Or.inl h1)
  · rcases h with h | h
    · exact absurd hw h
    · have := h m hm; omega

/-! ## An example -/

/-- Casts 0 and 1 hold `exCastR`, cast 2 is land; passes 1 to 5 with wetting; the matrix solver is the Poisson one with any `spsolve` at all. -/
noncomputable def floatCfg (rnd : ℝ → ℝ) (spsolve : ℕ → (ℕ → ℕ → Rfl rnd) → (ℕ → Rfl rnd) → ℕ → Rfl rnd) : Cfg (Rfl rnd) where
  N := 3
  G := exLine
  casts := fun m => if m = 2 then ⟨Arr.ofList [Rfl.qnan, Rfl.qnan], Arr.ofList [Rfl.qnan, Rfl.qnan], Arr.ofList [Rfl.fin 0, Rfl.fin 1]⟩ else exCastR rnd
  kind := .linear
  eos := fun s t _ => s - t
  solver := fun s t p m r => OmegaMat.poisson spsolve (fun _ _ _ => (Rfl.fin 1, Rfl.fin (-1))) s t p [(0, 1), (1, 2)] (.scalar (Rfl.fin 1)) m r
  errs := fun _ => (Rfl.qnan, Rfl.qnan)
  sqrt := id
  pin := 0
  pml := fun _ => Rfl.qnan
  tol := Rfl.fin (1 / 10)
  tolPhi := Rfl.fin 0
  tolP := Rfl.fin 0
  diags := true
  iterMin := 1
  iterMax := 10
  startWet := 1
  stopWet := 5
  nrep := 100
  garbage := fun _ => 0
  fuel := 100 + 13

theorem floatWorld {rnd : ℝ → ℝ} (R : BinRound rnd) (spsolve) :
    WorldR (floatCfg rnd spsolve) (fun s t _ => rnd (s - t)) exBox.In 0 4 (1 / 10) 100 where
  rounding := R
  ok := ⟨by show InRange exLine 3; unfold InRange; decide, by show 0 < 3; norm_num, by show 3 < 113; norm_num⟩
  tolEq := rfl
  tolPos := by norm_num
  fuel := rfl
  low := R.zero
  high := by
    have h := (exCastBox R).rep.2
    norm_num [exA] at h
    exact h
  pos := le_refl _
  eos := (exEosBox R.toStdRound).val
  eosNan := fun _ => rfl
  casts := by
    intro m _
    show LandR (if m = 2 then _ else _) ∨ CastOKR _ _ _ _ _ _ (if m = 2 then _ else _)
    split_ifs
    · exact Or.inl ⟨Nat.le_of_ble_eq_true rfl, Nat.le_of_ble_eq_true rfl⟩
    · exact Or.inr (exOKR R)
  pinZero := poisson_pinSolver (by simp) _ _ _ _
  total := poisson_total _ _ _ _

/-- The run from the pressure 1 at cast 0 returns, and all its bottles are on their casts. -/
example {rnd : ℝ → ℝ} (R : BinRound rnd) (spsolve) : ∃ s, omega (floatCfg rnd spsolve) (.scalar (Rfl.fin 1)) = .ok s ∧
    (s.stp 0).2.2 = Rfl.fin 1 ∧ FineR (floatCfg rnd spsolve) exBox.In 0 4 False s.stp := by
  rcases omega_float (floatWorld R spsolve) (P := .scalar (Rfl.fin 1)) (fun z hz => by rw [← Rfl.fin_inj.1 hz]; exact R.one) rfl (by intro _; show 1 ≤ 10; norm_num)
    with ⟨-, h⟩ | ⟨s, _, _, _, h, -, -, h1, -, h2, -⟩
  · exfalso
    obtain ⟨Sp, Tp, gS, gT, -, -, -, -, h3⟩ := exGoodR.curves R.toStdRound .linear (D := fun _ _ _ => True) (pr := fun x => x) (fun _ _ _ _ _ _ _ => trivial)
    obtain ⟨-, i1, i2, -⟩ := h3 1 (by norm_num [exA]) (by norm_num [exA])
    have hv : validRange2 (exCastR rnd).P (exCastR rnd).S = validRange2 (exCastR rnd).P (exCastR rnd).T := by
      rw [exGoodR.S.vr.1, exGoodR.T.vr.1]
    have h' : interpTwo (floatCfg rnd spsolve) (Rfl.fin 1) 0 = some (Rfl.fin (gS 1), Rfl.fin (gT 1)) := (ppinterp1Two_eq hv _ _ _ _).2 ⟨i1, i2⟩
    have h'' : interpTwo (floatCfg rnd spsolve) (Rfl.fin 1) 0 = some (Rfl.qnan, Rfl.qnan) := h
    rw [h'] at h''
    exact Rfl.fin_ne_qnan _ (congrArg Prod.fst (Option.some.inj h''))
  · refine ⟨s, h, ?_, omega_float_on (Or.inr ?_) h1⟩
    · have : s.stp 0 = _ := h2
      rw [this]; rfl
    · intro m hm
      have hm : m < 3 := hm
      show (exLine.nbrs m).length ≤ 2
      interval_cases m <;> decide

end Omega
