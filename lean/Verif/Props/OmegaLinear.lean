import Verif.Props.OmegaApi
import Verif.Props.OmegaRestart

/-!
# Omega surfaces when the compressibility does not depend on salinity and temperature (C146)

When the density is a quadratic function of salinity and temperature plus a function of pressure, potential density surfaces with every reference pressure are neutral.  One
pass of `omega_surf`, from any initial surface, gives that through the pinning point.
-/

namespace Omega
open FloatLike Fzero Interp Traj VertSolve Bfs Lib
open Fl hiding nan

set_option linter.unusedSectionVars false

/-- The density `e` is the sum of a function `f` of salinity and temperature and a function of pressure, and the differences of `f` are those given by the partial derivatives
midway (`omega_surf` only uses the derivatives in this way). -/
structure NoThermobaricity (eosST : Ntp.EosST (Fl ℝ)) (e : ℝ → ℝ → ℝ → ℝ) (smin : ℝ) (f : ℝ → ℝ → ℝ) : Prop where
  split : ∃ g : ℝ → ℝ, ∀ s t p, smin ≤ s → e s t p = f s t + g p
  mid : ∀ s0 t0 s1 t1 p, smin ≤ s0 → smin ≤ s1 → ∃ x y, eosST (fin ((s0 + s1) / 2)) (fin ((t0 + t1) / 2)) (fin p) = (fin x, fin y) ∧
    f s1 t1 - f s0 t0 = x * (s1 - s0) + y * (t1 - t0)

/-- Every quadratic density, with its partial derivatives. -/
theorem quadratic_noThermobaricity (k ks kt kss kst ktt smin : ℝ) (g : ℝ → ℝ) {eosST : Ntp.EosST (Fl ℝ)}
    (h : ∀ s t p : ℝ, smin ≤ s → eosST (fin s) (fin t) (fin p) = (fin (ks + 2 * kss * s + kst * t), fin (kt + kst * s + 2 * ktt * t))) :
    NoThermobaricity eosST (fun s t p => k + ks * s + kt * t + kss * s ^ 2 + kst * s * t + ktt * t ^ 2 + g p) smin
      (fun s t => k + ks * s + kt * t + kss * s ^ 2 + kst * s * t + ktt * t ^ 2) where
  split := ⟨g, fun _ _ _ _ => rfl⟩
  mid := by
    intro s0 t0 s1 t1 p h0 h1
    exact ⟨_, _, h _ _ p (by linarith), by ring⟩

variable {c : Cfg (Fl ℝ)} {E : List ((ℕ × ℕ) × ℝ)} {eosST : Ntp.EosST (Fl ℝ)} {e : ℝ → ℝ → ℝ → ℝ} {smin tol : ℝ} {n : ℕ} {b : List ℕ → ℕ → ℝ}
  {f : ℝ → ℝ → ℝ}

/-- The point `x` of the cast is, within the tolerance, at a pressure of the data where `f` is within `β` of `v`; or it is dry and the values of `f` at the two ends
of the data are on the same side of a number within `β` of `v`, or there are no data. -/
def IsoWithin (kind : PPKind) (c : Cast (Fl ℝ)) (smin tol : ℝ) (n : ℕ) (f : ℝ → ℝ → ℝ) (v β : ℝ) (x : Fl ℝ × Fl ℝ × Fl ℝ) : Prop :=
  (∃ s t p z sz tz : ℝ, x = (fin s, fin t, fin p) ∧ On kind c s t p ∧ On kind c sz tz z ∧ |f sz tz - v| ≤ β ∧ |z - p| ≤ acc tol p) ∨
  (x = (Fl.nan, Fl.nan, Fl.nan) ∧ (Land c ∨ ∃ A B sA tA sB tB w, Sea c smin tol n A B ∧ On kind c sA tA A ∧ On kind c sB tB B ∧ |w - v| ≤ β ∧
    0 < (f sA tA - w) * (f sB tB - w)))

theorem IsoWithin.mono {kind : PPKind} {c : Cast (Fl ℝ)} {v β β' : ℝ} (hβ : β ≤ β') {x : Fl ℝ × Fl ℝ × Fl ℝ}
    (h : IsoWithin kind c smin tol n f v β x) : IsoWithin kind c smin tol n f v β' x := by
  rcases h with ⟨s, t, p, z, sz, tz, h1, h2, h3, h4, h5⟩ | ⟨h1, h2 | ⟨A, B, sA, tA, sB, tB, w, a1, a2, a3, a4, a5⟩⟩
  · exact .inl ⟨s, t, p, z, sz, tz, h1, h2, h3, h4.trans hβ, h5⟩
  · exact .inr ⟨h1, .inl h2⟩
  · exact .inr ⟨h1, .inr ⟨A, B, sA, tA, sB, tB, w, a1, a2, a3, a4.trans hβ, a5⟩⟩

/-- The solution of the matrix problem is the difference from the density at the pinning cast. -/
theorem potential_balanced (hN : NoThermobaricity eosST e smin f) {m : List ℕ} {mref : ℕ} {s t p : ℕ → ℝ} (hs : ∀ i ∈ m, smin ≤ s i)
    {S T P : ℕ → Fl ℝ} (hS : ∀ i ∈ m, S i = fin (s i) ∧ T i = fin (t i) ∧ P i = fin (p i)) {ε : ℕ × ℕ → ℝ} (H : OmegaMat.Region E m mref eosST S T P ε) (v : ℝ) :
    OmegaMat.Balanced E m ε fun i => v - f (s i) (t i) := by
  have key : ∀ x ∈ OmegaMat.inner E m, OmegaMat.corr ε (fun i => v - f (s i) (t i)) x.1 = 0 := by
    intro x hx
    obtain ⟨-, h1, h2⟩ := OmegaMat.mem_inner hx
    have he := H.err x hx
    obtain ⟨a, d, ha, hd⟩ := hN.mid (s x.1.1) (t x.1.1) (s x.1.2) (t x.1.2) ((p x.1.1 + p x.1.2) / 2) (hs _ h1) (hs _ h2)
    unfold Ntp.epsErr at he
    obtain ⟨e1, e2, e3⟩ := hS _ h1
    obtain ⟨e4, e5, e6⟩ := hS _ h2
    have half : ∀ y : ℝ, ((1 / 2 : ℚ) : ℝ) * y = y / 2 := fun y => by push_cast; ring
    simp only [e1, e2, e3, e4, e5, e6, lit_eq, fin_add, fin_mul, fin_sub, half, ha, Fl.fin.injEq] at he
    unfold OmegaMat.corr
    dsimp only
    linarith
  have z : ∀ (g : (ℕ × ℕ) × ℝ → Prop) [DecidablePred g], ((OmegaMat.inner E m).map fun x =>
      if g x then x.2 * OmegaMat.corr ε (fun i => v - f (s i) (t i)) x.1 else 0).sum = 0 := by
    intro g _
    apply List.sum_eq_zero
    intro y hy
    obtain ⟨x, hx, rfl⟩ := List.mem_map.1 hy
    rw [key x hx]
    split_ifs <;> simp
  intro i _
  rw [z, z]

/-- **C146** After one pass from any surface, every cast of the region is on the isopycnal of the pinning point, up to the tolerances of the solvers. -/
theorem pass_isopycnal (W : World c E eosST e smin tol n b) (hN : NoThermobaricity eosST e smin f) {iter : ℕ} {stp : Surf (Fl ℝ)} {r : Iter (Fl ℝ)}
    (hS : PassSpec c E eosST e smin tol n b iter stp r) (hold : Fine c smin r.old) {s0 t0 p0 : ℝ} (hpin : r.old c.pin = (fin s0, fin t0, fin p0))
    (hnew : r.new c.pin = (fin s0, fin t0, fin p0)) (hb : 0 ≤ b r.qu c.pin) {m : ℕ} (hm : m ∈ r.qu) :
    IsoWithin c.kind (c.casts m) smin tol n f (f s0 t0) (b r.qu m) (r.new m) := by
  have hq : ∀ i ∈ r.qu, i < c.N := fun i hi => bfs_in_range W.ok ((hS.region i).1 hi)
  have hwet : ∀ i ∈ r.qu, ∃ s t p : ℝ, r.old i = (fin s, fin t, fin p) ∧ smin ≤ s ∧ On c.kind (c.casts i) s t p := by
    intro i hi
    rcases hold i (hq i hi) with h | h
    · exact h
    obtain ⟨k, w⟩ := (hS.region i).1 hi
    have hw := w.good
    unfold wet at hw
    rw [h] at hw
    cases hw
  have hacc : ∀ p, 0 ≤ acc tol p := fun p => by unfold acc; have := W.tolPos; positivity
  by_cases hmp : m = c.pin
  · subst hmp
    obtain ⟨s, t, p, h1, h2, h3⟩ := hwet _ hm
    rw [hpin] at h1
    cases h1
    exact .inl ⟨s0, t0, p0, p0, s0, t0, hnew, h3, h3, by simpa using hb, by simpa using hacc p0⟩
  rcases hS.posed with h | ⟨ε, H⟩
  · rw [h] at hm; simp at hm; exact absurd hm hmp
  choose! s t p h1 h2 h3 using hwet
  have hpm : c.pin ∈ r.qu := H.ref
  have hbal := potential_balanced (E := E) (s := s) (t := t) (p := p) hN h2 (fun i hi => by simp [h1 i hi]) H (f s0 t0)
  have e0 : s c.pin = s0 ∧ t c.pin = t0 := by
    have := h1 _ hpm
    rw [hpin] at this
    cases this
    exact ⟨rfl, rfl⟩
  obtain ⟨φ, hφ, hle⟩ := hS.solved ε _ H hbal (by rw [e0.1, e0.2, sub_self]) m hm
  obtain ⟨g, hg⟩ := hN.split
  rcases hS.moved m (hq m hm) with ⟨k1, k2⟩ | ⟨k1, -⟩ | ⟨s', t', p', φ', k1, k2, -, ⟨k3, k4⟩ | ⟨A, B, k3, gS, gT, k4, k5⟩⟩
  · rw [hφ, Fl.fin.injEq] at k1
    subst k1
    refine .inl ⟨s m, t m, p m, p m, s m, t m, by rw [k2, h1 m hm], h3 m hm, h3 m hm, ?_, by simpa using hacc _⟩
    rw [show f (s m) (t m) - f s0 t0 = 0 - (f s0 t0 - f (s m) (t m)) by ring]
    exact hle
  · rw [hφ] at k1; cases k1
  · exact .inr ⟨k4, .inl k3⟩
  · rw [hφ, Fl.fin.injEq] at k2
    subst k2
    rw [h1 m hm] at k1
    cases k1
    obtain ⟨k, K, a, sv, tv, G, hsv, hlen, rfl, rfl⟩ := k3
    have hsm : ∀ x, a k ≤ x → x ≤ a (K - 1) → smin ≤ gS x := by
      intro x hx hx'
      exact at_smin c.kind G hsv hx hx' (k4 x hx hx')
    have hres : ∀ x, a k ≤ x → x ≤ a (K - 1) → e (gS x) (gT x) (p m) - (e (s m) (t m) (p m) + φ) = f (gS x) (gT x) - (f (s m) (t m) + φ) := by
      intro x hx hx'
      rw [hg _ _ _ (hsm x hx hx'), hg _ _ _ (h2 m hm)]
      ring
    have hle' : |f (s m) (t m) + φ - f s0 t0| ≤ b r.qu m := by
      rw [show f (s m) (t m) + φ - f s0 t0 = φ - (f s0 t0 - f (s m) (t m)) by ring]
      exact hle
    have hAB : a k ≤ a (K - 1) := G.S.a_le
    rcases k5 with ⟨k5, k6⟩ | ⟨q, z, k5, q1, q2, z1, z2, hz, hd⟩
    · dsimp only at k6
      rw [hres _ le_rfl hAB, hres _ hAB le_rfl] at k6
      exact .inr ⟨k5, .inr ⟨a k, a (K - 1), _, _, _, _, _, ⟨k, K, a, sv, tv, G, hsv, hlen, rfl, rfl⟩, k4 _ le_rfl hAB, k4 _ hAB le_rfl, hle', k6⟩⟩
    · dsimp only at hz
      rw [hres z z1 z2, sub_eq_zero] at hz
      exact .inl ⟨_, _, q, z, _, _, k5, k4 q q1 q2, k4 z z1 z2, by rw [hz]; exact hle', hd⟩

/-- The surface a run ends with is that after its last pass. -/
theorem last_pass {pinP : Fl ℝ} {stp0 : Surf (Fl ℝ)} : ∀ (left k : ℕ) (s s' : State (Fl ℝ)), Before c pinP stp0 k s.stp →
    loop c pinP left (k + 1) s = .ok s' → left = 0 ∧ s' = s ∨
      ∃ k' stp r, k' < k + left ∧ Before c pinP stp0 k' stp ∧ step c pinP (k' + 1) stp = .ok r ∧ s'.stp = r.new := by
  intro left
  induction left with
  | zero => intro k s s' _ h; cases h; exact .inl ⟨rfl, rfl⟩
  | succ left ih =>
    intro k s s' hb h
    right
    unfold loop at h
    obtain ⟨r, hr, h⟩ := bind_ok h
    split_ifs at h
    · cases h
      exact ⟨k, s.stp, r, by omega, hb, hr, rfl⟩
    · rcases ih (k + 1) (after c (k + 1) s r) s' (.pass hb hr) h with ⟨_, rfl⟩ | ⟨k', stp, r', h1, h2⟩
      · exact ⟨k, s.stp, r, by omega, hb, hr, rfl⟩
      · exact ⟨k', stp, r', by omega, h2⟩

theorem region_old (W : World c E eosST e smin tol n b) {iter : ℕ} {stp : Surf (Fl ℝ)} (hf : Fine c smin stp) {s0 t0 p0 : ℝ}
    (hpin : stp c.pin = (fin s0, fin t0, fin p0)) (hml : lt (fin p0) (c.pml c.pin) = false) {r : Iter (Fl ℝ)}
    (hr : step c (fin p0) iter stp = .ok r) : r.old c.pin = (fin s0, fin t0, fin p0) := by
  have hpin' : removeML c iter stp c.pin = (fin s0, fin t0, fin p0) := removeML_pin hpin hml
  obtain ⟨old, qu, newly, q1, -, -, -, hold, -⟩ := region_total W iter (fine_removeML (iter := iter) hf) (by unfold wet; rw [hpin']; rfl)
  unfold step at hr
  obtain ⟨q, h1, hr⟩ := bind_ok hr
  obtain ⟨phi, -, hr⟩ := bind_ok hr
  obtain ⟨out, h3, hr⟩ := bind_ok hr
  cases hr
  rw [q1] at h1
  cases h1
  exact hold.trans hpin'

/-- A surface on the isopycnal through the pinning point: each cast of a connected region is on it or does not meet it; everything else is dry. -/
def IsoSurf (c : Cfg (Fl ℝ)) (smin tol : ℝ) (n : ℕ) (f : ℝ → ℝ → ℝ) (v β : ℝ) (stp : Surf (Fl ℝ)) : Prop :=
  ∃ R : List ℕ, c.pin ∈ R ∧ (∀ m ∈ R, Reach c.G (fun i => decide (i ∈ R)) c.pin m) ∧ (∀ m ∈ R, IsoWithin c.kind (c.casts m) smin tol n f v β (stp m)) ∧
    ∀ m < c.N, m ∉ R → stp m = (Fl.nan, Fl.nan, Fl.nan)

theorem reach_self {G : Csr} {good : ℕ → Bool} {root : ℕ} {R : List ℕ} (hR : ∀ m, m ∈ R ↔ Reach G good root m) {m : ℕ} (hm : m ∈ R) :
    Reach G (fun i => decide (i ∈ R)) root m := by
  obtain ⟨k, w⟩ := (hR m).1 hm
  refine ⟨k, ?_⟩
  clear hm
  induction w with
  | root hg => exact .root (decide_eq_true ((hR _).2 ⟨_, .root hg⟩))
  | step w hn hg ih => exact .step ih hn (decide_eq_true ((hR _).2 ⟨_, .step w hn hg⟩))

theorem pass_isoSurf (W : World c E eosST e smin tol n b) (hN : NoThermobaricity eosST e smin f) {β : ℝ} (hβ : ∀ q m, 0 ≤ b q m ∧ b q m ≤ β) {iter : ℕ}
    {stp : Surf (Fl ℝ)} (hf : Fine c smin stp) {s0 t0 p0 : ℝ} (hpin : stp c.pin = (fin s0, fin t0, fin p0)) (hml : lt (fin p0) (c.pml c.pin) = false)
    {r : Iter (Fl ℝ)} (hr : step c (fin p0) iter stp = .ok r) : IsoSurf c smin tol n f (f s0 t0) β r.new := by
  obtain ⟨r', h1, h2, h3⟩ := step_total W iter hf hpin hml
  rw [hr] at h1
  cases h1
  have hold := region_fine W hf hpin hml hr
  have ho := region_old W hf hpin hml hr
  refine ⟨r.qu, (h2.region _).2 ⟨0, .root (by unfold wet; rw [ho]; rfl)⟩, fun m hm => reach_self h2.region hm, fun m hm => ?_, fun m hm hq => ?_⟩
  · exact (pass_isopycnal W hN h2 hold ho h3 (hβ _ _).1 hm).mono (hβ _ _).2
  · have hp := (h2.phi m).2 hq
    rcases h2.moved m hm with ⟨h, -⟩ | ⟨-, h⟩ | ⟨_, _, _, _, -, h, -⟩
    · rw [hp] at h; cases h
    · exact h
    · rw [hp] at h; cases h

/-- **C146** `omega_surf` of a density without thermobaricity returns the isopycnal through the pinning point, from any initial surface, after any positive number of
passes. -/
theorem omega_isopycnal (W : World c E eosST e smin tol n b) (hN : NoThermobaricity eosST e smin f) {β : ℝ} (hβ : ∀ q m, 0 ≤ b q m ∧ b q m ≤ β)
    {P : PInit (Fl ℝ)} {p0 : ℝ} (hP : pinPOf c P = fin p0)
    (hin : ∃ A B, Sea (c.casts c.pin) smin tol n A B ∧ A ≤ p0 ∧ p0 ≤ B) (hml : lt (fin p0) (c.pml c.pin) = false) (hpass : 1 ≤ c.iterMax) :
    ∃ s s0 t0, omega c P = .ok s ∧ On c.kind (c.casts c.pin) s0 t0 p0 ∧ s.stp c.pin = (fin s0, fin t0, fin p0) ∧
      IsoSurf c smin tol n f (f s0 t0) β s.stp := by
  obtain ⟨stp0, s0, t0, h1, h2, h3, h4⟩ := init_total W hP hin
  obtain ⟨s, stp0', s0', t0', g1, g2, -, -, g5, -⟩ := omega_from W hP h3 h1 h2 h4 hml (fun _ => hpass)
  rw [h1] at g2
  cases g2
  have hs := g1
  unfold omega at hs
  obtain ⟨stp', h1', hs⟩ := bind_ok hs
  rw [h1] at h1'
  cases h1'
  obtain ⟨s'', hl, hs⟩ := bind_ok hs
  split_ifs at hs
  cases hs
  rw [hP] at hl
  rcases last_pass (stp0 := stp0) c.iterMax 0 _ s .start hl with ⟨h, -⟩ | ⟨k, stp, r, k1, k2, k3, k4⟩
  · omega
  obtain ⟨i1, i2⟩ := run_spec W hml h2 h4 (by omega) k2
  obtain ⟨r', q1, q2, q3⟩ := step_total W (k + 1) i1 i2 hml
  rw [k3] at q1
  cases q1
  refine ⟨s, s0, t0, g1, h3, by rw [k4, q3], ?_⟩
  rw [k4]
  exact pass_isoSurf W hN hβ i1 i2 hml k3

/-- A point of a cast with data is within its data. -/
theorem On.range {kind : PPKind} {c : Cast (Fl ℝ)} {k K : ℕ} {a s t : ℕ → ℝ} (G : GoodCast c k K a s t) {σ τ p : ℝ} (h : On kind c σ τ p) :
    a k ≤ p ∧ p ≤ a (K - 1) := by
  have BB : Block c.P c.S k K a s := ⟨G.S.size.symm, G.S.vr.1, G.S.two, G.S.hX, G.S.hY, G.S.inc⟩
  by_contra hp
  have ho : outside c.P k K (fin p) = true := by
    cases hh : outside c.P k K (fin p)
    · exact absurd ((BB.outside_iff p).1 hh) hp
    · rfl
  have h1 := h.1
  unfold interpAt at h1
  revert h1
  cases kind <;> (simp only [linearInterp1, pchipInterp1, ppinterp1, G.S.vr.1]; rw [if_pos ho]; intro h1; cases h1)

/-- **C146** On every cast along whose data `f` increases, the point of the surface and that of the potential density surface (with any reference pressure) or anomaly surface
(with any reference salinity and temperature) through the same value agree to the tolerances, and one is dry exactly when the other is. -/
theorem IsoWithin.agrees {kind : PPKind} {c : Cast (Fl ℝ)} {v A B tol' : ℝ} {x r : Fl ℝ × Fl ℝ × Fl ℝ} (h : IsoWithin kind c smin tol n f v 0 x)
    {k K : ℕ} {a s t : ℕ → ℝ} (G : GoodCast c k K a s t) (hA : A = a k) (hB : B = a (K - 1))
    (hmono : ∀ z z' σ τ σ' τ', z < z' → On kind c σ τ z → On kind c σ' τ' z' → f σ τ < f σ' τ')
    (hr : Solved kind c A B (fun s t _ => f s t - v) tol' r) :
    (x.2.2 = Fl.nan ↔ r.2.2 = Fl.nan) ∧ ∀ p q, x.2.2 = fin p → r.2.2 = fin q → |p - q| ≤ acc tol p + acc tol' q := by
  subst hA hB
  have hAB : a k ≤ a (K - 1) := G.S.a_le
  have uniq : ∀ z z' σ τ σ' τ', On kind c σ τ z → On kind c σ' τ' z' → f σ τ = f σ' τ' → z = z' := by
    intro z z' σ τ σ' τ' h1 h2 h3
    rcases lt_trichotomy z z' with h | h | h
    · exact absurd h3 (hmono _ _ _ _ _ _ h h1 h2).ne
    · exact h
    · exact absurd h3 (hmono _ _ _ _ _ _ h h2 h1).ne'
  have fn : ∀ z σ τ σ' τ', On kind c σ τ z → On kind c σ' τ' z → σ = σ' ∧ τ = τ' := by
    intro z σ τ σ' τ' h1 h2
    have e1 := h1.1.symm.trans h2.1
    have e2 := h1.2.symm.trans h2.2
    cases e1
    cases e2
    exact ⟨rfl, rfl⟩
  obtain ⟨gS, gT, hi, hr⟩ := hr
  have onA : On kind c (gS (a k)) (gT (a k)) (a k) := hi _ le_rfl hAB
  have onB : On kind c (gS (a (K - 1))) (gT (a (K - 1))) (a (K - 1)) := hi _ hAB le_rfl
  -- no point between the ends when the value is outside
  have none : 0 < (f (gS (a k)) (gT (a k)) - v) * (f (gS (a (K - 1))) (gT (a (K - 1))) - v) → ∀ z σ τ, On kind c σ τ z → f σ τ ≠ v := by
    intro h0 z σ τ hz he
    obtain ⟨z1, z2⟩ := hz.range G
    have l1 : f (gS (a k)) (gT (a k)) ≤ v := by
      rcases z1.lt_or_eq with h | h
      · exact he ▸ (hmono _ _ _ _ _ _ h onA hz).le
      · subst h; obtain ⟨rfl, rfl⟩ := fn _ _ _ _ _ onA hz; exact he.le
    have l2 : v ≤ f (gS (a (K - 1))) (gT (a (K - 1))) := by
      rcases z2.lt_or_eq with h | h
      · exact he ▸ (hmono _ _ _ _ _ _ h hz onB).le
      · subst h; obtain ⟨rfl, rfl⟩ := fn _ _ _ _ _ onB hz; exact he.ge
    nlinarith
  rcases h with ⟨s1, t1, p, z, sz, tz, rfl, h2, h3, h4, h5⟩ | ⟨rfl, h⟩
  · have hv : f sz tz = v := by
      have := abs_nonpos_iff.1 h4
      linarith
    rcases hr with ⟨rfl, h0⟩ | ⟨q, z', rfl, q1, q2, z1, z2, hz, hd⟩
    · exact absurd hv (none h0 _ _ _ h3)
    · refine ⟨⟨fun h => (by cases h), fun h => (by cases h)⟩, fun p' q' hp hq => ?_⟩
      cases hp
      cases hq
      have hzz : z = z' := uniq _ _ _ _ _ _ h3 (hi z' z1 z2) (by rw [hv]; dsimp only at hz; linarith)
      subst hzz
      have : p - q = (z - q) - (z - p) := by ring
      rw [this]
      refine (abs_sub _ _).trans ?_
      have : |z - q| ≤ acc tol' q := hd
      linarith
  · refine ⟨⟨fun _ => ?_, fun _ => rfl⟩, fun p q hp => by cases hp⟩
    rcases hr with ⟨rfl, -⟩ | ⟨q, z', rfl, q1, q2, z1, z2, hz, hd⟩
    · rfl
    exfalso
    rcases h with h | ⟨A, B, sA, tA, sB, tB, w, ⟨k', K', a', s', t', G', -, -, rfl, rfl⟩, b1, b2, b3, b4⟩
    · have e1 := h.1
      rw [G.S.vr.2] at e1
      have := G.S.two
      dsimp only at e1
      omega
    · have hw : w = v := by
        have := abs_nonpos_iff.1 b3
        linarith
      subst hw
      have e := G.S.vr.1.symm.trans G'.S.vr.1
      cases e
      have ek : a k = a' k := by
        have := (G.S.hX k le_rfl (by have := G.S.two; omega)).symm.trans (G'.S.hX k le_rfl (by have := G.S.two; omega))
        injection this
      have eK : a (K - 1) = a' (K - 1) := by
        have h2 := G.S.two
        have := (G.S.hX (K - 1) (by omega) (by omega)).symm.trans (G'.S.hX (K - 1) (by omega) (by omega))
        injection this
      rw [← ek] at b1
      rw [← eK] at b2
      obtain ⟨rfl, rfl⟩ := fn _ _ _ _ _ onA b1
      obtain ⟨rfl, rfl⟩ := fn _ _ _ _ _ onB b2
      exact none b4 z' _ _ (hi z' z1 z2) (by dsimp only at hz; linarith)

theorem solved_congr {kind : PPKind} {c : Cast (Fl ℝ)} {A B tol : ℝ} {res res' : ℝ → ℝ → ℝ → ℝ} {r : Fl ℝ × Fl ℝ × Fl ℝ} (hAB : A ≤ B)
    (h : Solved kind c A B res tol r) (he : ∀ σ τ x, A ≤ x → x ≤ B → On kind c σ τ x → res σ τ x = res' σ τ x) : Solved kind c A B res' tol r := by
  obtain ⟨gS, gT, hi, h⟩ := h
  refine ⟨gS, gT, hi, ?_⟩
  rw [he _ _ _ le_rfl hAB (hi _ le_rfl hAB), he _ _ _ hAB le_rfl (hi _ hAB le_rfl)] at h
  rcases h with h | ⟨p, z, h1, h2, h3, h4, h5, h6, h7⟩
  · exact .inl h
  · exact .inr ⟨p, z, h1, h2, h3, h4, h5, by rw [← he _ _ _ h4 h5 (hi _ h4 h5)]; exact h6, h7⟩

/-- Two points of a cast agree: dry together, and otherwise within the tolerances. -/
def Agree (tol : ℝ) (x r : Fl ℝ × Fl ℝ × Fl ℝ) : Prop :=
  (x.2.2 = Fl.nan ↔ r.2.2 = Fl.nan) ∧ ∀ p q, x.2.2 = fin p → r.2.2 = fin q → |p - q| ≤ acc tol p + acc tol q

/-- **C146** On every cast of the region along whose data the density increases (apart from compression), the point of the surface agrees with that of the potential density surface
through the pinning point, with any reference pressure, and with that of the anomaly surface through the pinning point, with any reference salinity and temperature. -/
theorem IsoWithin.potential_anomaly {eos : Fl ℝ → Fl ℝ → Fl ℝ → Fl ℝ} (hE : EosOn eos e smin) (hN : NoThermobaricity eosST e smin f) {kind : PPKind}
    {c : Cast (Fl ℝ)} {s0 t0 p0 A B : ℝ} (h0 : smin ≤ s0) {x : Fl ℝ × Fl ℝ × Fl ℝ} (h : IsoWithin kind c smin tol n f (f s0 t0) 0 x) (htol : 0 < tol)
    (hsea : Sea c smin tol n A B) (hmono : ∀ z z' σ τ σ' τ', z < z' → On kind c σ τ z → On kind c σ' τ' z' → f σ τ < f σ' τ') :
    (∀ refP, ∃ r, vertsolve1 (n + 13) (fin tol) kind (fun P Sp Tp => zeroPotential eos P Sp Tp (fin refP) (fin (e s0 t0 refP))) c = .ret r ∧ Agree tol x r) ∧
    ∀ refS refT, smin ≤ refS → ∃ r, vertsolve1 (n + 13) (fin tol) kind (fun P Sp Tp => zeroAnomaly eos P Sp Tp (fin refS, fin refT)
      (fin (e s0 t0 p0 - e refS refT p0))) c = .ret r ∧ Agree tol x r := by
  obtain ⟨g, hg⟩ := hN.split
  obtain ⟨k, K, a, s, t, G, hs, hn, rfl, rfl⟩ := hsea
  constructor
  · intro refP
    obtain ⟨r, r1, r2⟩ := potential_spec (refP := refP) (isoval := e s0 t0 refP) kind hE G hs htol n hn
    refine ⟨r, r1, h.agrees G rfl rfl hmono (solved_congr G.S.a_le r2 ?_)⟩
    intro σ τ y y1 y2 hy
    have := at_smin kind G hs y1 y2 hy
    rw [hg _ _ _ this, hg _ _ _ h0]
    ring
  · intro refS refT hrS
    obtain ⟨r, r1, r2⟩ := anomaly_spec (refS := refS) (refT := refT) (isoval := e s0 t0 p0 - e refS refT p0) kind hE G hs hrS htol n hn
    refine ⟨r, r1, h.agrees G rfl rfl hmono (solved_congr G.S.a_le r2 ?_)⟩
    intro σ τ y y1 y2 hy
    have := at_smin kind G hs y1 y2 hy
    rw [hg _ _ _ this, hg _ _ _ h0, hg _ _ _ hrS, hg _ _ _ hrS]
    ring

/-- **C146** The same for a call of `omega_surf`. -/
theorem omegaSurf_isopycnal {o : Opts (Fl ℝ)} {dims : Option (List String)} {coord : String → Option (List ℚ)} {S T : Nd (Fl ℝ)} {P : PArg (Fl ℝ)}
    {v : ℕ} {pr : List ℕ → ℕ → Fl ℝ} {L : List Link} {pc : PinCast} {m0 : List ℕ} {p0 : ℝ}
    (C : Call o dims coord S T P v pr L pc m0 p0 e smin tol n b) (hN : NoThermobaricity o.eosST e smin f) {β : ℝ} (hβ : ∀ q m, 0 ≤ b q m ∧ b q m ≤ β)
    {init : PArgInit (Fl ℝ)} (hI : Starts (S.shape.eraseIdx v) m0 p0 init) (hpass : 1 ≤ o.iterMax) :
    ∃ out st s0 t0, omegaSurf o dims coord S T P (gridOf L) pc init = .ok (S.shape.eraseIdx v, out, st) ∧
      On o.kind (castAt S T pr v m0) s0 t0 p0 ∧ out m0 = (fin s0, fin t0, fin p0) ∧
      ∀ m, Valid (S.shape.eraseIdx v) m → out m = (Fl.nan, Fl.nan, Fl.nan) ∨ IsoWithin o.kind (castAt S T pr v m) smin tol n f (f s0 t0) β (out m) := by
  obtain ⟨c, K, hrun⟩ := call_core C
  obtain ⟨hs, hhs'⟩ : ∃ hs, hs = S.shape.eraseIdx v := ⟨_, rfl⟩
  rw [← hhs'] at K hrun hI ⊢
  have hv : Valid hs m0 := by rw [hhs']; exact C.valid
  obtain ⟨Q, q1, q2⟩ : ∃ Q, checkInit hs init = .ok Q ∧ pinPOf c Q = fin p0 := by
    cases init with
    | scalar p =>
      rw [show p = fin p0 from hI]
      exact ⟨_, rfl, rfl⟩
    | array p =>
      obtain ⟨i1, i2⟩ := hI
      refine ⟨.array (flatten p), by rw [checkInit, if_pos i1], ?_⟩
      show flatten p c.pin = _
      rw [K.pin, flatten, i1, unravel_ravel hv, i2]
    | other => exact absurd hI id
  obtain ⟨st, s0, t0, r1, r2, r3, R, -, -, r4, r5⟩ := omega_isopycnal K.world hN hβ q2 K.start K.below (by rw [K.follows.iterMax]; exact hpass)
  refine ⟨reshapeGet hs st.stp, st, s0, t0, ?_, ?_, ?_, ?_⟩
  · rw [hrun _ _ q1, r1]; rfl
  · rw [K.kind, K.pin, K.casts _ hv] at r2; exact r2
  · rw [reshape_ravel _ hv, ← K.pin, r3]
  · intro m hm
    rw [reshape_ravel _ hm, ← K.casts m hm, ← K.kind]
    by_cases hR : ravel hs m ∈ R
    · exact .inr (r4 _ hR)
    · exact .inl (r5 _ (by rw [K.N]; exact ravel_lt hm) hR)

/-! ## Examples -/

/-- Cabbeling, without thermobaricity. -/
example : NoThermobaricity (fun s t _ => (lit (3/4) + lit (1/100) * t, lit (-1/10) + lit (1/100) * s + lit (-1/100) * t))
    (fun s t p => 1000 + 3/4 * s + -1/10 * t + 0 * s ^ 2 + 1/100 * s * t + -1/200 * t ^ 2 + p ^ 3) 0
    (fun s t => 1000 + 3/4 * s + -1/10 * t + 0 * s ^ 2 + 1/100 * s * t + -1/200 * t ^ 2) :=
  quadratic_noThermobaricity _ _ _ _ _ _ _ (fun p => p ^ 3) (by
    intro s t p _
    simp only [lit_eq, fin_add, fin_mul, Prod.mk.injEq, Fl.fin.injEq]
    constructor <;> (push_cast; ring))

/-- Two casts and land: from an initial surface with pressure 2 at the first cast, the surface becomes the isopycnal through pressure 1 at the pinning cast. -/
example : ∃ spsolve lsqr, ∃ out st, omegaSurf (apiO "Poisson" spsolve lsqr) none (fun _ => none) apiS apiT (.small 5 exCast.P.get)
      (gridOf [⟨(0, 1), 1, 4⟩, ⟨(1, 2), 2, 4⟩]) (.tuple [0, 1]) (.array ⟨[1, 3], fun m => fin (if m = [0, 0] then 2 else 1)⟩) = .ok ([1, 3], out, st) ∧
      ∀ p, (out [0, 0]).2.2 = fin p → ∃ s0 t0 s t z, On .pchip exCast s0 t0 1 ∧ On .pchip exCast s t z ∧ s - t = s0 - t0 ∧ |z - p| ≤ acc (1 / 100) p := by
  obtain ⟨⟨spsolve, hs⟩, -⟩ := OmegaMat.exact_solvers_exist (α := ℝ)
  refine ⟨spsolve, fun _ _ _ _ _ => Fl.nan, ?_⟩
  have C := api_call (f := "Poisson") (spsolve := spsolve) (lsqr := fun _ _ _ _ _ => Fl.nan) (.inl ⟨by show "Poisson".toLower = _; decide +kernel, 0, le_rfl, hs.near, rfl⟩)
  obtain ⟨out, st, s0, t0, h1, h2, -, h3⟩ := omegaSurf_isopycnal (f := fun s t => s - t) (β := 0) C
    ⟨⟨fun _ => 0, fun _ _ _ _ => by ring⟩, fun s0 t0 s1 t1 p _ _ => ⟨1, -1, rfl, by ring⟩⟩ (fun _ _ => by simp)
    (init := .array ⟨[1, 3], fun m => fin (if m = [0, 0] then 2 else 1)⟩) ⟨rfl, by simp⟩ (by show 1 ≤ 10; norm_num)
  refine ⟨out, st, h1, fun p hp => ?_⟩
  have c0 : castAt apiS apiT (fun _ k => exCast.P.get k) 0 [0, 0] = exCast := rfl
  have c1 : castAt apiS apiT (fun _ k => exCast.P.get k) 0 [0, 1] = exCast := rfl
  rw [c1] at h2
  rcases h3 [0, 0] (by unfold Valid; simp [apiS]) with h | ⟨s, t, p', z, sz, tz, k1, k2, k3, k4, k5⟩ | ⟨h, -⟩
  · rw [h] at hp; cases hp
  · rw [k1] at hp
    cases hp
    rw [c0] at k2 k3
    exact ⟨s0, t0, sz, tz, z, h2, k3, by have := abs_nonpos_iff.1 k4; linarith, k5⟩
  · rw [h] at hp; cases hp

end Omega
