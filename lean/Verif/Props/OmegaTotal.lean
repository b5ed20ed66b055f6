import Verif.Props.OmegaSym
import Verif.Props.OmegaSolver
import Verif.Props.Order
import Verif.Props.PerimNeutral

/-!
# `omega_surf` returns on every well formed ocean, and what each pass does (C137)

Exact real arithmetic, a matrix solver with a bounded error, an initial surface given or grown by wetting from one point.  Every cast is either land (fewer than two data) or has
one block of data with increasing pressure.
-/

namespace Omega
open FloatLike Fzero Interp Traj VertSolve Bfs
open Fl hiding nan

/-- A cast with fewer than two data. -/
def Land (c : Cast (Fl ℝ)) : Prop :=
  (validRange2 c.S c.P).2 ≤ (validRange2 c.S c.P).1 + 1 ∧ (validRange2 c.P c.S).2 ≤ (validRange2 c.P c.S).1 + 1

/-- A cast with one block of data from pressure `A` to `B`, with salinities at least `smin`, short enough for `n` bisections with tolerance `tol`. -/
def Sea (c : Cast (Fl ℝ)) (smin tol : ℝ) (n : ℕ) (A B : ℝ) : Prop :=
  ∃ k K a s t, GoodCast c k K a s t ∧ (∀ i, k ≤ i → i < K → smin ≤ s i) ∧ 2 * (a (K - 1) - a k) / tol ≤ n ∧ A = a k ∧ B = a (K - 1)

/-- A well formed ocean with a well formed grid. -/
structure World (c : Cfg (Fl ℝ)) (E : List ((ℕ × ℕ) × ℝ)) (eosST : Ntp.EosST (Fl ℝ)) (e : ℝ → ℝ → ℝ → ℝ) (smin tol : ℝ) (n : ℕ)
    (b : List ℕ → ℕ → ℝ) : Prop where
  ok : Ok c
  tolEq : c.tol = fin tol
  tolPos : 0 < tol
  fuel : c.fuel = n + 13
  eos : EosOn c.eos e smin
  der : ∀ s t p : ℝ, smin ≤ s → ∃ x y, eosST (fin s) (fin t) (fin p) = (fin x, fin y)
  casts : ∀ m < c.N, Land (c.casts m) ∨ ∃ A B, Sea (c.casts m) smin tol n A B
  edges : ∀ a < c.N, ∀ b ∈ c.G.nbrs a, ∃ x ∈ E, x.1 = (a, b) ∨ x.1 = (b, a)
  sym : ∀ a b, b ∈ c.G.nbrs a → a ∈ c.G.nbrs b
  weights : ∀ x ∈ E, 0 < x.2
  solver : OmegaMat.SolverWithin E eosST b c.solver

/-- Salinity and temperature of the cast, interpolated to the pressure `p`. -/
def On (kind : PPKind) (c : Cast (Fl ℝ)) (s t p : ℝ) : Prop :=
  interpAt kind (fin p) c.P c.S = some (fin s) ∧ interpAt kind (fin p) c.P c.T = some (fin t)

/-- A point of the cast in the range of the equation of state, or dry. -/
def FinePt (kind : PPKind) (c : Cast (Fl ℝ)) (smin : ℝ) (x : Fl ℝ × Fl ℝ × Fl ℝ) : Prop :=
  (∃ s t p : ℝ, x = (fin s, fin t, fin p) ∧ smin ≤ s ∧ On kind c s t p) ∨ x.2.2 = Fl.nan

/-- A surface all of whose points are fine. -/
def Fine (c : Cfg (Fl ℝ)) (smin : ℝ) (stp : Surf (Fl ℝ)) : Prop := ∀ m < c.N, FinePt c.kind (c.casts m) smin (stp m)

/-- Specification of the new point at a cast, given the old one and the correction: unchanged if the correction is zero; dry outside the
region and on land; on a sea cast the point where the potential density referred to the old pressure is the old density plus the correction, up
to the tolerance, or dry when the residuals at the two ends of the cast have the same strict sign. -/
def Moved (kind : PPKind) (c : Cast (Fl ℝ)) (e : ℝ → ℝ → ℝ → ℝ) (smin tol : ℝ) (n : ℕ) (old : Fl ℝ × Fl ℝ × Fl ℝ) (phi : Fl ℝ)
    (new : Fl ℝ × Fl ℝ × Fl ℝ) : Prop :=
  (phi = fin 0 ∧ new = old) ∨
  (phi = Fl.nan ∧ new = (Fl.nan, Fl.nan, Fl.nan)) ∨
  (∃ s0 t0 p0 φ : ℝ, old = (fin s0, fin t0, fin p0) ∧ phi = fin φ ∧ φ ≠ 0 ∧
    ((Land c ∧ new = (Fl.nan, Fl.nan, Fl.nan)) ∨
      ∃ A B, Sea c smin tol n A B ∧ Solved kind c A B (fun s t _ => e s t p0 - (e s0 t0 p0 + φ)) tol new))

variable {c : Cfg (Fl ℝ)} {E : List ((ℕ × ℕ) × ℝ)} {eosST : Ntp.EosST (Fl ℝ)} {e : ℝ → ℝ → ℝ → ℝ} {smin tol : ℝ} {n : ℕ} {b : List ℕ → ℕ → ℝ}

theorem fine_removeML {iter : ℕ} {stp : Surf (Fl ℝ)} (h : Fine c smin stp) : Fine c smin (removeML c iter stp) := by
  intro m hm
  unfold removeML
  split_ifs
  · dsimp only
    split_ifs
    · exact Or.inr rfl
    · exact h m hm
  · exact h m hm

/-- The errors on edges between wet points are finite. -/
theorem err_finite (W : World c E eosST e smin tol n b) {s t p : ℕ → Fl ℝ} {x : ℕ × ℕ}
    (h1 : ∃ s' t' p' : ℝ, s x.1 = fin s' ∧ t x.1 = fin t' ∧ p x.1 = fin p' ∧ smin ≤ s')
    (h2 : ∃ s' t' p' : ℝ, s x.2 = fin s' ∧ t x.2 = fin t' ∧ p x.2 = fin p' ∧ smin ≤ s') : ∃ v, Ntp.epsErr eosST s t p x = fin v := by
  obtain ⟨s1, t1, p1, a1, a2, a3, a4⟩ := h1
  obtain ⟨s2, t2, p2, b1, b2, b3, b4⟩ := h2
  obtain ⟨u, v, huv⟩ := W.der (((1 / 2 : ℚ) : ℝ) * (s1 + s2)) (((1 / 2 : ℚ) : ℝ) * (t1 + t2)) (((1 / 2 : ℚ) : ℝ) * (p1 + p2))
    (by push_cast; linarith)
  unfold Ntp.epsErr
  simp only [a1, a2, a3, b1, b2, b3, lit_eq, fin_add, fin_mul, fin_sub]
  rw [huv]
  simp only [fin_add, fin_mul]
  exact ⟨_, rfl⟩

/-- The region of a pass is one on which the matrix problem is posed. -/
theorem region_posed (W : World c E eosST e smin tol n b) {stp : Surf (Fl ℝ)} (hf : Fine c smin stp) (hpin : wet stp c.pin = true)
    {qu : List ℕ} (hn : qu.Nodup) (hq : ∀ m, m ∈ qu ↔ Reach c.G (wet stp) c.pin m) :
    qu = [c.pin] ∨ ∃ ε, OmegaMat.Region E qu c.pin eosST (fun m => (stp m).1) (fun m => (stp m).2.1) (fun m => (stp m).2.2) ε := by
  have hp : c.pin ∈ qu := (hq _).2 ⟨0, .root hpin⟩
  by_cases h2 : 2 ≤ qu.length
  · right
    have hpt : ∀ m ∈ qu, ∃ s' t' p' : ℝ, (stp m).1 = fin s' ∧ (stp m).2.1 = fin t' ∧ (stp m).2.2 = fin p' ∧ smin ≤ s' := by
      intro m hm
      have hr := (hq m).1 hm
      have hw : wet stp m = true := by obtain ⟨k, w⟩ := hr; exact w.good
      rcases hf m (bfs_in_range W.ok hr) with ⟨s, t, p, h, hs, -⟩ | h
      · exact ⟨s, t, p, by rw [h], by rw [h], by rw [h], hs⟩
      · unfold wet at hw; rw [h] at hw; cases hw
    have herr : ∀ x ∈ OmegaMat.inner E qu, ∃ v, Ntp.epsErr eosST (fun m => (stp m).1) (fun m => (stp m).2.1) (fun m => (stp m).2.2) x.1 = fin v := by
      intro x hx
      obtain ⟨_, i1, i2⟩ := OmegaMat.mem_inner hx
      exact err_finite W (hpt _ i1) (hpt _ i2)
    refine ⟨fun y => OmegaMat.num (Ntp.epsErr eosST (fun m => (stp m).1) (fun m => (stp m).2.1) (fun m => (stp m).2.2) y),
      hn, hp, h2, ?_, ?_, ?_⟩
    · intro x hx
      exact W.weights x (OmegaMat.mem_inner hx).1
    · intro m hm
      obtain ⟨k, w⟩ := (hq m).1 hm
      clear hm
      induction w with
      | root _ => exact .refl
      | @step k a b wa hb hg ih =>
        refine ih.tail ?_
        have ra : Reach c.G (wet stp) c.pin a := ⟨k, wa⟩
        exact ⟨(hq _).2 ra, (hq _).2 ⟨k + 1, .step wa hb hg⟩, W.edges a (bfs_in_range W.ok ra) b hb⟩
    · intro x hx
      obtain ⟨v, hv⟩ := herr x hx
      rw [hv]; rfl
  · left
    match qu, hp with
    | [a], hp => rw [List.mem_singleton.1 hp]
    | _ :: _ :: _, _ => simp at h2

/-- The vertical solve on one cast returns, and does what it should. -/
theorem moved (W : World c E eosST e smin tol n b) {m : ℕ} (hm : m < c.N) {old : Fl ℝ × Fl ℝ × Fl ℝ} {phi : Fl ℝ}
    (hphi : phi = Fl.nan ∨ ∃ φ : ℝ, phi = fin φ ∧ ∃ s0 t0 p0 : ℝ, old = (fin s0, fin t0, fin p0) ∧ smin ≤ s0 ∧
      On c.kind (c.casts m) s0 t0 p0) :
    ∃ new, omegaSolve1 c.fuel c.tol c.kind c.eos phi old (c.casts m) = .ret new ∧
      Moved c.kind (c.casts m) e smin tol n old phi new ∧ FinePt c.kind (c.casts m) smin new := by
  rcases hphi with rfl | ⟨φ, rfl, s0, t0, p0, rfl, hs0, hon⟩
  · refine ⟨_, omega_nan _ _ _ _ _ _ _ rfl (Or.inl rfl), Or.inr (Or.inl ⟨rfl, rfl⟩), Or.inr rfl⟩
  · by_cases h0 : φ = 0
    · subst h0
      refine ⟨_, omega_zero _ _ _ _ _ _ _ (by simp), Or.inl ⟨rfl, rfl⟩, Or.inl ⟨s0, t0, p0, rfl, hs0, hon⟩⟩
    · rcases W.casts m hm with hl | ⟨A, B, hsea⟩
      · refine ⟨_, omega_nan _ _ _ _ _ _ _ (by simpa using h0) (Or.inr hl.1), Or.inr (Or.inr ⟨s0, t0, p0, φ, rfl, rfl, h0, Or.inl ⟨hl, rfl⟩⟩), Or.inr rfl⟩
      · have hsea' := hsea
        obtain ⟨k, K, a, s, t, G, hs, hn, rfl, rfl⟩ := hsea
        obtain ⟨r, h1, h2⟩ := omega_spec c.kind W.eos G hs (p0 := p0) (t0 := t0) h0 hs0 W.tolPos n hn
        refine ⟨r, by rw [W.fuel, W.tolEq]; exact h1, Or.inr (Or.inr ⟨s0, t0, p0, φ, rfl, rfl, h0, Or.inr ⟨_, _, hsea', h2⟩⟩), ?_⟩
        obtain ⟨gS, gT, hi, ⟨g, -⟩ | ⟨p, z, g, b1, b2, -⟩⟩ := h2
        · rw [g]; exact Or.inr rfl
        · refine Or.inl ⟨gS p, gT p, p, g, at_smin c.kind G hs b1 b2 (hi p b1 b2), hi p b1 b2⟩

/-- Specification of wetting, before (`stp`) and after (`stp'`): the casts connected with the pinning cast keep their points; the casts `W`, which
were dry, hold the interpolated salinity and temperature at the mean of the pressures where they are reached by neutral links from adjacent casts, connected
or wetted before them, that end below the mixed layer of those casts; everything else is dry. -/
structure Wetted (c : Cfg (Fl ℝ)) (e : ℝ → ℝ → ℝ → ℝ) (tol : ℝ) (stp stp' : Surf (Fl ℝ)) (W : List ℕ) : Prop where
  nodup : W.Nodup
  kept : ∀ v, Reach c.G (wet stp) c.pin v → stp' v = stp v
  cut : ∀ v, ¬ Reach c.G (wet stp) c.pin v → v ∉ W → (stp' v).2.2 = Fl.nan
  was_dry : ∀ v ∈ W, wet stp v = false ∧ v < c.N
  linked : ∀ i v, W[i]? = some v → ∃ s t p, stp' v = (fin s, fin t, fin p) ∧
      interpAt c.kind (fin p) (c.casts v).P (c.casts v).S = some (fin s) ∧ interpAt c.kind (fin p) (c.casts v).P (c.casts v).T = some (fin t) ∧
      ∃ (ns : List ℕ) (g : ℕ → ℝ), ns ≠ [] ∧ ns.Sublist (c.G.nbrs v) ∧ p = (ns.map g).sum / ns.length ∧
        ∀ n ∈ ns, (Reach c.G (wet stp) c.pin n ∨ n ∈ W.take i) ∧ lt (c.pml n) (fin (g n)) = true ∧
          LinkTo c.kind e tol (stp' n) (c.casts v) (g n)

theorem twoData_sea (W : World c E eosST e smin tol n b) {m : ℕ} (hm : m < c.N) (h : TwoData (c.casts m)) : CastOK smin tol n (c.casts m) := by
  rcases W.casts m hm with hl | ⟨A, B, k, K, a, s, t, G, h1, h2, -, -⟩
  · have := (ofCasts_data c.fuel c.tol c.eos c.kind c.casts c.pml m).2 h
    simp only [Ocean.ofCasts, decide_eq_true_iff] at this
    have := hl.1
    omega
  · exact ⟨k, K, a, s, t, G, h1, h2⟩

/-- **C137** Wetting a surface of a well formed ocean. -/
theorem wetting_total (W : World c E eosST e smin tol n b) {stp : Surf (Fl ℝ)} (hf : Fine c smin stp) :
    ∃ r V, wetting c stp = .ok r ∧ Fine c smin r.1 ∧ Wetted c e tol stp r.1 V ∧ r.2 = V.length := by
  have hnan : isFinite (nan : Fl ℝ) = false := rfl
  obtain ⟨r, V, h1, S⟩ := wetPerim_spec hnan c.G c.ocean c.N c.pin stp W.ok.graph W.ok.pin c.garbage c.nrep c.fuel W.ok.fuel
  have hstp : ∀ m, Reach c.G (wet stp) c.pin m → ∃ s t p, stp m = (fin s, fin t, fin p) ∧ smin ≤ s := by
    intro m hm
    have hw : wet stp m = true := by obtain ⟨k, w⟩ := hm; exact w.good
    rcases hf m (bfs_in_range W.ok hm) with ⟨s, t, p, h, hs, -⟩ | h
    · exact ⟨s, t, p, h, hs⟩
    · unfold wet at hw; rw [h] at hw; cases hw
  have S' := S
  unfold Cfg.ocean at S'
  rw [W.fuel, W.tolEq] at S'
  have hN := perim_neutral W.eos W.tolPos S' hstp (fun m hm => twoData_sea W hm)
  refine ⟨(r.stp, r.newly), V, by unfold wetting; rw [h1]; rfl, ?_, ⟨S.nodup, S.kept, fun v h1 h2 => by show (r.stp v).2.2 = _; rw [S.cut v h1 h2]; rfl, S.was_dry, ?_⟩, S.count⟩
  · intro m hm
    show FinePt c.kind (c.casts m) smin (r.stp m)
    by_cases hr : Reach c.G (wet stp) c.pin m
    · rw [S.kept m hr]; exact hf m hm
    · by_cases hV : m ∈ V
      · obtain ⟨i, hi, rfl⟩ := List.mem_iff_getElem.1 hV
        obtain ⟨s, t, p, q1, q2, q3, q4, -⟩ := hN i _ (List.getElem?_eq_getElem hi)
        exact Or.inl ⟨s, t, p, q1, q2, q3, q4⟩
      · rw [S.cut m hr hV]; exact Or.inr rfl
  · intro i v hv
    obtain ⟨s, t, p, q1, -, q2⟩ := hN i v hv
    exact ⟨s, t, p, q1, q2⟩

/-- **C137** The region of a pass, with or without wetting. -/
theorem region_total (W : World c E eosST e smin tol n b) (iter : ℕ) {stp : Surf (Fl ℝ)} (hf : Fine c smin stp) (hpin : wet stp c.pin = true) :
    ∃ old qu newly, region c iter stp = .ok (old, qu, newly) ∧ Fine c smin old ∧ qu.Nodup ∧
      (∀ m, m ∈ qu ↔ Reach c.G (wet old) c.pin m) ∧ old c.pin = stp c.pin ∧
      ((¬ (c.startWet ≤ iter ∧ iter ≤ c.stopWet) ∧ old = stp ∧ newly = 0) ∨
        ((c.startWet ≤ iter ∧ iter ≤ c.stopWet) ∧ ∃ V, Wetted c e tol stp old V ∧ newly = V.length)) := by
  by_cases hw : c.startWet ≤ iter ∧ iter ≤ c.stopWet
  · obtain ⟨r, V, h1, h2, h3, h4⟩ := wetting_total W hf
    have hreg : region c iter stp = .ok (r.1, (List.range c.N).filter (fun n => isFinite (r.1 n).2.2), r.2) := by
      unfold region
      rw [if_pos hw, h1]; rfl
    obtain ⟨i1, -, i3, -, -, i6⟩ := region_spec (F := Fl ℝ) rfl W.ok hreg
    have hc := region_connected W.ok W.sym hreg
    refine ⟨_, _, _, hreg, h2, i1, fun m => ⟨fun hm => ?_, fun hm => ?_⟩, (i6 _ ⟨0, .root hpin⟩).1, Or.inr ⟨hw, V, h3, h4⟩⟩
    · obtain ⟨k, w⟩ := hc m hm
      refine ⟨k, ?_⟩
      clear hm
      induction w with
      | root hg => exact .root (i3 _ (of_decide_eq_true hg)).2
      | step _ hn hg ih => exact .step ih hn (i3 _ (of_decide_eq_true hg)).2
    · refine List.mem_filter.2 ⟨List.mem_range.2 (bfs_in_range W.ok hm), ?_⟩
      obtain ⟨k, w⟩ := hm
      exact w.good
  · obtain ⟨qu, q1, q2, q3⟩ := region_search W.ok hw stp
    exact ⟨stp, qu, 0, q1, hf, q2, q3, rfl, Or.inl ⟨hw, rfl, rfl⟩⟩

/-- What a pass does. -/
structure PassSpec (c : Cfg (Fl ℝ)) (E : List ((ℕ × ℕ) × ℝ)) (eosST : Ntp.EosST (Fl ℝ)) (e : ℝ → ℝ → ℝ → ℝ) (smin tol : ℝ) (n : ℕ)
    (b : List ℕ → ℕ → ℝ) (iter : ℕ) (stp : Surf (Fl ℝ)) (r : Iter (Fl ℝ)) : Prop where
  old : ¬ (c.startWet ≤ iter ∧ iter ≤ c.stopWet) → r.old = removeML c iter stp ∧ r.newly = 0
  wetted : (c.startWet ≤ iter ∧ iter ≤ c.stopWet) → ∃ V, Wetted c e tol (removeML c iter stp) r.old V ∧ r.newly = V.length
  region : ∀ m, m ∈ r.qu ↔ Reach c.G (wet r.old) c.pin m
  posed : Posed E eosST c.pin r
  phi : ∀ m, (m ∈ r.qu → ∃ φ : ℝ, r.phi m = fin φ) ∧ (m ∉ r.qu → r.phi m = Fl.nan)
  /-- the correction is within `b` of the solution of the Poisson equation that vanishes at the pinning cast -/
  solved : ∀ ε ψ, OmegaMat.Region E r.qu c.pin eosST (fun m => (r.old m).1) (fun m => (r.old m).2.1) (fun m => (r.old m).2.2) ε →
    OmegaMat.Balanced E r.qu ε ψ → ψ c.pin = 0 → ∀ m ∈ r.qu, ∃ φ : ℝ, r.phi m = fin φ ∧ |φ - ψ m| ≤ b r.qu m
  moved : ∀ m < c.N, Moved c.kind (c.casts m) e smin tol n (r.old m) (r.phi m) (r.new m)
  fine : Fine c smin r.new

/-- **C137** A pass on a surface of a well formed ocean returns, provided the pinning point is wet and not above the mixed layer. -/
theorem step_total (W : World c E eosST e smin tol n b) (iter : ℕ) {stp : Surf (Fl ℝ)} (hf : Fine c smin stp)
    {s0 t0 p0 : ℝ} (hpin : stp c.pin = (fin s0, fin t0, fin p0)) (hml : lt (fin p0) (c.pml c.pin) = false) :
    ∃ r, step c (fin p0) iter stp = .ok r ∧ PassSpec c E eosST e smin tol n b iter stp r ∧ r.new c.pin = (fin s0, fin t0, fin p0) := by
  have hpin' : removeML c iter stp c.pin = (fin s0, fin t0, fin p0) := removeML_pin hpin hml
  obtain ⟨old, qu, newly, q1, hfine, q2, q3, hold, hspec⟩ := region_total W iter (fine_removeML (iter := iter) hf)
    (by unfold wet; rw [hpin']; rfl)
  rw [← hold] at hpin'
  have hwet : wet old c.pin = true := by unfold wet; rw [hpin']; rfl
  have hposed := region_posed W hfine hwet q2 q3
  -- the correction
  have hphi : ∃ phi, c.solver (fun m => (old m).1) (fun m => (old m).2.1) (fun m => (old m).2.2) qu c.pin = .ok phi ∧
      phi c.pin = fin 0 ∧ ∀ m, (m ∈ qu → ∃ φ : ℝ, phi m = fin φ) ∧ (m ∉ qu → phi m = Fl.nan) := by
    rcases hposed with h | ⟨ε, hR⟩
    · rw [h]
      refine ⟨_, W.solver.single _ _ _ _, by simp, fun m => ⟨fun hm => ⟨0, ?_⟩, fun hm => ?_⟩⟩
      · rw [if_pos (List.mem_singleton.1 hm)]; simp
      · rw [if_neg (fun h => hm (List.mem_singleton.2 h))]; rfl
    · obtain ⟨φ, h1, h2, _⟩ := W.solver.posed _ _ _ _ _ _ hR
      refine ⟨_, h1, by rw [if_pos hR.ref, h2], fun m => ⟨fun hm => ⟨φ m, by rw [if_pos hm]⟩, fun hm => by rw [if_neg hm]; rfl⟩⟩
  obtain ⟨phi, f1, f2, f3⟩ := hphi
  have f4 : ∀ ε ψ, OmegaMat.Region E qu c.pin eosST (fun m => (old m).1) (fun m => (old m).2.1) (fun m => (old m).2.2) ε →
      OmegaMat.Balanced E qu ε ψ → ψ c.pin = 0 → ∀ m ∈ qu, ∃ φ : ℝ, phi m = fin φ ∧ |φ - ψ m| ≤ b qu m := by
    intro ε ψ hR hψ hψ0 m hm
    obtain ⟨φ, h1, -, h3⟩ := W.solver.posed _ _ _ _ _ _ hR
    rw [f1] at h1
    injection h1 with h1
    exact ⟨φ m, by rw [h1]; exact if_pos hm, h3 ψ hψ hψ0 m hm⟩
  have hm : ∀ m, ∃ new, m < c.N → omegaSolve1 c.fuel c.tol c.kind c.eos (phi m) (old m) (c.casts m) = .ret new ∧
      Moved c.kind (c.casts m) e smin tol n (old m) (phi m) new ∧ FinePt c.kind (c.casts m) smin new := by
    intro m
    by_cases hN : m < c.N
    · obtain ⟨new, h⟩ := moved W hN (old := old m) (phi := phi m) (by
        by_cases hq : m ∈ qu
        · right
          obtain ⟨φ, hφ⟩ := (f3 m).1 hq
          refine ⟨φ, hφ, ?_⟩
          have hw : wet old m = true := by obtain ⟨k, w⟩ := (q3 m).1 hq; exact w.good
          rcases hfine m hN with ⟨s, t, p, h, hs⟩ | h
          · exact ⟨s, t, p, h, hs⟩
          · unfold wet at hw; rw [h] at hw; cases hw
        · exact Or.inl ((f3 m).2 hq))
      exact ⟨new, fun _ => h⟩
    · exact ⟨(Fl.nan, Fl.nan, Fl.nan), fun h => absurd h hN⟩
  choose new hnew using hm
  have hv : vertsolveOmega c.fuel c.tol c.kind c.eos phi c.casts old c.N = .ret (fun m => if m < c.N then new m else old m) := by
    rw [vertsolveOmega_pointwise]
    refine ⟨fun m hm => ?_, fun m hm => ?_⟩
    · rw [if_pos hm]; exact (hnew m hm).1
    · rw [if_neg (by omega)]
  have hpn : new c.pin = (fin s0, fin t0, fin p0) := by
    have h1 := (hnew c.pin W.ok.pin).1
    rw [f2, omega_zero _ _ _ _ _ _ _ (by simp), hpin'] at h1
    injection h1 with h1
    exact h1.symm
  have e1 : ∀ m < c.N, Function.update (fun m => if m < c.N then new m else old m) c.pin
      ((if c.pin < c.N then new c.pin else old c.pin).1, (if c.pin < c.N then new c.pin else old c.pin).2.1, fin p0) m = new m := by
    intro m hm
    by_cases h : m = c.pin
    · subst h
      rw [Function.update_self, if_pos W.ok.pin, hpn]
    · rw [Function.update_of_ne h, if_pos hm]
  refine ⟨⟨old, Function.update (fun m => if m < c.N then new m else old m) c.pin
      ((if c.pin < c.N then new c.pin else old c.pin).1, (if c.pin < c.N then new c.pin else old c.pin).2.1, fin p0), qu, phi, newly⟩,
    ?_, ⟨?_, ?_, q3, hposed, f3, f4, ?_, ?_⟩, ?_⟩
  · unfold step
    rw [q1]
    show (ofMat (c.solver _ _ _ qu c.pin)).bind _ = _
    rw [f1]
    show (ofOutcome _).bind _ = _
    rw [hv]
    rfl
  · intro hw
    rcases hspec with ⟨-, h⟩ | ⟨h, -⟩
    · exact h
    · exact absurd h hw
  · intro hw
    rcases hspec with ⟨h, -⟩ | ⟨-, h⟩
    · exact absurd hw h
    · exact h
  · intro m hm
    dsimp only
    rw [e1 m hm]; exact (hnew m hm).2.1
  · intro m hm
    dsimp only
    rw [e1 m hm]; exact (hnew m hm).2.2
  · dsimp only
    rw [e1 _ W.ok.pin, hpn]

/-- **C137** Every pass of a run from a surface of a well formed ocean returns. -/
theorem loop_total (W : World c E eosST e smin tol n b) {s0 t0 p0 : ℝ} (hml : lt (fin p0) (c.pml c.pin) = false) :
    ∀ (left k : ℕ) (s : State (Fl ℝ)), k + left ≤ c.iterMax → Fine c smin s.stp → s.stp c.pin = (fin s0, fin t0, fin p0) →
      ∃ s', loop c (fin p0) left (k + 1) s = .ok s' ∧ Fine c smin s'.stp ∧ s'.stp c.pin = (fin s0, fin t0, fin p0) ∧
        (left = 0 ∧ s' = s ∨ k < s'.last) := by
  intro left
  induction left with
  | zero => intro k s _ hf hp; exact ⟨s, rfl, hf, hp, Or.inl ⟨rfl, rfl⟩⟩
  | succ left ih =>
    intro k s hk hf hp
    obtain ⟨r, h1, h2, h3⟩ := step_total W (k + 1) hf hp hml
    unfold loop
    rw [h1]
    show ∃ s', (if converged c (k + 1) r (dpRMS c s.rms r) = true then _ else _) = _ ∧ _
    split_ifs
    · exact ⟨_, rfl, h2.fine, h3, Or.inr (by show k < k + 1; omega)⟩
    · obtain ⟨s', g1, g2, g3, g4⟩ := ih (k + 1) (after c (k + 1) s r) (by omega) h2.fine h3
      refine ⟨s', g1, g2, g3, Or.inr ?_⟩
      rcases g4 with ⟨_, rfl⟩ | g4
      · show k < k + 1; omega
      · omega

/-- All passes of a run are as specified. -/
theorem run_spec (W : World c E eosST e smin tol n b) {s0 t0 p0 : ℝ} (hml : lt (fin p0) (c.pml c.pin) = false) {stp0 : Surf (Fl ℝ)}
    (hf : Fine c smin stp0) (hp : stp0 c.pin = (fin s0, fin t0, fin p0)) {k : ℕ} {stp : Surf (Fl ℝ)} (hk : k ≤ c.iterMax)
    (hb : Before c (fin p0) stp0 k stp) : Fine c smin stp ∧ stp c.pin = (fin s0, fin t0, fin p0) := by
  induction hb with
  | start => exact ⟨hf, hp⟩
  | @pass k stp r _ hr ih =>
    obtain ⟨i1, i2⟩ := ih (by omega)
    obtain ⟨r', h1, h2, h3⟩ := step_total W (k + 1) i1 i2 hml
    rw [hr] at h1
    cases h1
    exact ⟨h2.fine, h3⟩

/-- Interpolation to a pressure of a cast of the ocean: never fails; two numbers, or two NaN. -/
theorem interp_total (W : World c E eosST e smin tol n b) {m : ℕ} (hm : m < c.N) (x : Fl ℝ) :
    interpTwo c x m = some (Fl.nan, Fl.nan) ∨ ∃ s t p : ℝ, x = fin p ∧ interpTwo c x m = some (fin s, fin t) ∧ smin ≤ s ∧
      On c.kind (c.casts m) s t p := by
  have hout : outside (c.casts m).P (validRange2 (c.casts m).P (c.casts m).S).1 (validRange2 (c.casts m).P (c.casts m).S).2 x = true →
      interpTwo c x m = some (Fl.nan, Fl.nan) := by
    intro h
    unfold interpTwo
    cases c.kind <;> (simp only [ppinterp1Two]; rw [if_pos h]; rfl)
  rcases W.casts m hm with hl | ⟨A, B, k, K, a, s, t, G, hs, _, _, _⟩
  · left
    apply hout
    unfold outside
    have := hl.2
    rw [decide_eq_true (by omega)]; simp
  · have hvr := G.S.vr.1
    have htwo := G.S.two
    rw [hvr] at hout
    have hk : (c.casts m).P.get k = fin (a k) := G.S.hX k le_rfl (by omega)
    have hK : (c.casts m).P.get (K - 1) = fin (a (K - 1)) := G.S.hX (K - 1) (by omega) (by omega)
    have ho : outside (c.casts m).P k K x = (isNaN x || lt x (fin (a k)) || lt (fin (a (K - 1))) x) := by
      unfold outside
      rw [decide_eq_false (by omega), hk, hK, Bool.false_or]
    cases x with
    | nan => exact Or.inl (hout (by rw [ho]; rfl))
    | ninf => exact Or.inl (hout (by rw [ho]; rfl))
    | pinf => exact Or.inl (hout (by rw [ho]; rfl))
    | fin x =>
      by_cases hx : a k ≤ x ∧ x ≤ a (K - 1)
      · right
        obtain ⟨Sp, Tp, gS, gT, -, -, h3, -⟩ := G.curves c.kind hs
        obtain ⟨-, i1, i2, i3⟩ := h3 x hx.1 hx.2
        refine ⟨gS x, gT x, x, rfl, ?_, i3, i1, i2⟩
        have hv : validRange2 (c.casts m).P (c.casts m).S = validRange2 (c.casts m).P (c.casts m).T := by rw [hvr, G.T.vr.1]
        unfold interpTwo
        cases hkind : c.kind with
        | linear => rw [hkind] at i1 i2; exact (ppinterp1Two_eq hv _ _ _ _).2 ⟨i1, i2⟩
        | pchip => rw [hkind] at i1 i2; exact (ppinterp1Two_eq hv _ _ _ _).2 ⟨i1, i2⟩
      · left
        apply hout
        rw [ho]
        simp only [isNaN_fin, lt_fin, Bool.false_or, Bool.or_eq_true, decide_eq_true_eq]
        by_contra hh
        push Not at hh
        exact hx ⟨hh.1, hh.2⟩

/-- What is claimed of a run from `P`, with pinning pressure `p0`: it returns, every pass is as specified and the surface goes through the
pinning point. -/
def RunSpec (c : Cfg (Fl ℝ)) (E : List ((ℕ × ℕ) × ℝ)) (eosST : Ntp.EosST (Fl ℝ)) (e : ℝ → ℝ → ℝ → ℝ) (smin tol : ℝ) (n : ℕ)
    (b : List ℕ → ℕ → ℝ) (P : PInit (Fl ℝ)) (p0 : ℝ) : Prop :=
  ∃ s stp0 s0 t0, omega c P = .ok s ∧ init c P = .ok stp0 ∧ Fine c smin s.stp ∧
    On c.kind (c.casts c.pin) s0 t0 p0 ∧ s.stp c.pin = (fin s0, fin t0, fin p0) ∧
    AllPosed E eosST c (fin p0) stp0 ∧
    (∀ k stp, k < c.iterMax → Before c (fin p0) stp0 k stp → ∃ r, step c (fin p0) (k + 1) stp = .ok r ∧
      PassSpec c E eosST e smin tol n b (k + 1) stp r)

/-- The run, given its initial surface. -/
theorem omega_from (W : World c E eosST e smin tol n b) {P : PInit (Fl ℝ)} {p0 s0 t0 : ℝ} {stp0 : Surf (Fl ℝ)} (hP : pinPOf c P = fin p0)
    (hi0 : On c.kind (c.casts c.pin) s0 t0 p0) (h0 : init c P = .ok stp0) (hfine : Fine c smin stp0)
    (hpin : stp0 c.pin = (fin s0, fin t0, fin p0)) (hml : lt (fin p0) (c.pml c.pin) = false) (hd : c.diags = true → 1 ≤ c.iterMax) :
    RunSpec c E eosST e smin tol n b P p0 := by
  obtain ⟨s', g1, g2, g3, g4⟩ := loop_total W hml c.iterMax 0 ⟨stp0, lit 0, if c.diags then [diag0 c stp0] else [], 0⟩ (by omega) hfine hpin
  refine ⟨s', stp0, s0, t0, ?_, h0, g2, hi0, g3, ?_, ?_⟩
  · unfold omega
    rw [h0]
    show (loop c (pinPOf c P) c.iterMax (0 + 1) _).bind _ = _
    rw [hP, g1]
    show (if (c.diags && decide (s'.last = 0)) = true then _ else _) = _
    rw [if_neg]
    intro hh
    rw [Bool.and_eq_true, decide_eq_true_eq] at hh
    have := hd hh.1
    rcases g4 with ⟨h, _⟩ | h <;> omega
  · intro k stp r hk hb hr
    obtain ⟨i1, i2⟩ := run_spec W hml hfine hpin (by omega) hb
    obtain ⟨r', h1, h2, _⟩ := step_total W (k + 1) i1 i2 hml
    rw [hr] at h1
    cases h1
    exact h2.posed
  · intro k stp hk hb
    obtain ⟨i1, i2⟩ := run_spec W hml hfine hpin (by omega) hb
    obtain ⟨r', h1, h2, _⟩ := step_total W (k + 1) i1 i2 hml
    exact ⟨r', h1, h2⟩

/-- Interpolation to a pressure within the data of the pinning cast. -/
theorem pin_interp {p0 : ℝ} (hin : ∃ A B, Sea (c.casts c.pin) smin tol n A B ∧ A ≤ p0 ∧ p0 ≤ B) :
    ∃ s0 t0, interpTwo c (fin p0) c.pin = some (fin s0, fin t0) ∧ smin ≤ s0 ∧ On c.kind (c.casts c.pin) s0 t0 p0 := by
  obtain ⟨A, B, ⟨k, K, a, s, t, G, hs, _, rfl, rfl⟩, h1, h2⟩ := hin
  obtain ⟨Sp, Tp, gS, gT, -, -, h3, -⟩ := G.curves c.kind hs
  obtain ⟨-, i1, i2, i3⟩ := h3 p0 h1 h2
  refine ⟨gS p0, gT p0, ?_, i3, i1, i2⟩
  have hv : validRange2 (c.casts c.pin).P (c.casts c.pin).S = validRange2 (c.casts c.pin).P (c.casts c.pin).T := by rw [G.S.vr.1, G.T.vr.1]
  unfold interpTwo
  cases hkind : c.kind with
  | linear => rw [hkind] at i1 i2; exact (ppinterp1Two_eq hv _ _ _ _).2 ⟨i1, i2⟩
  | pchip => rw [hkind] at i1 i2; exact (ppinterp1Two_eq hv _ _ _ _).2 ⟨i1, i2⟩

/-- **C137** The initial surface, given or grown by wetting from a point in the data of the pinning cast. -/
theorem init_total (W : World c E eosST e smin tol n b) {P : PInit (Fl ℝ)} {p0 : ℝ} (hP : pinPOf c P = fin p0)
    (hin : ∃ A B, Sea (c.casts c.pin) smin tol n A B ∧ A ≤ p0 ∧ p0 ≤ B) :
    ∃ stp0 s0 t0, init c P = .ok stp0 ∧ Fine c smin stp0 ∧ On c.kind (c.casts c.pin) s0 t0 p0 ∧ stp0 c.pin = (fin s0, fin t0, fin p0) := by
  obtain ⟨s0, t0, hi0, hs0, hon0⟩ := pin_interp hin
  cases P with
  | array p =>
    have hp : p c.pin = fin p0 := hP
    have hI := fun m (hm : m < c.N) => interp_total W hm (p m)
    have hraw : initRaw c (.array p) = .ok fun m => if m < c.N then ((((interpTwo c (p m) m).getD (nan, nan)).1), ((interpTwo c (p m) m).getD (nan, nan)).2, p m)
          else (nan, nan, nan) := by
      unfold initRaw
      dsimp only
      rw [if_pos]
      intro m hm
      rcases hI m hm with h | ⟨_, _, _, _, h, _⟩ <;> rw [h] <;> rfl
    unfold init
    rw [hraw]
    show ∃ stp0 s0 t0, (if isNaN (if c.pin < c.N then _ else _ : Fl ℝ × Fl ℝ × Fl ℝ).1 = true then _ else _) = _ ∧ _
    rw [if_neg]
    · refine ⟨_, s0, t0, rfl, ?_, hon0, ?_⟩
      · intro m hm
        simp only [if_pos hm]
        rcases hI m hm with h | ⟨s, t, q, h1, h2, h3⟩
        · rw [h]; exact Or.inr rfl
        · rw [h2, h1]; exact Or.inl ⟨s, t, q, rfl, h3⟩
      · simp only [if_pos W.ok.pin, hp, hi0]
        rfl
    · rw [if_pos W.ok.pin, hp, hi0]; simp
  | scalar p =>
    have hp : p = fin p0 := hP
    subst hp
    obtain ⟨one, hone⟩ : ∃ x : Surf (Fl ℝ), x = Function.update (fun _ => (nan, nan, nan)) c.pin (fin s0, fin t0, fin p0) := ⟨_, rfl⟩
    have hpin1 : one c.pin = (fin s0, fin t0, fin p0) := by rw [hone, Function.update_self]
    have hfine1 : Fine c smin one := by
      intro m _
      by_cases h : m = c.pin
      · rw [h, hpin1]; exact Or.inl ⟨s0, t0, p0, rfl, hs0, hon0⟩
      · rw [hone, Function.update_of_ne h]; exact Or.inr rfl
    obtain ⟨r, V, w1, w2, w3, -⟩ := wetting_total W hfine1
    have hpin2 : r.1 c.pin = (fin s0, fin t0, fin p0) := by
      rw [w3.kept c.pin ⟨0, .root (by unfold wet; rw [hpin1]; rfl)⟩, hpin1]
    have hraw : initRaw c (.scalar (fin p0)) = .ok r.1 := by
      unfold initRaw
      dsimp only
      rw [hi0]
      show (wetting c (Function.update (fun _ => (nan, nan, nan)) c.pin (fin s0, fin t0, fin p0))).bind _ = _
      rw [← hone, w1]; rfl
    have h0 : init c (.scalar (fin p0)) = .ok (fun m => if isNaN (r.1 m).1 then ((r.1 m).1, (r.1 m).2.1, nan) else r.1 m) := by
      unfold init
      rw [hraw]
      show (if isNaN (r.1 c.pin).1 = true then _ else _) = _
      rw [if_neg (by rw [hpin2]; simp)]
    refine ⟨_, s0, t0, h0, ?_, hon0, ?_⟩
    · intro m hm
      dsimp only
      split_ifs
      · exact Or.inr rfl
      · exact w2 m hm
    · rw [hpin2]; rfl

/-- **C137** On every well formed ocean `omega_surf`, from any initial surface that meets the data of the pinning cast and is not above its
mixed layer, with any wetting, returns: no exception and no endless loop, with any number of passes (at least one if diagnostics are asked for), linear or
PCHIP interpolation, and any tolerances.  Every pass is as specified by `PassSpec`, and the surface goes through the pinning point. -/
theorem omega_total (W : World c E eosST e smin tol n b) (p : ℕ → Fl ℝ) {p0 : ℝ} (hp : p c.pin = fin p0)
    (hin : ∃ A B, Sea (c.casts c.pin) smin tol n A B ∧ A ≤ p0 ∧ p0 ≤ B) (hml : lt (fin p0) (c.pml c.pin) = false)
    (hd : c.diags = true → 1 ≤ c.iterMax) : RunSpec c E eosST e smin tol n b (.array p) p0 := by
  obtain ⟨stp0, s0, t0, h1, h2, h3, h4⟩ := init_total W (P := .array p) hp hin
  exact omega_from W hp h3 h1 h2 h4 hml hd

/-- **C137** The same when the initial surface is grown by wetting from a scalar `p_init` at the pinning cast. -/
theorem omega_total_scalar (W : World c E eosST e smin tol n b) {p0 : ℝ}
    (hin : ∃ A B, Sea (c.casts c.pin) smin tol n A B ∧ A ≤ p0 ∧ p0 ≤ B) (hml : lt (fin p0) (c.pml c.pin) = false)
    (hd : c.diags = true → 1 ≤ c.iterMax) : RunSpec c E eosST e smin tol n b (.scalar (fin p0)) p0 := by
  obtain ⟨stp0, s0, t0, h1, h2, h3, h4⟩ := init_total W (P := .scalar (fin p0)) rfl hin
  exact omega_from W rfl h3 h1 h2 h4 hml hd

/-! ## Examples -/

/-- Two sea casts and land, in a line; the grid and the edges are arguments. -/
noncomputable def exCfg (G : Csr) (solver : (ℕ → Fl ℝ) → (ℕ → Fl ℝ) → (ℕ → Fl ℝ) → List ℕ → ℕ → OmegaMat.Res (ℕ → Fl ℝ)) (pin : ℕ) : Cfg (Fl ℝ) where
  N := 3
  G := G
  casts := fun m => if m = 2 then ⟨Arr.ofList [Fl.nan, Fl.nan], Arr.ofList [Fl.nan, Fl.nan], Arr.ofList [fin 0, fin 1]⟩ else exCast
  kind := .pchip
  eos := fun s t _ => s - t
  solver := solver
  errs := fun _ => (Fl.nan, Fl.nan)
  sqrt := id
  pin := pin
  pml := fun _ => Fl.nan
  tol := fin (1 / 100)
  tolPhi := fin 0
  tolP := fin 0
  diags := true
  iterMin := 1
  iterMax := 10
  startWet := 11
  stopWet := 0
  nrep := 1
  garbage := fun _ => 0
  fuel := 600 + 13

/-- The line 0 - 1 - 2. -/
def exLine : Csr := ⟨fun m => [0, 1, 3, 4].getD m 4, fun i => [1, 2, 0, 1].getD i 0⟩

/-- The line 1 - 0 - 2. -/
def exLine' : Csr := ⟨fun m => [0, 2, 3, 4].getD m 4, fun i => [2, 1, 0, 0].getD i 0⟩

theorem exLine_sym : ∀ a b, b ∈ exLine.nbrs a → a ∈ exLine.nbrs b := by
  intro a b h
  have h3 : ∀ m, 3 ≤ m → exLine.nbrs m = [] := by
    intro m hm
    have e : ∀ k, 3 ≤ k → exLine.indptr k = 4 := by
      intro k hk
      show [0, 1, 3, 4].getD k 4 = 4
      match k, hk with
      | 3, _ => rfl
      | k + 4, _ => rfl
    unfold Csr.nbrs
    rw [e m hm, e (m + 1) (by omega)]; rfl
  by_cases ha : 3 ≤ a
  · rw [h3 a ha] at h; cases h
  · have : ∀ a < 3, ∀ b ∈ exLine.nbrs a, a ∈ exLine.nbrs b := by decide
    exact this a (by omega) b h

theorem exWorld {G : Csr} {E : List ((ℕ × ℕ) × ℝ)} {solver} {pin : ℕ} (hp : pin < 3) (hG : InRange G 3)
    (hE : ∀ a < 3, ∀ b ∈ G.nbrs a, ∃ x ∈ E, x.1 = (a, b) ∨ x.1 = (b, a)) (hw : ∀ x ∈ E, 0 < x.2)
    (hsym : ∀ a b, b ∈ G.nbrs a → a ∈ G.nbrs b) (hs : OmegaMat.Solver E (fun _ _ _ => (fin 1, fin (-1))) solver) :
    World (exCfg G solver pin) E (fun _ _ _ => (fin 1, fin (-1))) (fun s t _ => s - t) 0 (1 / 100) 600 (fun _ _ => 0) where
  ok := ⟨hG, hp, by show 3 < 613; norm_num⟩
  tolEq := rfl
  tolPos := by norm_num
  fuel := rfl
  eos := exEos
  der := fun _ _ _ _ => ⟨1, -1, rfl⟩
  casts := by
    intro m _
    show Land (if m = 2 then _ else _) ∨ ∃ A B, Sea (if m = 2 then _ else _) _ _ _ _ _
    split_ifs
    · left; constructor <;> decide
    · right
      exact ⟨_, _, 1, 4, _, _, _, exGood, fun i _ _ => by split_ifs <;> norm_num, by norm_num, rfl, rfl⟩
  edges := hE
  sym := hsym
  weights := hw
  solver := hs.within

/-- The same ocean, with wetting in passes 1 to 5, from the pressure 1 at the pinning cast. -/
example : ∃ (c : Cfg (Fl ℝ)) (E : List ((ℕ × ℕ) × ℝ)) (eosST : Ntp.EosST (Fl ℝ)),
    c.startWet = 1 ∧ c.stopWet = 5 ∧ RunSpec c E eosST (fun s t _ => s - t) 0 (1 / 100) 600 (fun _ _ => 0) (.scalar (fin 1)) 1 := by
  obtain ⟨⟨spsolve, hs⟩, -⟩ := OmegaMat.exact_solvers_exist (α := ℝ)
  have P := OmegaMat.poisson_solver [((0, 1), 4), ((1, 2), 9)] (fun _ _ _ => ((fin 1 : Fl ℝ), (fin (-1) : Fl ℝ))) hs
  have W := exWorld (G := exLine) (pin := 0) (by norm_num) (by unfold InRange; decide)
    (by
      have h : ∀ a < 3, ∀ b ∈ exLine.nbrs a, (0, 1) = (a, b) ∨ (0, 1) = (b, a) ∨ (1, 2) = (a, b) ∨ (1, 2) = (b, a) := by decide
      intro a ha b hb
      rcases h a ha b hb with h | h | h | h
      · exact ⟨((0, 1), 4), by simp, .inl h⟩
      · exact ⟨((0, 1), 4), by simp, .inr h⟩
      · exact ⟨((1, 2), 9), by simp, .inl h⟩
      · exact ⟨((1, 2), 9), by simp, .inr h⟩) (by simp) exLine_sym P
  have W' : World { exCfg exLine _ 0 with startWet := 1, stopWet := 5, nrep := 100 } _ _ _ _ _ _ _ :=
    ⟨⟨W.ok.graph, W.ok.pin, W.ok.fuel⟩, W.tolEq, W.tolPos, W.fuel, W.eos, W.der, W.casts, W.edges, W.sym, W.weights, W.solver⟩
  refine ⟨_, _, _, rfl, rfl, omega_total_scalar W'
    ⟨0, 3, ⟨1, 4, _, _, _, exGood, fun i _ _ => by split_ifs <;> norm_num, by norm_num, by norm_num, by norm_num⟩, by norm_num, by norm_num⟩
    rfl (by intro _; show 1 ≤ 10; norm_num)⟩

theorem exRenum (S S') : Renumbered (Equiv.swap 0 1) (exCfg exLine S 0) (exCfg exLine' S' 1) where
  N := rfl
  range := by
    intro n
    show Equiv.swap 0 1 n < 3 ↔ n < 3
    rw [Equiv.swap_apply_def]
    split_ifs <;> omega
  pin := rfl
  casts := by
    intro n hn
    have hn : n < 3 := hn
    interval_cases n <;> rfl
  nbrs := by
    intro a ha b
    show Equiv.swap 0 1 b ∈ exLine'.nbrs (Equiv.swap 0 1 a) ↔ b ∈ exLine.nbrs a
    have h0 : exLine.nbrs 0 = [1] := by decide
    have h1 : exLine.nbrs 1 = [2, 0] := by decide
    have h2 : exLine.nbrs 2 = [1] := by decide
    have g0 : exLine'.nbrs 0 = [2, 1] := by decide
    have g1 : exLine'.nbrs 1 = [0] := by decide
    have g2 : exLine'.nbrs 2 = [0] := by decide
    have e0 : Equiv.swap 0 1 0 = 1 := by decide
    have e1 : Equiv.swap 0 1 1 = 0 := by decide
    have e2 : Equiv.swap 0 1 2 = 2 := by decide
    have ha : a < 3 := ha
    interval_cases a
    · rw [e0, g1, h0, Equiv.swap_apply_def]; simp only [List.mem_singleton]; split_ifs <;> simp_all
    · rw [e1, g0, h1, Equiv.swap_apply_def]; simp only [List.mem_cons, List.not_mem_nil, or_false]; split_ifs <;> simp_all
    · rw [e2, g2, h2, Equiv.swap_apply_def]; simp only [List.mem_singleton]; split_ifs <;> simp_all
  pml := fun _ _ => rfl
  kind := rfl
  eos := rfl
  sqrt := rfl
  tol := rfl
  tolPhi := rfl
  tolP := rfl
  diags := rfl
  iterMin := rfl
  iterMax := rfl
  fuel := rfl
  noWet := by show 10 < 11; norm_num
  noWet' := by show 10 < 11; norm_num

/-- The surface found on the line 0 - 1 - 2 by the Poisson formulation and on the renumbered line, with edges in another order
and direction and other weights of the same squares, by the gradient formulation, is the same. -/
example : ∃ s s' : State (Fl ℝ), ∃ S S',
    omega (exCfg exLine S 0) (.array fun m => fin (m + 1)) = .ok s ∧
    omega (exCfg exLine' S' 1) (.array fun m => if m = 0 then fin 2 else if m = 1 then fin 1 else fin 3) = .ok s' ∧
    (s.stp 0).2.2 = fin 1 ∧ s'.stp 1 = s.stp 0 ∧ s'.stp 0 = s.stp 1 ∧ s'.stp 2 = s.stp 2 ∧ s'.last = s.last := by
  obtain ⟨⟨spsolve, hs⟩, ⟨lsqr, hl⟩⟩ := OmegaMat.exact_solvers_exist (α := ℝ)
  have P := OmegaMat.poisson_solver [((0, 1), 4), ((1, 2), 9)] (fun _ _ _ => ((fin 1 : Fl ℝ), (fin (-1) : Fl ℝ))) hs
  have Q := OmegaMat.gradient_solver [((0, 2), 3), ((0, 1), 2)] (fun _ _ _ => ((fin 1 : Fl ℝ), (fin (-1) : Fl ℝ))) hl
  have W := exWorld (G := exLine) (pin := 0) (by norm_num) (by unfold InRange; decide)
    (by
      have h : ∀ a < 3, ∀ b ∈ exLine.nbrs a, (0, 1) = (a, b) ∨ (0, 1) = (b, a) ∨ (1, 2) = (a, b) ∨ (1, 2) = (b, a) := by decide
      intro a ha b hb
      rcases h a ha b hb with h | h | h | h
      · exact ⟨((0, 1), 4), by simp, .inl h⟩
      · exact ⟨((0, 1), 4), by simp, .inr h⟩
      · exact ⟨((1, 2), 9), by simp, .inl h⟩
      · exact ⟨((1, 2), 9), by simp, .inr h⟩) (by simp) exLine_sym P
  obtain ⟨s, stp0, s0, t0, h1, h2, -, -, h3, h4, -⟩ := omega_total W (fun m => fin (m + 1)) (p0 := 1) (by show fin _ = fin _; norm_num [exCfg])
    ⟨0, 3, ⟨1, 4, _, _, _, exGood, fun i _ _ => by split_ifs <;> norm_num, by norm_num, by norm_num, by norm_num⟩, by norm_num, by norm_num⟩
    rfl (by intro _; show 1 ≤ 10; norm_num)
  have hE : OmegaMat.SameEdges (Equiv.swap 0 1) [((0, 1), (4 : ℝ)), ((1, 2), 9)] (OmegaMat.squared [((0, 2), 3), ((0, 1), 2)]) := by
    refine ⟨[((0, 1), 4), ((0, 2), 9)], ?_, ?_⟩
    · exact .cons (Or.inr rfl) (.cons (Or.inl rfl) .nil)
    · have : OmegaMat.squared [((0, 2), (3 : ℝ)), ((0, 1), 2)] = [((0, 2), 9), ((0, 1), 4)] := by simp [OmegaMat.squared]; norm_num
      rw [this]; exact .swap _ _ _
  have O : ∀ S, Ok (exCfg exLine' S 1) := fun S => ⟨by
    show InRange exLine' 3
    unfold InRange; decide, by show 1 < 3; norm_num, by show 3 < 613; norm_num⟩
  obtain ⟨s', g1, g2, g3⟩ := omega_relabel (exRenum _ _) W.ok (O _) hE P Q
    (p' := fun m => if m = 0 then fin 2 else if m = 1 then fin 1 else fin 3) (by
      intro n hn
      have hn : n < 3 := hn
      interval_cases n
      · show fin 1 = fin _; norm_num
      · show fin 2 = fin _; norm_num
      · show fin 3 = fin _; norm_num) h1 (by
      intro stp1 hh
      rw [h2] at hh; cases hh
      have : (fun m : ℕ => (fin (m + 1) : Fl ℝ)) 0 = fin 1 := by simp
      show AllPosed _ _ _ ((fun m : ℕ => (fin (m + 1) : Fl ℝ)) 0) _
      rw [this]; exact h4)
  refine ⟨s, s', _, _, h1, g1, ?_, g2 0 (by show 0 < 3; norm_num), g2 1 (by show 1 < 3; norm_num), g2 2 (by show 2 < 3; norm_num), g3⟩
  have : s.stp 0 = _ := h3
  rw [this]

end Omega
