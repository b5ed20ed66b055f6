import Verif.Props.OmegaTotal

/-!
# A run of `omega_surf` can be continued from the surface it returned (C144)

Exact real arithmetic, as for C137.
-/

namespace Omega
open FloatLike Fzero Interp Traj VertSolve Bfs
open Fl hiding nan

/-- The options for continuing after `n` passes: `m` passes at most, and the numbers of passes that the options count from the start of the run
are counted from the start of the continuation. -/
def continued {F : Type*} (c : Cfg F) (n m : ℕ) : Cfg F :=
  { c with iterMax := m, iterMin := c.iterMin - n, startWet := c.startWet - n, stopWet := c.stopWet - n }

/-- The options with `m` passes at most. -/
def passes {F : Type*} (c : Cfg F) (m : ℕ) : Cfg F := { c with iterMax := m }

/-- The pressures of a surface, as an initial surface. -/
def pressures {F : Type*} (stp : Surf F) : PInit F := .array fun m => (stp m).2.2

/-- A surface that is dry outside the grid, all NaN where dry. -/
def Tidy (c : Cfg (Fl ℝ)) (smin : ℝ) (stp : Surf (Fl ℝ)) : Prop :=
  ∀ m, (m < c.N ∧ ∃ s t p : ℝ, stp m = (fin s, fin t, fin p) ∧ smin ≤ s ∧ On c.kind (c.casts m) s t p) ∨ stp m = (Fl.nan, Fl.nan, Fl.nan)

/-- A surface that is all NaN outside the grid. -/
def Framed (c : Cfg (Fl ℝ)) (stp : Surf (Fl ℝ)) : Prop := ∀ m, c.N ≤ m → stp m = (Fl.nan, Fl.nan, Fl.nan)

variable {c : Cfg (Fl ℝ)} {E : List ((ℕ × ℕ) × ℝ)} {eosST : Ntp.EosST (Fl ℝ)} {e : ℝ → ℝ → ℝ → ℝ} {smin tol : ℝ} {n : ℕ} {b : List ℕ → ℕ → ℝ}

theorem wetting_framed (C : Ok c) {stp : Surf (Fl ℝ)} (h : Framed c stp) {r : Surf (Fl ℝ) × ℕ} (hr : wetting c stp = .ok r) : Framed c r.1 := by
  intro m hm
  have hnan : isFinite (nan : Fl ℝ) = false := rfl
  obtain ⟨r', V, h1, S⟩ := wetPerim_spec hnan c.G c.ocean c.N c.pin stp C.graph C.pin c.garbage c.nrep c.fuel C.fuel
  unfold wetting at hr
  rw [h1] at hr
  cases hr
  show r'.stp m = _
  rw [S.cut m (fun hh => by have := bfs_in_range C hh; omega) (fun hh => by have := (S.was_dry m hh).2; omega), h m hm]
  rfl

theorem step_framed (C : Ok c) {pinP : Fl ℝ} {iter : ℕ} {stp : Surf (Fl ℝ)} (h : Framed c stp) {r : Iter (Fl ℝ)}
    (hr : step c pinP iter stp = .ok r) : Framed c r.new := by
  unfold step at hr
  obtain ⟨q, h1, hr⟩ := bind_ok hr
  obtain ⟨phi, -, hr⟩ := bind_ok hr
  obtain ⟨out, h3, hr⟩ := bind_ok hr
  cases hr
  have hml : Framed c (removeML c iter stp) := by
    intro m hm
    unfold removeML
    split_ifs
    · dsimp only
      rw [h m hm]
      split_ifs <;> rfl
    · exact h m hm
  have hq : Framed c q.1 := by
    unfold region at h1
    split_ifs at h1
    · obtain ⟨w, hw, h1⟩ := bind_ok h1
      cases h1
      exact wetting_framed C hml hw
    · obtain ⟨w, hw, h1⟩ := bind_ok h1
      cases h1
      exact hml
  intro m hm
  have hne : m ≠ c.pin := by have := C.pin; omega
  have h4 : vertsolveOmega c.fuel c.tol c.kind c.eos phi c.casts q.1 c.N = .ret out := by
    revert h3
    cases vertsolveOmega c.fuel c.tol c.kind c.eos phi c.casts q.1 c.N <;> intro h3 <;> first | (cases h3; rfl) | cases h3
  show Function.update out c.pin _ m = _
  rw [Function.update_of_ne hne, ((vertsolveOmega_pointwise _ _ _ _ _ _ _ _ _).1 h4).2 m hm, hq m hm]

theorem init_framed (C : Ok c) {P : PInit (Fl ℝ)} {stp : Surf (Fl ℝ)} (h : init c P = .ok stp) : Framed c stp := by
  unfold init at h
  obtain ⟨raw, h1, h⟩ := bind_ok h
  split_ifs at h
  cases h
  have hraw : Framed c raw := by
    cases P with
    | scalar p =>
      unfold initRaw at h1
      obtain ⟨st, -, h1⟩ := bind_ok h1
      obtain ⟨r, h2, h1⟩ := bind_ok h1
      cases h1
      refine wetting_framed C ?_ h2
      intro m hm
      rw [Function.update_of_ne (by have := C.pin; omega)]
      rfl
    | array p =>
      unfold initRaw at h1
      dsimp only at h1
      split_ifs at h1
      cases h1
      intro m hm
      dsimp only
      rw [if_neg (by omega)]
      rfl
  intro m hm
  dsimp only
  rw [hraw m hm]
  rfl

/-- The surface after a pass is tidy. -/
theorem pass_tidy (W : World c E eosST e smin tol n b) {iter : ℕ} {stp : Surf (Fl ℝ)} {r : Iter (Fl ℝ)} (hS : PassSpec c E eosST e smin tol n b iter stp r)
    (hold : Fine c smin r.old) (hfr : Framed c r.new) : Tidy c smin r.new := by
  intro m
  by_cases hm : m < c.N
  swap
  · exact Or.inr (hfr m (by omega))
  rcases hS.fine m hm with ⟨s, t, p, h⟩ | hdry
  · exact Or.inl ⟨hm, s, t, p, h⟩
  right
  rcases hS.moved m hm with ⟨h0, h1⟩ | ⟨-, h1⟩ | ⟨s0, t0, p0, φ, -, -, -, ⟨-, h1⟩ | ⟨A, B, -, gS, gT, -, ⟨h1, -⟩ | ⟨p, z, h1, -⟩⟩⟩
  · -- zero correction: the cast is in the region, so the point was wet
    have hq : m ∈ r.qu := by
      by_contra hq
      rw [(hS.phi m).2 hq] at h0
      cases h0
    obtain ⟨k, w⟩ := (hS.region m).1 hq
    have hw := w.good
    unfold wet at hw
    rw [← h1, hdry] at hw
    cases hw
  · exact h1
  · exact h1
  · exact h1
  · rw [h1] at hdry; cases hdry

theorem region_fine (W : World c E eosST e smin tol n b) {iter : ℕ} {stp : Surf (Fl ℝ)} (hf : Fine c smin stp) {s0 t0 p0 : ℝ}
    (hpin : stp c.pin = (fin s0, fin t0, fin p0)) (hml : lt (fin p0) (c.pml c.pin) = false) {r : Iter (Fl ℝ)}
    (hr : step c (fin p0) iter stp = .ok r) : Fine c smin r.old := by
  have hpin' : removeML c iter stp c.pin = (fin s0, fin t0, fin p0) := removeML_pin hpin hml
  obtain ⟨old, qu, newly, q1, hfine, -⟩ := region_total W iter (fine_removeML (iter := iter) hf) (by unfold wet; rw [hpin']; rfl)
  unfold step at hr
  obtain ⟨q, h1, hr⟩ := bind_ok hr
  obtain ⟨phi, -, hr⟩ := bind_ok hr
  obtain ⟨out, h3, hr⟩ := bind_ok hr
  cases hr
  rw [q1] at h1
  cases h1
  exact hfine

/-- Interpolating a tidy surface to its own pressures gives the surface itself. -/
theorem init_pressures (W : World c E eosST e smin tol n b) {stp : Surf (Fl ℝ)} (ht : Tidy c smin stp) {s0 t0 p0 : ℝ}
    (hpin : stp c.pin = (fin s0, fin t0, fin p0)) : init c (pressures stp) = .ok stp := by
  have hI : ∀ m < c.N, interpTwo c (stp m).2.2 m = some ((stp m).1, (stp m).2.1) := by
    intro m hm
    rcases ht m with ⟨-, s, t, p, h, hs, hon⟩ | h
    · rw [h]
      show interpTwo c (fin p) m = some (fin s, fin t)
      rcases W.casts m hm with hl | ⟨A, B, k, K, a, s', t', G, -⟩
      · exfalso
        have h1 := hon.1
        have ho : outside (c.casts m).P (validRange2 (c.casts m).P (c.casts m).S).1 (validRange2 (c.casts m).P (c.casts m).S).2 (fin p) = true := by
          unfold outside
          have := hl.2
          rw [decide_eq_true (by omega)]; simp
        unfold interpAt at h1
        revert h1
        cases c.kind <;> (simp only [linearInterp1, pchipInterp1, ppinterp1]; rw [if_pos ho]; intro h1; cases h1)
      · have hv : validRange2 (c.casts m).P (c.casts m).S = validRange2 (c.casts m).P (c.casts m).T := by rw [G.S.vr.1, G.T.vr.1]
        obtain ⟨i1, i2⟩ := hon
        unfold interpTwo
        cases hkind : c.kind with
        | linear => rw [hkind] at i1 i2; exact (ppinterp1Two_eq hv _ _ _ _).2 ⟨i1, i2⟩
        | pchip => rw [hkind] at i1 i2; exact (ppinterp1Two_eq hv _ _ _ _).2 ⟨i1, i2⟩
    · rw [h]
      rcases interp_total W hm Fl.nan with h | ⟨_, _, _, h, -⟩
      · exact h
      · cases h
  have hraw : initRaw c (pressures stp) = .ok stp := by
    unfold initRaw pressures
    dsimp only
    rw [if_pos (fun m hm => by rw [hI m hm]; rfl)]
    congr 1
    funext m
    split_ifs with hm
    · rw [hI m hm]; rfl
    · rcases ht m with ⟨h, -⟩ | h
      · exact absurd h hm
      · rw [h]; rfl
  unfold init
  rw [hraw]
  show (if isNaN (stp c.pin).1 = true then _ else _) = _
  rw [if_neg (by rw [hpin]; simp)]
  congr 1
  funext m
  rcases ht m with ⟨-, s, t, p, h, -⟩ | h
  · rw [h]; rfl
  · rw [h]; rfl

/-- Splitting the loop. -/
theorem loop_split {pinP : Fl ℝ} : ∀ (a m k : ℕ) (s s' : State (Fl ℝ)), s.last = k → loop c pinP (a + m) (k + 1) s = .ok s' → k + a < s'.last →
    ∃ s1, loop c pinP a (k + 1) s = .ok s1 ∧ loop c pinP m (k + a + 1) s1 = .ok s' ∧ s1.last = k + a := by
  intro a
  induction a with
  | zero => intro m k s s' hl h _; rw [Nat.zero_add] at h; exact ⟨s, rfl, h, hl⟩
  | succ a ih =>
    intro m k s s' hl h hlt
    rw [show a + 1 + m = (a + m) + 1 by omega] at h
    unfold loop at h
    obtain ⟨r, h1, h⟩ := bind_ok h
    have hloop : loop c pinP (a + 1) (k + 1) s = if converged c (k + 1) r (dpRMS c s.rms r) then .ok (after c (k + 1) s r)
        else loop c pinP a (k + 1 + 1) (after c (k + 1) s r) := by
      conv_lhs => unfold loop
      rw [h1]; rfl
    rw [hloop]
    split_ifs at h ⊢ with hc
    · cases h
      have : k + (a + 1) < k + 1 := hlt
      omega
    · obtain ⟨s1, i1, i2, i3⟩ := ih m (k + 1) _ s' rfl h (by omega)
      refine ⟨s1, i1, ?_, by omega⟩
      rw [show k + (a + 1) + 1 = k + 1 + a + 1 by omega]; exact i2

/-- A pass of the continuation is the corresponding pass of the run. -/
theorem step_shift {pinP : Fl ℝ} {m k : ℕ} {stp : Surf (Fl ℝ)} (h : 1 ≤ k ∨ ∀ m, lt (stp m).2.2 (c.pml m) = false) {j : ℕ} :
    step c pinP (j + k + 1) stp = step (continued c j m) pinP (k + 1) stp := by
  have hml : removeML c (j + k + 1) stp = removeML (continued c j m) (k + 1) stp := by
    unfold removeML
    rcases h with h | h
    · rw [if_pos (by omega), if_pos (by omega)]; rfl
    · have h1 : (fun n => if lt (stp n).2.2 (c.pml n) = true then ((stp n).1, (stp n).2.1, (nan : Fl ℝ)) else stp n) = stp := by
        funext n
        rw [if_neg (by rw [h n]; simp)]
      have h2 : (fun n => if lt (stp n).2.2 ((continued c j m).pml n) = true then ((stp n).1, (stp n).2.1, (nan : Fl ℝ)) else stp n) = stp := h1
      rw [h1, h2, ite_self, ite_self]
  have hreg : ∀ stp', region c (j + k + 1) stp' = region (continued c j m) (k + 1) stp' := by
    intro stp'
    unfold region
    have : (c.startWet ≤ j + k + 1 ∧ j + k + 1 ≤ c.stopWet) ↔ ((continued c j m).startWet ≤ k + 1 ∧ k + 1 ≤ (continued c j m).stopWet) := by
      dsimp only [continued]
      omega
    by_cases hw : c.startWet ≤ j + k + 1 ∧ j + k + 1 ≤ c.stopWet
    · rw [if_pos hw, if_pos (this.1 hw)]; rfl
    · rw [if_neg hw, if_neg (fun h => hw (this.2 h))]; rfl
  unfold step
  rw [hml, hreg]
  rfl

theorem loop_shift {pinP : Fl ℝ} {m j : ℕ} (ra rb : List (Diag (Fl ℝ))) : ∀ (left k : ℕ) (X : List (Diag (Fl ℝ))) (s t s' : State (Fl ℝ)),
    (1 ≤ k ∨ ∀ m, lt (s.stp m).2.2 (c.pml m) = false) → t.stp = s.stp → s.rows = ra ++ X → t.rows = rb ++ X → s.last = j + t.last →
    ((c.diags = true ∨ lt (lit 0) c.tolP = true) ∧ 1 ≤ left ∨ t.rms = s.rms) → loop c pinP left (j + k + 1) s = .ok s' →
    ∃ t', loop (continued c j m) pinP left (k + 1) t = .ok t' ∧ t'.stp = s'.stp ∧ t'.rms = s'.rms ∧ s'.last = j + t'.last ∧
      ∃ Y, s'.rows = ra ++ Y ∧ t'.rows = rb ++ Y := by
  intro left
  induction left with
  | zero =>
    intro k X s t s' _ h1 h2 h3 h4 h5 h
    cases h
    refine ⟨t, rfl, h1, ?_, h4, X, h2, h3⟩
    rcases h5 with ⟨-, h⟩ | h
    · omega
    · exact h
  | succ left ih =>
    intro k X s t s' hk h1 h2 h3 h4 h5 h
    unfold loop at h ⊢
    obtain ⟨r, hr, h⟩ := bind_ok h
    rw [step_shift (m := m) hk, ← h1] at hr
    rw [hr]
    have hrms : dpRMS (continued c j m) t.rms r = dpRMS c s.rms r := by
      show (if (c.diags || lt (lit 0) c.tolP) = true then _ else t.rms) = if (c.diags || lt (lit 0) c.tolP) = true then _ else s.rms
      split_ifs with hh
      · rfl
      · rcases h5 with ⟨h5, -⟩ | h5
        · exact absurd (by rw [Bool.or_eq_true]; exact h5) hh
        · exact h5
    have hconv : converged (continued c j m) (k + 1) r (dpRMS c s.rms r) = converged c (j + k + 1) r (dpRMS c s.rms r) := by
      unfold converged
      have : decide ((continued c j m).iterMin ≤ k + 1) = decide (c.iterMin ≤ j + k + 1) := by
        rw [decide_eq_decide]
        dsimp only [continued]
        omega
      rw [this]; rfl
    have hrow : ∀ x, diagOf (continued c j m) x r = diagOf c x r := fun _ => rfl
    have hd : (continued c j m).diags = c.diags := rfl
    show ∃ t', (if converged (continued c j m) (k + 1) r (dpRMS (continued c j m) t.rms r) = true then _ else _) = _ ∧ _
    rw [hrms, hconv]
    have hrows : ∃ Y, (after c (j + k + 1) s r).rows = ra ++ Y ∧ (after (continued c j m) (k + 1) t r).rows = rb ++ Y := by
      unfold after
      dsimp only
      rw [hrms, hrow, hd, h2, h3]
      split_ifs
      · exact ⟨X ++ [_], by rw [List.append_assoc], by rw [List.append_assoc]⟩
      · exact ⟨X, rfl, rfl⟩
    split_ifs at h ⊢
    · cases h
      refine ⟨_, rfl, rfl, hrms, ?_, hrows⟩
      show j + k + 1 = j + (k + 1)
      omega
    · obtain ⟨Y, hY1, hY2⟩ := hrows
      have h' : loop c pinP left (j + (k + 1) + 1) (after c (j + k + 1) s r) = .ok s' := h
      exact ih (k + 1) Y (after c (j + k + 1) s r) _ s' (Or.inl (by omega)) rfl hY1 hY2 (by show j + k + 1 = j + (k + 1); omega) (Or.inr hrms) h'

theorem world_passes (W : World c E eosST e smin tol n b) (m : ℕ) : World (passes c m) E eosST e smin tol n b :=
  ⟨⟨W.ok.graph, W.ok.pin, W.ok.fuel⟩, W.tolEq, W.tolPos, W.fuel, W.eos, W.der, W.casts, W.edges, W.sym, W.weights, W.solver⟩

theorem world_continued (W : World c E eosST e smin tol n b) (j m : ℕ) : World (continued c j m) E eosST e smin tol n b :=
  ⟨⟨W.ok.graph, W.ok.pin, W.ok.fuel⟩, W.tolEq, W.tolPos, W.fuel, W.eos, W.der, W.casts, W.edges, W.sym, W.weights, W.solver⟩

theorem loop_passes {pinP : Fl ℝ} {q : ℕ} : ∀ (left k : ℕ) (s : State (Fl ℝ)), loop (passes c q) pinP left k s = loop c pinP left k s := by
  intro left
  induction left with
  | zero => intro k s; rfl
  | succ left ih =>
    intro k s
    unfold loop
    have h : step (passes c q) pinP k s.stp = step c pinP k s.stp := rfl
    rw [h]
    congr 1
    funext r
    rw [ih]
    rfl

theorem loop_rms (hc : ¬ (c.diags = true ∨ lt (lit 0) c.tolP = true)) {pinP : Fl ℝ} : ∀ (left k : ℕ) (s s' : State (Fl ℝ)), s.rms = lit 0 →
    loop c pinP left k s = .ok s' → s'.rms = lit 0 := by
  have hd : ∀ x r, dpRMS c x r = x := by
    intro x r
    unfold dpRMS
    rw [if_neg (by rw [Bool.or_eq_true]; exact hc)]
  intro left
  induction left with
  | zero => intro k s s' h1 h; cases h; exact h1
  | succ left ih =>
    intro k s s' h1 h
    unfold loop at h
    obtain ⟨r, -, h⟩ := bind_ok h
    have h2 : (after c k s r).rms = lit 0 := by rw [← h1]; exact hd _ _
    split_ifs at h
    · cases h; exact h2
    · exact ih _ _ s' h2 h

theorem loop_norows {c : Cfg (Fl ℝ)} (hd : c.diags = false) {pinP : Fl ℝ} : ∀ (left k : ℕ) (s s' : State (Fl ℝ)),
    loop c pinP left k s = .ok s' → s'.rows = s.rows := by
  intro left
  induction left with
  | zero => intro k s s' h; cases h; rfl
  | succ left ih =>
    intro k s s' h
    unfold loop at h
    obtain ⟨r, -, h⟩ := bind_ok h
    have h2 : (after c k s r).rows = s.rows := by
      unfold after
      dsimp only
      rw [if_neg (by rw [hd]; simp)]
    split_ifs at h
    · cases h; exact h2
    · rw [ih _ _ s' h, h2]

/-- The state after a number of passes. -/
theorem loop_tidy (W : World c E eosST e smin tol n b) {s0 t0 p0 : ℝ} (hml : lt (fin p0) (c.pml c.pin) = false) :
    ∀ (left k : ℕ) (s s' : State (Fl ℝ)), Fine c smin s.stp → Framed c s.stp → s.stp c.pin = (fin s0, fin t0, fin p0) →
      loop c (fin p0) left (k + 1) s = .ok s' → 1 ≤ left → Tidy c smin s'.stp ∧ s'.stp c.pin = (fin s0, fin t0, fin p0) := by
  intro left
  induction left with
  | zero => intro k s s' _ _ _ _ h; omega
  | succ left ih =>
    intro k s s' hf hfr hp h _
    unfold loop at h
    obtain ⟨r, hr, h⟩ := bind_ok h
    obtain ⟨r', g1, g2, g3⟩ := step_total W (k + 1) hf hp hml
    rw [hr] at g1
    cases g1
    have hfr' := step_framed W.ok hfr hr
    have htidy := pass_tidy W g2 (region_fine W hf hp hml hr) hfr'
    split_ifs at h
    · cases h
      exact ⟨htidy, g3⟩
    · by_cases hl : 1 ≤ left
      · exact ih (k + 1) _ s' g2.fine hfr' g3 h hl
      · obtain rfl : left = 0 := by omega
        cases h
        exact ⟨htidy, g3⟩

/-- **C144** A run of `n + m` passes that makes more than `n` can be interrupted: the run of `n` passes returns a surface; if no point of that surface is
above the mixed layer, `omega_surf` from the pressures of that surface, with the pass numbers in the options counted from there and `m` passes, returns the surface of the
uninterrupted run, after the same number of passes in all, and the diagnostics of its passes are those of the uninterrupted run. -/
theorem omega_restart (W : World c E eosST e smin tol n b) {P : PInit (Fl ℝ)} {p0 : ℝ} (hP : pinPOf c P = fin p0)
    (hin : ∃ A B, Sea (c.casts c.pin) smin tol n A B ∧ A ≤ p0 ∧ p0 ≤ B) (hml : lt (fin p0) (c.pml c.pin) = false)
    {j m : ℕ} (hj : 1 ≤ j) {s : State (Fl ℝ)} (h : omega (passes c (j + m)) P = .ok s) (hlast : j < s.last) :
    ∃ s1, omega (passes c j) P = .ok s1 ∧ s1.last = j ∧
      ((∀ m < c.N, lt (s1.stp m).2.2 (c.pml m) = false) →
        ∃ s2, omega (continued c j m) (pressures s1.stp) = .ok s2 ∧ s2.stp = s.stp ∧ s.last = j + s2.last ∧ s2.rms = s.rms ∧
          s.rows = s1.rows ++ s2.rows.tail) := by
  obtain ⟨stp0, s0, t0, h0, hf0, -, hp0⟩ := init_total W hP hin
  have hfr0 := init_framed W.ok h0
  have hi : ∀ k, init (passes c k) P = .ok stp0 := fun k => h0
  unfold omega at h
  rw [hi] at h
  change (loop (passes c (j + m)) (pinPOf c P) (j + m) 1 ⟨stp0, lit 0, if c.diags then [diag0 c stp0] else [], 0⟩).bind _ = _ at h
  obtain ⟨s', hl, h⟩ := bind_ok h
  split_ifs at h with hu
  cases h
  have hl' : loop c (fin p0) (j + m) (0 + 1) ⟨stp0, lit 0, if c.diags then [diag0 c stp0] else [], 0⟩ = .ok s := by
    rw [← hP, ← loop_passes (c := c) (q := j + m)]; exact hl
  obtain ⟨s1, g1, g2, g3⟩ := loop_split j m 0 _ s rfl hl' (by omega)
  rw [Nat.zero_add] at g2 g3
  refine ⟨s1, ?_, g3, ?_⟩
  · unfold omega
    rw [hi]
    show (loop (passes c j) (pinPOf c P) j 1 ⟨stp0, lit 0, if c.diags then [diag0 c stp0] else [], 0⟩).bind _ = _
    rw [loop_passes, hP, g1]
    show (if (c.diags && decide (s1.last = 0)) = true then _ else _) = _
    rw [if_neg]
    rw [Bool.and_eq_true, decide_eq_true_eq]
    omega
  · intro hML
    obtain ⟨ht, hp1⟩ := loop_tidy W hml j 0 _ s1 hf0 hfr0 hp0 g1 hj
    have hML' : ∀ m, lt (s1.stp m).2.2 (c.pml m) = false := by
      intro q
      rcases ht q with ⟨hq, -⟩ | hq
      · exact hML q hq
      · rw [hq]; rfl
    have hm : 1 ≤ m := by
      by_contra hm
      obtain rfl : m = 0 := by omega
      cases g2
      omega
    have hinit := init_pressures (world_continued W j m) (stp := s1.stp) ht hp1
    obtain ⟨t', k1, k2, k3, k4, Y, k5, k6⟩ := loop_shift (m := m) (j := j) s1.rows (if c.diags then [diag0 c s1.stp] else []) m 0 [] s1
      ⟨s1.stp, lit 0, if c.diags then [diag0 c s1.stp] else [], 0⟩ s (Or.inr hML') rfl (by simp) (by simp) (by rw [g3]; rfl) (by
        by_cases hc : c.diags = true ∨ lt (lit 0) c.tolP = true
        · exact Or.inl ⟨hc, hm⟩
        · right
          exact (loop_rms hc j 1 _ _ rfl g1).symm) g2
    refine ⟨t', ?_, k2, k4, k3, ?_⟩
    · unfold omega
      rw [hinit]
      have hpp : pinPOf (continued c j m) (pressures s1.stp) = fin p0 := by
        show (s1.stp c.pin).2.2 = _
        rw [hp1]
      rw [hpp]
      show (loop (continued c j m) (fin p0) m (0 + 1) ⟨s1.stp, lit 0, if c.diags then [diag0 c s1.stp] else [], 0⟩).bind _ = _
      rw [k1]
      show (if (c.diags && decide (t'.last = 0)) = true then _ else _) = _
      rw [if_neg]
      rw [Bool.and_eq_true, decide_eq_true_eq]
      omega
    · rw [k5, k6]
      by_cases hd : c.diags = true
      · simp [hd]
      · have hY : Y = [] := by
          have := loop_norows (c := continued c j m) (show c.diags = false by simpa using hd) m (0 + 1) _ t' k1
          rw [k6] at this
          simpa [hd] using this
        simp [hd, hY]

/-- **C144** A run makes all its passes when the least number of passes asked for exceeds the greatest. -/
theorem omega_all_passes {c : Cfg (Fl ℝ)} {P : PInit (Fl ℝ)} {s : State (Fl ℝ)} (h : omega c P = .ok s) (hmin : c.iterMax < c.iterMin) :
    s.last = c.iterMax := by
  unfold omega at h
  obtain ⟨stp0, -, h⟩ := bind_ok h
  obtain ⟨s', h1, h⟩ := bind_ok h
  split_ifs at h
  cases h
  suffices H : ∀ (left k : ℕ) (s s' : State (Fl ℝ)), k + left = c.iterMax → s.last = k → loop c (pinPOf c P) left (k + 1) s = .ok s' →
      s'.last = c.iterMax from H _ 0 _ _ (by omega) rfl h1
  intro left
  induction left with
  | zero => intro k s s' hk hl h; cases h; omega
  | succ left ih =>
    intro k s s' hk hl h
    unfold loop at h
    obtain ⟨r, -, h⟩ := bind_ok h
    have hc : converged c (k + 1) r (dpRMS c s.rms r) = false := by
      unfold converged
      rw [decide_eq_false (by omega), Bool.and_false]
    rw [if_neg (by rw [hc]; simp)] at h
    exact ih (k + 1) _ s' (by omega) rfl h

/-! ## Examples -/

/-- Three casts in a line, the last on land; at least 11 passes are asked for. -/
noncomputable def exRun (S : (ℕ → Fl ℝ) → (ℕ → Fl ℝ) → (ℕ → Fl ℝ) → List ℕ → ℕ → OmegaMat.Res (ℕ → Fl ℝ)) : Cfg (Fl ℝ) := { exCfg exLine S 0 with iterMin := 11 }

/-- Ten passes, interrupted after four. -/
example : ∃ S, ∃ s s1 s2 : State (Fl ℝ), omega (passes (exRun S) (4 + 6)) (.array fun m => fin (m + 1)) = .ok s ∧
    omega (passes (exRun S) 4) (.array fun m => fin (m + 1)) = .ok s1 ∧
    omega (continued (exRun S) 4 6) (pressures s1.stp) = .ok s2 ∧ s2.stp = s.stp ∧ s1.last = 4 ∧ s2.last = 6 ∧ s.rows = s1.rows ++ s2.rows.tail := by
  obtain ⟨⟨spsolve, hs⟩, -⟩ := OmegaMat.exact_solvers_exist (α := ℝ)
  have P := OmegaMat.poisson_solver [((0, 1), 4), ((1, 2), 9)] (fun _ _ _ => ((fin 1 : Fl ℝ), (fin (-1) : Fl ℝ))) hs
  have W := exWorld (G := exLine) (pin := 0) (by norm_num) (by unfold InRange; decide)
    (by
      have h : ∀ a < 3, ∀ b ∈ exLine.nbrs a, (0, 1) = (a, b) ∨ (0, 1) = (b, a) ∨ (1, 2) = (a, b) ∨ (1, 2) = (b, a) := by decide
      intro a ha b hb
      rcases h a ha b hb with h | h | h | h
      · exact ⟨((0, 1), 4), by simp, .inl h⟩
      · exact ⟨((0, 1), 4), by simp, .inr h⟩
      · exact ⟨((1, 2), 9), by simp, .inl h⟩
      · exact ⟨((1, 2), 9), by simp, .inr h⟩) (by simp) exLine_sym P
  have hin : ∃ A B, Sea exCast 0 (1 / 100) 600 A B ∧ A ≤ 1 ∧ 1 ≤ B :=
    ⟨0, 3, ⟨1, 4, _, _, _, exGood, fun i _ _ => by split_ifs <;> norm_num, by norm_num, by norm_num, by norm_num⟩, by norm_num, by norm_num⟩
  have W' : World (exRun _) _ _ _ _ _ _ _ :=
    ⟨⟨W.ok.graph, W.ok.pin, W.ok.fuel⟩, W.tolEq, W.tolPos, W.fuel, W.eos, W.der, W.casts, W.edges, W.sym, W.weights, W.solver⟩
  have hp : (fun m : ℕ => (fin (m + 1) : Fl ℝ)) 0 = fin 1 := by simp
  obtain ⟨s, -, -, -, h1, -⟩ := omega_total (world_passes W' (4 + 6)) (fun m => fin (m + 1)) (p0 := 1) hp hin rfl (by intro _; show 1 ≤ 10; norm_num)
  have hl : s.last = 10 := omega_all_passes h1 (by show 10 < 11; norm_num)
  obtain ⟨s1, g1, g2, g3⟩ := omega_restart W' (P := .array fun m => fin (m + 1)) (p0 := 1) hp hin rfl (j := 4) (m := 6) (by norm_num) h1 (by omega)
  obtain ⟨s2, k1, k2, k3, -, k5⟩ := g3 (fun m _ => by show lt (s1.stp m).2.2 Fl.nan = false; cases (s1.stp m).2.2 <;> rfl)
  exact ⟨_, s, s1, s2, h1, g1, k1, k2, g2, by omega, k5⟩

/-- Two equal casts and a surface at one pressure, which is exactly neutral: every correction is zero.  At the second cast the surface is above the mixed layer. -/
def mlCfg : Cfg (Fl ℚ) where
  N := 2
  G := ⟨fun m => [0, 1, 2].getD m 2, fun i => [1, 0].getD i 0⟩
  casts := fun _ => ⟨Arr.ofList [fin 35, fin 36], Arr.ofList [fin 10, fin 9], Arr.ofList [fin 0, fin 2]⟩
  kind := .linear
  eos := fun s t _ => s - t
  solver := fun _ _ _ qu _ => .ok fun m => if m ∈ qu then fin 0 else Fl.nan
  errs := fun _ => (fin 0, fin 0)
  sqrt := id
  pin := 0
  pml := fun m => if m = 1 then fin 2 else fin 0
  tol := fin (1 / 100)
  tolPhi := fin 0
  tolP := fin 0
  diags := false
  iterMin := 1
  iterMax := 2
  startWet := 3
  stopWet := 0
  nrep := 1
  garbage := fun _ => 0
  fuel := 10

/-- The pressures at the two casts after a run. -/
def twoPressures : Res (State (Fl ℚ)) → Option (Fl ℚ × Fl ℚ)
  | .ok s => some ((s.stp 0).2.2, (s.stp 1).2.2)
  | _ => none

/-- **C144** The condition on the mixed layer is needed: the first pass of a run does not remove the part of the surface above the mixed layer, so a run of two passes
loses the second cast, and two runs of one pass keep it. -/
theorem restart_mixed_layer :
    twoPressures (omega (passes mlCfg 1) (.array fun _ => fin 1)) = some (fin 1, fin 1) ∧
    twoPressures ((omega (passes mlCfg 1) (.array fun _ => fin 1)).bind fun s1 => omega (continued mlCfg 1 1) (pressures s1.stp)) = some (fin 1, fin 1) ∧
    twoPressures (omega (passes mlCfg (1 + 1)) (.array fun _ => fin 1)) = some (fin 1, Fl.nan) := by
  decide +kernel

end Omega
