import Verif.Props.OmegaLinear
import Verif.Props.OmegaCollapse
set_option linter.unusedSectionVars false

/-!
# Omega surfaces through different points of the ocean do not cross, without thermobaricity (C162)
-/

namespace Omega
open FloatLike Lib Traj Bfs VertSolve Interp
open Fl hiding nan

/-- The density without compression increases with pressure at every cast. -/
def Stratified (kind : PPKind) (S T : Nd (Fl ℝ)) (pr : List ℕ → ℕ → Fl ℝ) (v : ℕ) (f : ℝ → ℝ → ℝ) : Prop :=
  ∀ m, Valid (S.shape.eraseIdx v) m → ∀ z z' σ τ σ' τ', z < z' → On kind (castAt S T pr v m) σ τ z → On kind (castAt S T pr v m) σ' τ' z' → f σ τ < f σ' τ'

/-- **C162.** Two omega surfaces of the same ocean, pinned at any two casts, with any initial surfaces and links: if the density without compression at the second pinning
point exceeds that at the first by more than the errors of the matrix solvers, then the second surface is deeper at every cast where both exist, up to the accuracy of the vertical solver. -/
theorem omegaSurf_order_partial {o o' : Opts (Fl ℝ)} {dims : Option (List String)} {coord : String → Option (List ℚ)} {S T : Nd (Fl ℝ)} {P : PArg (Fl ℝ)}
    {v : ℕ} {pr : List ℕ → ℕ → Fl ℝ} {L L' : List Link} {pc pc' : PinCast} {m0 m0' : List ℕ} {p0 p0' : ℝ} {e : ℝ → ℝ → ℝ → ℝ} {smin tol tol' : ℝ} {n n' : ℕ}
    {b b' : List ℕ → ℕ → ℝ} {f : ℝ → ℝ → ℝ} (hk : o'.kind = o.kind) (C : Call o dims coord S T P v pr L pc m0 p0 e smin tol n b)
    (C' : Call o' dims coord S T P v pr L' pc' m0' p0' e smin tol' n' b')
    (hN : NoThermobaricity o.eosST e smin f) (hN' : NoThermobaricity o'.eosST e smin f) {β β' : ℝ} (hβ : ∀ q m, 0 ≤ b q m ∧ b q m ≤ β) (hβ' : ∀ q m, 0 ≤ b' q m ∧ b' q m ≤ β')
    (hst : Stratified o.kind S T pr v f) {init init' : PArgInit (Fl ℝ)} (hI : Starts (S.shape.eraseIdx v) m0 p0 init) (hI' : Starts (S.shape.eraseIdx v) m0' p0' init')
    (hpass : 1 ≤ o.iterMax) (hpass' : 1 ≤ o'.iterMax) :
    ∃ out st out' st' s0 t0 s0' t0', omegaSurf o dims coord S T P (gridOf L) pc init = .ok (S.shape.eraseIdx v, out, st) ∧
      omegaSurf o' dims coord S T P (gridOf L') pc' init' = .ok (S.shape.eraseIdx v, out', st') ∧
      On o.kind (castAt S T pr v m0) s0 t0 p0 ∧ On o.kind (castAt S T pr v m0') s0' t0' p0' ∧
      (f s0 t0 + β + β' < f s0' t0' → ∀ m, Valid (S.shape.eraseIdx v) m → ∀ p p', (out m).2.2 = fin p → (out' m).2.2 = fin p' →
        p < p' + acc tol p + acc tol' p') := by
  obtain ⟨out, st, s0, t0, h1, h2, -, h4⟩ := omegaSurf_isopycnal C hN hβ hI hpass
  obtain ⟨out', st', s0', t0', h1', h2', -, h4'⟩ := omegaSurf_isopycnal C' hN' hβ' hI' hpass'
  rw [hk] at h2' h4'
  refine ⟨out, st, out', st', s0, t0, s0', t0', h1, h1', h2, h2', fun hv m hm p p' hp hp' => ?_⟩
  rcases h4 m hm with h | ⟨s, t, q, z, sz, tz, k1, -, k3, k4, k5⟩ | ⟨h, -⟩
  · rw [h] at hp; cases hp
  · rw [k1] at hp
    cases hp
    rcases h4' m hm with h | ⟨s', t', q', z', sz', tz', j1, -, j3, j4, j5⟩ | ⟨h, -⟩
    · rw [h] at hp'; cases hp'
    · rw [j1] at hp'
      cases hp'
      rw [abs_le] at k4 j4 k5 j5
      have hz : z < z' := by
        by_contra hc
        rcases (not_lt.1 hc).lt_or_eq with hlt | rfl
        · have := hst m hm _ _ _ _ _ _ hlt j3 k3
          linarith [k4.2, j4.1]
        · have e1 := k3.1.symm.trans j3.1
          have e2 := k3.2.symm.trans j3.2
          simp only [Option.some.injEq, Fl.fin.injEq] at e1 e2
          rw [← e1, ← e2] at j4
          linarith [k4.2, j4.1]
      linarith [k5.1, k5.2, j5.1, j5.2]
    · rw [h] at hp'; cases hp'
  · rw [h] at hp; cases hp

/-- The same pinning cast: the surface pinned deeper is deeper everywhere, if the solver of the matrix problem is exact. -/
theorem omegaSurf_order_pin_partial {o : Opts (Fl ℝ)} {dims : Option (List String)} {coord : String → Option (List ℚ)} {S T : Nd (Fl ℝ)} {P : PArg (Fl ℝ)}
    {v : ℕ} {pr : List ℕ → ℕ → Fl ℝ} {L : List Link} {pc : PinCast} {m0 : List ℕ} {p0 p0' : ℝ} {e : ℝ → ℝ → ℝ → ℝ} {smin tol : ℝ} {n : ℕ} {f : ℝ → ℝ → ℝ} (hp0 : p0 < p0')
    (C : Call o dims coord S T P v pr L pc m0 p0 e smin tol n fun _ _ => 0) (C' : Call o dims coord S T P v pr L pc m0 p0' e smin tol n fun _ _ => 0)
    (hN : NoThermobaricity o.eosST e smin f) (hst : Stratified o.kind S T pr v f) {init init' : PArgInit (Fl ℝ)}
    (hI : Starts (S.shape.eraseIdx v) m0 p0 init) (hI' : Starts (S.shape.eraseIdx v) m0 p0' init') (hpass : 1 ≤ o.iterMax) :
    ∃ out st out' st', omegaSurf o dims coord S T P (gridOf L) pc init = .ok (S.shape.eraseIdx v, out, st) ∧
      omegaSurf o dims coord S T P (gridOf L) pc init' = .ok (S.shape.eraseIdx v, out', st') ∧
      ∀ m, Valid (S.shape.eraseIdx v) m → ∀ p p', (out m).2.2 = fin p → (out' m).2.2 = fin p' → p < p' + acc tol p + acc tol p' := by
  obtain ⟨out, st, out', st', s0, t0, s0', t0', h1, h2, h3, h4, h5⟩ := omegaSurf_order_partial (β := 0) (β' := 0) rfl C C' hN hN (fun _ _ => ⟨le_rfl, le_rfl⟩)
    (fun _ _ => ⟨le_rfl, le_rfl⟩) hst hI hI' hpass hpass
  refine ⟨out, st, out', st', h1, h2, h5 ?_⟩
  have := hst m0 C.valid _ _ _ _ _ _ hp0 h3 h4
  linarith

/-! ## Where the thermobaric effect is stronger than the stratification -/

/-- salinity `30 + p` at temperature 0, and `18 + 4 p` at temperature 4, at pressures 0, 10 -/
def crossCast {F : Type} [FloatLike F] (x : ℚ → F) (m : ℕ) : Cast F :=
  ⟨⟨2, fun i => if m = 0 then (if i = 0 then x 30 else x 40) else (if i = 0 then x 18 else x 58)⟩, ⟨2, fun _ => if m = 0 then x 0 else x 4⟩,
    ⟨2, fun i => if i = 0 then x 0 else x 10⟩⟩

/-- `omega_surf` on the two casts, density is `s + t p`, pinned at cast 0, ten passes. -/
def crossCfg {F : Type} [FloatLike F] (x : ℚ → F) (top : F) : Cfg F where
  N := 2
  G := ⟨fun m => min m 2, fun i => if i = 0 then 1 else 0⟩
  casts := crossCast x
  kind := .linear
  eos s t p := s + t * p
  solver s t p m r := OmegaMat.poisson gauss (fun _ _ p => (x 1, p)) s t p [(0, 1)] (.arr [x 1]) m r
  errs _ := (x 0, x 0)
  sqrt y := y
  pin := 0
  pml _ := top
  tol := x (1 / 10000)
  tolPhi := x 0
  tolP := x 0
  diags := false
  iterMin := 10
  iterMax := 10
  startWet := 1
  stopWet := 5
  nrep := 10
  garbage _ := 0
  fuel := 60

def crossRun {F : Type} [FloatLike F] (x : ℚ → F) (top : F) (P : PInit F) : Option (List (F × F × F)) :=
  match omega (crossCfg x top) P with
  | .ok s => some [s.stp 0, s.stp 1]
  | _ => none

/-- **C162 is violated** where thermobaricity is strong: the two casts are stably stratified at every reference pressure (salinity increases downwards at one temperature);
`omega_surf` pinned at pressures 0 and 6 of cast 0 goes, in double precision, to 2 and 1 on cast 1: the two surfaces cross. -/
theorem omega_order_false :
    crossRun (Rfl.fin : ℚ → Dbl) .ninf (.scalar (Rfl.fin 0)) = some [(Rfl.fin 30, Rfl.fin 0, Rfl.fin 0), (Rfl.fin 26, Rfl.fin 4, Rfl.fin 2)] ∧
    crossRun (Rfl.fin : ℚ → Dbl) .ninf (.scalar (Rfl.fin 6)) = some [(Rfl.fin 36, Rfl.fin 0, Rfl.fin 6), (Rfl.fin 22, Rfl.fin 4, Rfl.fin 1)] := by
  constructor <;> decide +kernel

/-! ## Example -/

/-- Linear interpolation in the example of C139, pinned at `p`. -/
theorem linear_call {f : String} {spsolve} {lsqr} {b} (hf : Formulated (apiO f spsolve lsqr) 2 b) {p : ℝ} (h0 : 0 ≤ p) (h3 : p ≤ 3) :
    Call { apiO f spsolve lsqr with kind := .linear } none (fun _ => none) apiS apiT (.small 5 exCast.P.get) 0 (fun _ k => exCast.P.get k)
      [⟨(0, 1), 1, 4⟩, ⟨(1, 2), 2, 4⟩] (.tuple [0, 1]) [0, 1] p (fun s t _ => s - t) 0 (1 / 100) 600 b := by
  have C := api_call hf
  refine ⟨C.args, C.horiz, C.pin, C.valid, C.within, C.dist, C.solver, C.tolEq, C.tolPos, C.fuel, C.enough, C.eos, C.der, C.casts, ?_, ?_, C.diags⟩
  · obtain ⟨j, h, hj⟩ := api_cast (m := [0, 1]) (by unfold Valid; simp)
    obtain rfl : j = 1 := by simpa using h.symm
    rw [hj]
    exact ⟨0, 3, ⟨1, 4, _, _, _, exGood, fun i _ _ => by split_ifs <;> norm_num, by norm_num, by norm_num, by norm_num⟩, h0, h3⟩
  · intro x h; cases h

theorem linear_stratified : Stratified .linear apiS apiT (fun _ k => exCast.P.get k) 0 (fun s t => s - t) := by
  intro m hm z z' σ τ σ' τ' hz h h'
  obtain ⟨j, -, hj⟩ := api_cast hm
  rw [hj] at h h'
  by_cases hj2 : j = 2
  · exfalso
    simp only [hj2, if_true] at h
    have h1 : linearInterp1 (fin z) exCast.P ⟨5, fun _ => Fl.nan⟩ 0 = some (fin σ) := h.1
    unfold linearInterp1 ppinterp1 at h1
    dsimp only at h1
    split_ifs at h1
    · cases h1
    · unfold linearCoeffsI sdiv at h1
      dsimp only at h1
      split_ifs at h1
      · simp at h1
      · simp only [Option.bind_eq_bind, Option.bind_some, pure, pval, if_true, List.foldl_cons, List.foldl_nil, Option.some.injEq] at h1
        exact absurd h1 (by simp)
  · simp only [hj2, if_false] at h h'
    have h : At .linear exCast z σ τ := h
    have h' : At .linear exCast z' σ' τ' := h'
    obtain ⟨a, b⟩ := On.range exGood (show On .linear exCast σ τ z from h)
    obtain ⟨a', b'⟩ := On.range exGood (show On .linear exCast σ' τ' z' from h')
    norm_num at a b a' b'
    have e1 := exLinear a b h
    have e2 := exLinear a' b' h'
    show σ - τ < σ' - τ'
    rw [e1, e2]
    split_ifs <;> linarith

/-- Pinned at 1 and at 2: the second surface is deeper everywhere. -/
example : ∃ spsolve lsqr, ∃ out st out' st',
    omegaSurf { apiO "Poisson" spsolve lsqr with kind := .linear } none (fun _ => none) apiS apiT (.small 5 exCast.P.get) (gridOf [⟨(0, 1), 1, 4⟩, ⟨(1, 2), 2, 4⟩])
      (.tuple [0, 1]) (.scalar (fin 1)) = .ok ([1, 3], out, st) ∧
    omegaSurf { apiO "Poisson" spsolve lsqr with kind := .linear } none (fun _ => none) apiS apiT (.small 5 exCast.P.get) (gridOf [⟨(0, 1), 1, 4⟩, ⟨(1, 2), 2, 4⟩])
      (.tuple [0, 1]) (.scalar (fin 2)) = .ok ([1, 3], out', st') ∧
    ∀ m, Valid [1, 3] m → ∀ p p', (out m).2.2 = fin p → (out' m).2.2 = fin p' → p < p' + acc (1 / 100) p + acc (1 / 100) p' := by
  obtain ⟨⟨spsolve, hs⟩, -⟩ := OmegaMat.exact_solvers_exist (α := ℝ)
  have hf : Formulated (apiO "Poisson" spsolve fun _ _ _ _ _ => Fl.nan) 2 fun _ _ => 0 :=
    .inl ⟨by show "Poisson".toLower = _; decide +kernel, 0, le_rfl, hs.near, by simp⟩
  exact ⟨spsolve, fun _ _ _ _ _ => Fl.nan, omegaSurf_order_pin_partial (f := fun s t => s - t) (by norm_num) (linear_call hf (by norm_num) (by norm_num))
    (linear_call hf (by norm_num) (by norm_num)) ⟨⟨fun _ => 0, fun _ _ _ _ => by ring⟩, fun s0 t0 s1 t1 p _ _ => ⟨1, -1, rfl, by ring⟩⟩ linear_stratified rfl rfl
    (by show 1 ≤ 10; norm_num)⟩

end Omega
