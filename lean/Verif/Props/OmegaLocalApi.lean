import Verif.Props.OmegaLocal
import Verif.Props.OmegaApi

/-! # A call of `omega_surf` depends only on the casts linked with the pinning cast (C153) -/

set_option linter.unusedSectionVars false

namespace Omega
open FloatLike Lib Bfs
variable {F : Type*} [FloatLike F]

/-- Interpolation of a cast to a pressure. -/
def interpOn (kind : PPKind) (x : Cast F) (p : F) : Option (F × F) :=
  match kind with
  | .linear => Interp.ppinterp1Two Interp.linearCoeffsI p x.P x.S x.T 0
  | .pchip => Interp.ppinterp1Two Interp.pchipCoeffsI p x.P x.S x.T 0

/-- Two mixed layers with the same pressures on `B`. -/
def AgreePml (hs : List ℕ) (B : List ℕ → Bool) : Option (Nd F) → Option (Nd F) → Prop
  | none, none => True
  | some x, some x' => x.shape = hs ∧ x'.shape = hs ∧ ∀ m, Valid hs m → B m = true → x'.get m = x.get m
  | _, _ => False

/-- Two initial surfaces with the same pressures on `B`; interpolation to the second raises nowhere. -/
def SameStart (hs : List ℕ) (B : List ℕ → Bool) (kind : PPKind) (casts : List ℕ → Cast F) : PArgInit F → PArgInit F → Prop
  | .scalar p, .scalar p' => p' = p
  | .array p, .array p' => p'.shape = hs ∧ (∀ m, Valid hs m → B m = true → p'.get m = p.get m) ∧
      ∀ m, Valid hs m → (interpOn kind (casts m) (p'.get m)).isSome = true
  | _, _ => False

/-- **C153.** Two calls of `omega_surf` with the same grid and options, on arrays of the same shape that agree at the casts of `B`, a part of the grid that
contains the pinning cast and that no edge of the grid leaves.  If the first returns, so does the second, with the same surface on `B`.  Any arithmetic in which
NaN behaves like NaN, both formulations, whatever the matrix solvers do. -/
theorem omegaSurf_local (L : NanLaws F) {o : Opts F} {pml' : Option (Nd F)} {dims : Option (List String)} {coord : String → Option (List ℚ)} {S T S' T' : Nd F}
    {P P' : PArg F} {v : ℕ} {pr pr' : List ℕ → ℕ → F} (A : Args o.vertDim dims S T P v pr) (A' : Args o.vertDim dims S' T' P' v pr')
    (hsh : S'.shape = S.shape) {g : GridDict F}
    (hg : ∀ e ∈ g.edges, e.1 < (S.shape.eraseIdx v).prod ∧ e.2 < (S.shape.eraseIdx v).prod) (hfuel : (S.shape.eraseIdx v).prod < o.fuel)
    {B : List ℕ → Bool} (hB : ∀ e ∈ g.edges, B (unravel (S.shape.eraseIdx v) e.1) = B (unravel (S.shape.eraseIdx v) e.2))
    {pc : PinCast} {m0 : List ℕ} (hpc : processPinCast coord pc = .ok (m0.map fun i : ℕ => (i : ℤ))) (hm0 : B m0 = true)
    (hcast : ∀ m, Valid (S.shape.eraseIdx v) m → B m = true → castAt S' T' pr' v m = castAt S T pr v m)
    (hpml : AgreePml (S.shape.eraseIdx v) B o.pml pml') {p0 p0' : PArgInit F}
    (hp0 : SameStart (S.shape.eraseIdx v) B o.kind (fun m => castAt S' T' pr' v m) p0 p0')
    {hs : List ℕ} {out : List ℕ → F × F × F} {st : State F} (h : omegaSurf o dims coord S T P g pc p0 = .ok (hs, out, st)) :
    ∃ out' st', omegaSurf { o with pml := pml' } dims coord S' T' P' g pc p0' = .ok (hs, out', st') ∧ st'.last = st.last ∧
      ∀ m, Valid hs m → B m = true → out' m = out m := by
  unfold omegaSurf at h
  obtain ⟨pc1, e1, h⟩ := fbind_ok h
  obtain ⟨STP, e2, h⟩ := fbind_ok h
  have e2' : processCasts dims S T P o.vertDim = .ok STP := by
    revert e2
    cases processCasts dims S T P o.vertDim <;> intro e2 <;> first | (cases e2; rfl) | cases e2
  obtain ⟨a1, a2⟩ := A.casts e2'
  have hhs : STP.1.shape.dropLast = S.shape.eraseIdx v := by rw [a1, List.dropLast_concat]
  obtain ⟨w, hw⟩ : ∃ w, w = S.shape.eraseIdx v := ⟨_, rfl⟩
  rw [hpc] at e1
  cases e1
  rw [← hw] at hg hfuel hB hcast hpml hp0 a1 a2 hhs
  dsimp only at h
  rw [hhs] at h
  split_ifs at h with hne
  obtain ⟨pin, e3, h⟩ := fbind_ok h
  obtain ⟨ratio, e4, h⟩ := fbind_ok h
  obtain ⟨G, e5, h⟩ := fbind_ok h
  obtain ⟨solver, e6, h⟩ := fbind_ok h
  obtain ⟨q0, e7, h⟩ := fbind_ok h
  obtain ⟨s, e8, h⟩ := fbind_ok h
  cases h
  obtain ⟨m1, hm1, hv, rfl⟩ := ravelMultiIndex_ok.1 e3
  obtain rfl : m0 = m1 := by
    refine List.map_injective_iff.2 (fun a b hab => ?_) hm1
    exact_mod_cast hab
  have e5' : Graph.edgesToCsr g.edges hs.prod o.garbage = .ok G := by
    revert e5
    cases Graph.edgesToCsr g.edges hs.prod o.garbage <;> intro e5 <;> first | (cases e5; rfl) | cases e5
  have e8' : omega (cfgOf o hs STP.1 STP.2.1 STP.2.2 G (ravel hs m0) solver) q0 = .ok st := by
    revert e8
    cases omega (cfgOf o hs STP.1 STP.2.1 STP.2.2 G (ravel hs m0) solver) q0 <;> intro e8 <;> first | (cases e8; rfl) | cases e8
  obtain ⟨g2, g3⟩ := Graph.edgesToCsr_mem _ _ _ hg G e5'
  -- the second call
  obtain ⟨STP', f2⟩ : ∃ STP', processCasts dims S' T' P' o.vertDim = .ok STP' := by
    obtain ⟨h1, h2⟩ := processCasts_spec dims S' T' o.vertDim v A'.lt A'.dim (by rw [A'.shape])
    have hp := A'.press
    cases P' with
    | full P => obtain ⟨_, _, _, e, _⟩ := h2 P (by rw [hp.1]); exact ⟨_, e⟩
    | small size P => obtain ⟨_, _, _, e, _⟩ := h1 size P hp.1; exact ⟨_, e⟩
  obtain ⟨b1, b2⟩ := A'.casts f2
  rw [hsh, ← hw] at b1 b2
  have hhs' : STP'.1.shape.dropLast = hs := by rw [b1, List.dropLast_concat]
  obtain ⟨c, hc⟩ : ∃ c, c = cfgOf o hs STP.1 STP.2.1 STP.2.2 G (ravel hs m0) solver := ⟨_, rfl⟩
  obtain ⟨c', hc'⟩ : ∃ c', c' = cfgOf { o with pml := pml' } hs STP'.1 STP'.2.1 STP'.2.2 G (ravel hs m0) solver := ⟨_, rfl⟩
  let C : ℕ → Bool := fun n => decide (n < hs.prod) && B (unravel hs n)
  have hC : ∀ n, C n = true ↔ n < hs.prod ∧ B (unravel hs n) = true := by
    intro n; simp [C]
  have hCv : ∀ m, Valid hs m → B m = true → C (ravel hs m) = true := by
    intro m hm hb
    rw [hC, unravel_ravel hm]
    exact ⟨ravel_lt hm, hb⟩
  have hcasts : ∀ n, C n = true → castsOf STP'.1 STP'.2.1 STP'.2.2 n = castsOf STP.1 STP.2.1 STP.2.2 n := by
    intro n hn
    obtain ⟨h1, h2⟩ := (hC n).1 hn
    obtain ⟨u1, u2⟩ := valid_unravel h1
    rw [← u2, a2 _ u1, b2 _ u1, hcast _ u1 h2]
  have hsol : OmegaMat.Confined C solver solver := by
    unfold solverOf at e6
    split_ifs at e6
    · cases e6; exact OmegaMat.poisson_confined _ _ (show _ = _ from rfl)
    · cases e6; exact OmegaMat.gradient_confined _ _ (show _ = _ from rfl)
  have H : SameBasin C c c' := by
    rw [hc, hc']
    refine ⟨hCv m0 hv hm0, fun n hn => ((hC n).1 hn).1, fun n hn => ((hC n).1 hn).1, ⟨fun _ _ => rfl, ?_⟩, hcasts, ?_, hsol, rfl, rfl, rfl, rfl, rfl,
      rfl, rfl, rfl, rfl, rfl, rfl, rfl, rfl, rfl⟩
    · intro a ha b hb
      have hb' := (g2 a b).1 hb
      obtain ⟨h1, h2⟩ := (hC a).1 ha
      refine (hC b).2 ⟨g3 a h1 b hb, ?_⟩
      rcases hb' with hb' | hb'
      · rw [← hB _ hb']; exact h2
      · rw [hB _ hb']; exact h2
    · intro n hn
      obtain ⟨h1, h2⟩ := (hC n).1 hn
      obtain ⟨u1, u2⟩ := valid_unravel h1
      show (match pml' with | some x => flatten x | none => fun _ => -(lit 1 / lit 0)) n = (match o.pml with | some x => flatten x | none => fun _ => -(lit 1 / lit 0)) n
      generalize o.pml = pml at hpml
      match pml, pml', hpml with
      | none, none, _ => rfl
      | some x, some x', hp =>
        show x'.get (unravel x'.shape n) = x.get (unravel x.shape n)
        rw [hp.1, hp.2.1, hp.2.2 _ u1 h2]
  have K : Ok c := by rw [hc]; exact ⟨g3, ravel_lt hv, hfuel⟩
  have K' : Ok c' := by rw [hc']; exact ⟨g3, ravel_lt hv, hfuel⟩
  obtain ⟨q0', f7, hq⟩ : ∃ q0', checkInit hs p0' = .ok q0' ∧ SamePInit C c' q0 q0' := by
    match p0, p0', hp0 with
    | .scalar p, .scalar p', hp0 => cases e7; exact ⟨_, rfl, hp0⟩
    | .array p, .array p', hp0 =>
      obtain ⟨h1, h2, h3⟩ := hp0
      unfold checkInit at e7
      dsimp only at e7
      split_ifs at e7 with hps
      cases e7
      refine ⟨.array (flatten p'), by unfold checkInit; dsimp only; rw [if_pos h1], ?_, ?_⟩
      · intro n hn
        obtain ⟨k1, k2⟩ := (hC n).1 hn
        obtain ⟨u1, u2⟩ := valid_unravel k1
        show p'.get (unravel p'.shape n) = p.get (unravel p.shape n)
        rw [h1, hps, h2 _ u1 k2]
      · intro n hn
        rw [hc'] at hn
        obtain ⟨u1, u2⟩ := valid_unravel (show n < hs.prod from hn)
        have := h3 _ u1
        dsimp only at this
        rw [← b2 _ u1, u2] at this
        rw [hc']
        show (interpOn o.kind (castsOf STP'.1 STP'.2.1 STP'.2.2 n) (p'.get (unravel p'.shape n))).isSome = true
        rw [h1]
        exact this
  rw [← hc] at e8'
  obtain ⟨s', k1, k2, k3⟩ := omega_local L H K K' hq e8'
  refine ⟨reshapeGet hs s'.stp, s', ?_, k2, ?_⟩
  · unfold omegaSurf
    rw [hpc]
    dsimp only
    rw [f2]
    simp only [ofLib, FRes.bind, hhs']
    rw [if_neg hne, e3]
    simp only [FRes.bind]
    rw [e4]
    simp only [FRes.bind]
    rw [e5']
    simp only [ofGraph, FRes.bind]
    have e6' : solverOf { o with pml := pml' } g.edges ratio = .ok solver := e6
    rw [e6']
    simp only
    rw [f7]
    simp only
    rw [← hc', k1]
    rfl
  · intro m hm hb
    rw [reshape_ravel _ hm, reshape_ravel _ hm]
    exact k3 _ (hCv m hm hb)

/-! ## Example: two casts and, on the same grid, a lake of two casts -/

def lakeS (x : ℕ) : Nd (Fl ℚ) := ⟨[4, 2, 2], fun i => .fin (i.getD 0 0 + i.getD 1 0 + x * i.getD 2 0 : ℕ)⟩
def lakeT : Nd (Fl ℚ) := ⟨[4, 2, 2], fun _ => .fin 0⟩
def lakeG : GridDict (Fl ℚ) := ⟨[(0, 2), (1, 3)], some [.fin 1, .fin 1], some [.fin 1, .fin 1]⟩

theorem lake_args (x : ℕ) : Args (.int 0) none (lakeS x) lakeT demoP 0 (fun _ k => .fin k) :=
  ⟨rfl, by show 0 < 3; decide, rfl, rfl, fun _ _ => rfl⟩

theorem lake_run : (match omegaSurf (demoO "poisson") none (fun _ => none) (lakeS 0) lakeT demoP lakeG (.tuple [0, 0]) (.scalar (.fin 2)) with
      | .ok r => some (r.1, (r.2.1 [0, 0]).2.2, (r.2.1 [1, 0]).2.2, (r.2.1 [1, 1]).2.2) | _ => none) = some ([2, 2], .fin 2, .fin 1, Fl.nan) := by
  decide +kernel

/-- Whatever the salinity in the second column and whatever its mixed layer, the surface in the first is the same. -/
example (x : ℕ) : ∃ out st out' st', omegaSurf (demoO "poisson") none (fun _ => none) (lakeS 0) lakeT demoP lakeG (.tuple [0, 0]) (.scalar (.fin 2)) =
      .ok ([2, 2], out, st) ∧
    omegaSurf (demoO "poisson") none (fun _ => none) (lakeS x) lakeT demoP lakeG (.tuple [0, 0]) (.scalar (.fin 2)) = .ok ([2, 2], out', st') ∧
    out' [0, 0] = out [0, 0] ∧ out' [1, 0] = out [1, 0] ∧ (out' [1, 0]).2.2 = .fin 1 := by
  have h := lake_run
  have hrun : ∀ r, omegaSurf (demoO "poisson") none (fun _ => none) (lakeS 0) lakeT demoP lakeG (.tuple [0, 0]) (.scalar (.fin 2)) = r →
      ∃ out st, r = .ok ([2, 2], out, st) ∧ (out [1, 0]).2.2 = .fin 1 := by
    intro r hr
    rw [hr] at h
    match r, h with
    | .ok (a, out, st), h =>
      simp only [Option.some.injEq, Prod.mk.injEq] at h
      exact ⟨out, st, by rw [h.1], h.2.2.1⟩
  obtain ⟨out, st, hr, h1⟩ := hrun _ rfl
  have hv : ∀ i < 2, ∀ j < 2, Valid [2, 2] [i, j] := fun i hi j hj => .cons hi (.cons hj .nil)
  obtain ⟨out', st', e1, -, e2⟩ := omegaSurf_local nanLaws_fl (o := demoO "poisson") (pml' := none) (lake_args 0) (lake_args x) rfl (g := lakeG)
    (by show ∀ e ∈ [(0, 2), (1, 3)], e.1 < 4 ∧ e.2 < 4; decide) (by show 4 < 200; decide) (B := fun m => decide (m.getD 1 0 = 0))
    (by show ∀ e ∈ [(0, 2), (1, 3)], decide ((unravel [2, 2] e.1).getD 1 0 = 0) = decide ((unravel [2, 2] e.2).getD 1 0 = 0); decide)
    (pc := .tuple [0, 0]) (m0 := [0, 0]) rfl rfl
    (by
      intro m hm hB
      have hB : m.getD 1 0 = 0 := of_decide_eq_true hB
      unfold castAt lakeS
      dsimp only
      cases hm with
      | cons hi hm =>
        cases hm with
        | cons hj hm =>
          cases hm
          simp only [List.getD_cons_succ, List.getD_cons_zero] at hB
          subst hB
          simp)
    trivial (p0 := .scalar (.fin 2)) (p0' := .scalar (.fin 2)) rfl hr
  exact ⟨out, st, out', st', hr, e1, e2 _ (hv 0 (by omega) 0 (by omega)) rfl, e2 _ (hv 1 (by omega) 0 (by omega)) rfl,
    by rw [e2 _ (hv 1 (by omega) 0 (by omega)) rfl]; exact h1⟩

end Omega
