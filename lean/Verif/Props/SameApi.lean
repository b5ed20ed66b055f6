import Verif.Props.PadCast

/-! # Calls on casts that look the same; padding with levels without data (C156) -/

set_option linter.unusedSectionVars false

namespace Omega
open FloatLike Lib Bfs Same
variable {F : Type*} [FloatLike F]

/-- a run depends on the casts below `N` only -/
theorem omega_below (L : NanLaws F) {c : Cfg F} {casts1 : ℕ → Cast F} (h1 : ∀ n < c.N, casts1 n = c.casts n) (K : Ok c)
    (hsol : OmegaMat.Confined (fun n => decide (n < c.N)) c.solver c.solver) {p0 : PInit F} {s : State F} (h : omega c p0 = .ok s) :
    ∃ s', omega { c with casts := casts1 } p0 = .ok s' ∧ s'.last = s.last ∧ ∀ n < c.N, s'.stp n = s.stp n := by
  have B : SameBasin (fun n => decide (n < c.N)) c { c with casts := casts1 } :=
    ⟨decide_eq_true K.pin, fun n hn => of_decide_eq_true hn, fun n hn => of_decide_eq_true hn,
      ⟨fun _ _ => rfl, fun a ha b hb => decide_eq_true (K.graph a (of_decide_eq_true ha) b hb)⟩, fun n hn => h1 n (of_decide_eq_true hn),
      fun _ _ => rfl, hsol, rfl, rfl, rfl, rfl, rfl, rfl, rfl, rfl, rfl, rfl, rfl, rfl, rfl, rfl⟩
  have hp : SamePInit (fun n => decide (n < c.N)) { c with casts := casts1 } p0 p0 := by
    cases p0 with
    | scalar p => exact rfl
    | array p =>
      refine ⟨fun _ _ => rfl, ?_⟩
      intro n hn
      have hn : n < c.N := hn
      have : ∀ n < c.N, (interpTwo c (p n) n).isSome := by
        by_contra hc
        unfold omega init initRaw at h
        dsimp only at h
        rw [if_neg hc] at h
        cases h
      have e : interpTwo { c with casts := casts1 } (p n) n = interpTwo c (p n) n := by
        unfold interpTwo
        dsimp only
        rw [h1 n hn]
      rw [e]
      exact this n hn
  obtain ⟨s', e1, e2, e3⟩ := omega_local L B K ⟨K.graph, K.pin, K.fuel⟩ hp h
  exact ⟨s', e1, e2, fun n hn => e3 n (decide_eq_true hn)⟩

/-- as `omega_same`, for casts that look the same below `N` -/
theorem omega_same_in (L : NanLaws F) {c : Cfg F} {casts' : ℕ → Cast F} {kind' : PPKind} (H : ∀ n < c.N, SameCast c.kind (c.casts n) (casts' n) kind') (K : Ok c)
    (hsol : OmegaMat.Confined (fun n => decide (n < c.N)) c.solver c.solver) {p0 : PInit F} {s : State F} (h : omega c p0 = .ok s) :
    ∃ s', omega { c with casts := casts', kind := kind' } p0 = .ok s' ∧ s'.last = s.last ∧ ∀ n < c.N, s'.stp n = s.stp n := by
  obtain ⟨s1, e1, e2, e3⟩ := omega_below L (casts1 := fun n => if n < c.N then c.casts n else c.casts c.pin) (fun n hn => if_pos hn) K hsol h
  have H' : ∀ n, SameCast c.kind ((fun n => if n < c.N then c.casts n else c.casts c.pin) n) ((fun n => if n < c.N then casts' n else casts' c.pin) n) kind' := by
    intro n
    by_cases hn : n < c.N
    · simp only [if_pos hn]; exact H n hn
    · simp only [if_neg hn]; exact H _ K.pin
  have e4 := omega_same (c := { c with casts := fun n => if n < c.N then c.casts n else c.casts c.pin }) H' p0
  rw [e1] at e4
  obtain ⟨s2, k1, k2, k3⟩ := omega_below L (c := { c with casts := fun n => if n < c.N then casts' n else casts' c.pin, kind := kind' }) (casts1 := casts') (fun n (hn : n < c.N) => (if_pos hn).symm) ⟨K.graph, K.pin, K.fuel⟩ hsol e4
  exact ⟨s2, k1, k2.trans e2, fun n hn => (k3 n hn).trans (e3 n hn)⟩

theorem args_casts {d : Dim} {dims : Option (List String)} {S T : Nd F} {P : PArg F} {v : ℕ} {pr : List ℕ → ℕ → F} (A : Args d dims S T P v pr) :
    ∃ STP, processCasts dims S T P d = .ok STP := by
  obtain ⟨h1, h2⟩ := processCasts_spec dims S T d v A.lt A.dim (by rw [A.shape])
  have hp := A.press
  cases P with
  | full P => obtain ⟨_, _, _, e, _⟩ := h2 P (by rw [hp.1]); exact ⟨_, e⟩
  | small size P => obtain ⟨_, _, _, e, _⟩ := h1 size P hp.1; exact ⟨_, e⟩

/-- Two calls of `omega_surf` with the same options on casts that look the same. -/
theorem omegaSurf_same (L : NanLaws F) {o : Opts F} {d' : Dim} {kind' : PPKind} {dims dims' : Option (List String)} {coord : String → Option (List ℚ)} {S T S' T' : Nd F}
    {P P' : PArg F} {v v' : ℕ} {pr pr' : List ℕ → ℕ → F} (A : Args o.vertDim dims S T P v pr) (A' : Args d' dims' S' T' P' v' pr')
    (hsh : S'.shape.eraseIdx v' = S.shape.eraseIdx v) {g : GridDict F}
    (hg : ∀ e ∈ g.edges, e.1 < (S.shape.eraseIdx v).prod ∧ e.2 < (S.shape.eraseIdx v).prod) (hfuel : (S.shape.eraseIdx v).prod < o.fuel)
    (hcast : ∀ m, Valid (S.shape.eraseIdx v) m → SameCast o.kind (castAt S T pr v m) (castAt S' T' pr' v' m) kind') {pc : PinCast} {p0 : PArgInit F}
    {hs : List ℕ} {out : List ℕ → F × F × F} {st : State F} (h : omegaSurf o dims coord S T P g pc p0 = .ok (hs, out, st)) :
    ∃ out' st', omegaSurf { o with vertDim := d', kind := kind' } dims' coord S' T' P' g pc p0 = .ok (hs, out', st') ∧ st'.last = st.last ∧
      ∀ m, Valid hs m → out' m = out m := by
  unfold omegaSurf at h
  obtain ⟨pc1, e1, h⟩ := fbind_ok h
  obtain ⟨STP, e2, h⟩ := fbind_ok h
  have e2' : processCasts dims S T P o.vertDim = .ok STP := by
    revert e2
    cases processCasts dims S T P o.vertDim <;> intro e2 <;> first | (cases e2; rfl) | cases e2
  obtain ⟨a1, a2⟩ := A.casts e2'
  have hhs : STP.1.shape.dropLast = S.shape.eraseIdx v := by rw [a1, List.dropLast_concat]
  obtain ⟨w, hw⟩ : ∃ w, w = S.shape.eraseIdx v := ⟨_, rfl⟩
  rw [← hw] at hg hfuel hcast a1 a2 hhs hsh
  dsimp only at h
  rw [hhs] at h
  split_ifs at h with hne
  obtain ⟨pin, e3, h⟩ := fbind_ok h
  obtain ⟨ratio, e4, h⟩ := fbind_ok h
  obtain ⟨G, e5, h⟩ := fbind_ok h
  obtain ⟨solver, e6, h⟩ := fbind_ok h
  obtain ⟨q0, e7, h⟩ := fbind_ok h
  obtain ⟨s, e8, h⟩ := fbind_ok h
  cases h
  obtain ⟨m0, hm1, hv, rfl⟩ := ravelMultiIndex_ok.1 e3
  have e5' : Graph.edgesToCsr g.edges hs.prod o.garbage = .ok G := by
    revert e5
    cases Graph.edgesToCsr g.edges hs.prod o.garbage <;> intro e5 <;> first | (cases e5; rfl) | cases e5
  have e8' : omega (cfgOf o hs STP.1 STP.2.1 STP.2.2 G (ravel hs m0) solver) q0 = .ok st := by
    revert e8
    cases omega (cfgOf o hs STP.1 STP.2.1 STP.2.2 G (ravel hs m0) solver) q0 <;> intro e8 <;> first | (cases e8; rfl) | cases e8
  obtain ⟨g2, g3⟩ := Graph.edgesToCsr_mem _ _ _ hg G e5'
  obtain ⟨STP', f2⟩ := args_casts A'
  obtain ⟨b1, b2⟩ := A'.casts f2
  rw [hsh] at b1 b2
  have hhs' : STP'.1.shape.dropLast = hs := by rw [b1, List.dropLast_concat]
  obtain ⟨c, hc⟩ : ∃ c, c = cfgOf o hs STP.1 STP.2.1 STP.2.2 G (ravel hs m0) solver := ⟨_, rfl⟩
  have hN : c.N = hs.prod := by rw [hc]; rfl
  have hsol : OmegaMat.Confined (fun n => decide (n < c.N)) solver solver := by
    unfold solverOf at e6
    split_ifs at e6
    · cases e6; exact OmegaMat.poisson_confined _ _ (show _ = _ from rfl)
    · cases e6; exact OmegaMat.gradient_confined _ _ (show _ = _ from rfl)
  have K : Ok c := by rw [hc]; exact ⟨g3, ravel_lt hv, hfuel⟩
  have H : ∀ n < c.N, SameCast c.kind (c.casts n) (castsOf STP'.1 STP'.2.1 STP'.2.2 n) kind' := by
    intro n hn
    rw [hN] at hn
    obtain ⟨u1, u2⟩ := valid_unravel hn
    have := hcast _ u1
    rw [← a2 _ u1, ← b2 _ u1, u2] at this
    rw [hc]
    exact this
  rw [← hc] at e8'
  obtain ⟨s', k1, k2, k3⟩ := omega_same_in L H K (by rw [hc] at hsol ⊢; exact hsol) e8'
  refine ⟨reshapeGet hs s'.stp, s', ?_, k2, ?_⟩
  · unfold omegaSurf
    rw [e1]
    dsimp only
    rw [f2]
    simp only [ofLib, FRes.bind, hhs']
    rw [if_neg hne, e3]
    simp only [FRes.bind]
    rw [e4]
    simp only [FRes.bind]
    rw [e5']
    simp only [ofGraph, FRes.bind]
    have e6' : solverOf { o with vertDim := d', kind := kind' } g.edges ratio = .ok solver := e6
    rw [e6']
    simp only
    rw [e7]
    simp only
    have : cfgOf { o with vertDim := d', kind := kind' } hs STP'.1 STP'.2.1 STP'.2.2 G (ravel hs m0) solver = { c with casts := castsOf STP'.1 STP'.2.1 STP'.2.2, kind := kind' } := by
      rw [hc]; rfl
    rw [this, k1]
    rfl
  · intro m hm
    rw [reshape_ravel _ hm, reshape_ravel _ hm]
    exact k3 _ (by rw [hN]; exact ravel_lt hm)

/-- **C156.** `omega_surf` on arrays with more levels, the same horizontal shape and the vertical dimension where it may be: each cast is the former cast with
levels without data above and below, as many as may be.  If the first call returns, so does the second, with the same surface. -/
theorem omegaSurf_padding (L : NanLaws F) (Ls : NanSum F) {o : Opts F} {d' : Dim} {dims dims' : Option (List String)} {coord : String → Option (List ℚ)}
    {S T S' T' : Nd F} {P P' : PArg F} {v v' : ℕ} {pr pr' : List ℕ → ℕ → F} (A : Args o.vertDim dims S T P v pr) (A' : Args d' dims' S' T' P' v' pr')
    (hsh : S'.shape.eraseIdx v' = S.shape.eraseIdx v) {g : GridDict F}
    (hg : ∀ e ∈ g.edges, e.1 < (S.shape.eraseIdx v).prod ∧ e.2 < (S.shape.eraseIdx v).prod) (hfuel : (S.shape.eraseIdx v).prod < o.fuel)
    (hpad : ∀ m, Valid (S.shape.eraseIdx v) m → ∃ k, NanPad (castAt S T pr v m) (castAt S' T' pr' v' m) k) {pc : PinCast} {p0 : PArgInit F}
    {hs : List ℕ} {out : List ℕ → F × F × F} {st : State F} :
    (omegaSurf o dims coord S T P g pc p0 = .ok (hs, out, st) →
      ∃ out' st', omegaSurf { o with vertDim := d' } dims' coord S' T' P' g pc p0 = .ok (hs, out', st') ∧ st'.last = st.last ∧ ∀ m, Valid hs m → out' m = out m) ∧
    (omegaSurf { o with vertDim := d' } dims' coord S' T' P' g pc p0 = .ok (hs, out, st) →
      ∃ out' st', omegaSurf o dims coord S T P g pc p0 = .ok (hs, out', st') ∧ st'.last = st.last ∧ ∀ m, Valid hs m → out' m = out m) := by
  have hc : ∀ m, Valid (S.shape.eraseIdx v) m → SameCast o.kind (castAt S T pr v m) (castAt S' T' pr' v' m) :=
    fun m hm => (hpad m hm).elim fun _ h => h.same Ls
  refine ⟨fun h => omegaSurf_same L A A' hsh hg hfuel hc h, fun h => ?_⟩
  exact omegaSurf_same L (o := { o with vertDim := d' }) (d' := o.vertDim) A' A hsh.symm (by rw [hsh]; exact hg) (by rw [hsh]; exact hfuel)
    (fun m hm => (hc m (by rw [← hsh]; exact hm)).symm) h

end Omega

namespace Isopycnal
open FloatLike Lib Same
variable {F : Type*} [FloatLike F]

theorem isopycnalOdd_same {kind kind' : PPKind} {casts casts' : ℕ → Cast F} {N : ℕ} (H : ∀ n < N, SameCast kind (casts n) (casts' n) kind') (fuel : ℕ) (tol : F)
    (eos : F → F → F → F) (ty : Ans) (ref : RefArg F) (isoval : Option F) (pinP : PinP F) :
    isopycnalOdd fuel tol kind' eos ty ref isoval pinP casts' N = isopycnalOdd fuel tol kind eos ty ref isoval pinP casts N := by
  unfold isopycnalOdd
  simp only [solve_same H]

/-- Two calls of `potential_surf` or `anomaly_surf` on casts that look the same, without `pin_cast` or with one that has as many indices as there are horizontal
dimensions: the same result or the same exception. -/
theorem isoSurf_same {d d' : Dim} {dims dims' : Option (List String)} {coord : String → Option (List ℚ)} {S T S' T' : Nd F}
    {P P' : PArg F} {v v' : ℕ} {pr pr' : List ℕ → ℕ → F} (A : Args d dims S T P v pr) (A' : Args d' dims' S' T' P' v' pr')
    (hsh : S'.shape.eraseIdx v' = S.shape.eraseIdx v) (fuel : ℕ) (tol : F) (kind : PPKind) {kind' : PPKind} (eos : F → F → F → F) (ty : Ans) (diags edges : Bool)
    (hcast : ∀ m, Valid (S.shape.eraseIdx v) m → SameCast kind (castAt S T pr v m) (castAt S' T' pr' v' m) kind') (ref : RefArg F) (isoval : Option F)
    {pin : Pin} (hpin : pin = .none ∨ ∃ pc, pin = .cast pc ∧ ∀ l, processPinCast coord pc = .ok l → l.length = (S.shape.eraseIdx v).length) (pinP : PinP F) :
    isoSurf fuel tol kind' eos ty d' diags edges dims' coord S' T' P' ref isoval pin pinP =
      isoSurf fuel tol kind eos ty d diags edges dims coord S T P ref isoval pin pinP := by
  obtain ⟨STP, e⟩ := Omega.args_casts A
  obtain ⟨STP', e'⟩ := Omega.args_casts A'
  obtain ⟨a1, a2⟩ := A.casts e
  obtain ⟨b1, b2⟩ := A'.casts e'
  rw [hsh] at b1 b2
  have hh : STP.1.shape.dropLast = S.shape.eraseIdx v := by rw [a1, List.dropLast_concat]
  have hh' : STP'.1.shape.dropLast = S.shape.eraseIdx v := by rw [b1, List.dropLast_concat]
  have H : ∀ n < (S.shape.eraseIdx v).prod, SameCast kind (castsOf STP.1 STP.2.1 STP.2.2 n) (castsOf STP'.1 STP'.2.1 STP'.2.2 n) kind' := by
    intro n hn
    obtain ⟨u1, u2⟩ := valid_unravel hn
    have := hcast _ u1
    rw [← a2 _ u1, ← b2 _ u1, u2] at this
    exact this
  unfold isoSurf
  rw [e, e']
  have hsel : ∀ sel, select coord pin = .ok sel → sel (S.shape.eraseIdx v) (STP'.1.shape.getLastD 0) = sel (S.shape.eraseIdx v) (STP.1.shape.getLastD 0) := by
    intro sel hs
    rcases hpin with rfl | ⟨pc, rfl, hl⟩
    · cases hs; rfl
    · unfold select at hs
      dsimp only at hs
      cases hp : processPinCast coord pc with
      | ok l =>
        rw [hp] at hs
        cases hs
        dsimp only
        unfold selTuple
        rw [if_pos (hl l hp), if_pos (hl l hp)]
      | indexError => rw [hp] at hs; cases hs
      | valueError => rw [hp] at hs; cases hs
      | typeError => rw [hp] at hs; cases hs
  cases hs : select coord pin with
  | ok sel =>
    simp only [ofLib, Res.bind, hh, hh']
    rw [hsel sel hs]
    simp only [isopycnal_same H, isopycnalOdd_same H]
  | indexError => rfl
  | valueError => rfl
  | typeError => rfl

/-- **C156.** `potential_surf` and `anomaly_surf` return the same, or raise the same exception, when levels without data are added to the casts, above or
below. -/
theorem isoSurf_padding (Ls : NanSum F) {d d' : Dim} {dims dims' : Option (List String)} {coord : String → Option (List ℚ)} {S T S' T' : Nd F}
    {P P' : PArg F} {v v' : ℕ} {pr pr' : List ℕ → ℕ → F} (A : Args d dims S T P v pr) (A' : Args d' dims' S' T' P' v' pr')
    (hsh : S'.shape.eraseIdx v' = S.shape.eraseIdx v) (fuel : ℕ) (tol : F) (kind : PPKind) (eos : F → F → F → F) (ty : Ans) (diags edges : Bool)
    (hpad : ∀ m, Valid (S.shape.eraseIdx v) m → ∃ k, NanPad (castAt S T pr v m) (castAt S' T' pr' v' m) k) (ref : RefArg F) (isoval : Option F)
    {pin : Pin} (hpin : pin = .none ∨ ∃ pc, pin = .cast pc ∧ ∀ l, processPinCast coord pc = .ok l → l.length = (S.shape.eraseIdx v).length) (pinP : PinP F) :
    isoSurf fuel tol kind eos ty d' diags edges dims' coord S' T' P' ref isoval pin pinP =
      isoSurf fuel tol kind eos ty d diags edges dims coord S T P ref isoval pin pinP :=
  isoSurf_same A A' hsh fuel tol kind eos ty diags edges (fun m hm => (hpad m hm).elim fun _ h => h.same Ls) ref isoval hpin pinP

end Isopycnal

namespace Traj
open FloatLike Same
variable {F : Type*} [FloatLike F]

/-- **C156.** `neutral_trajectory` returns the same, or raises the same exception, when levels without data are added to its casts. -/
theorem trajectory_padding (Ls : NanSum F) {kind : PPKind} {cs cs' : List (Cast F)} (H : List.Forall₂ (fun c c' => ∃ m, NanPad c c' m) cs cs') (fuel : ℕ) (tol : F)
    (eos : F → F → F → F) (p0 : F) : neutralTrajectory fuel tol eos kind p0 cs' = neutralTrajectory fuel tol eos kind p0 cs :=
  trajectory_same (H.imp fun _ _ h => h.elim fun _ h => h.same Ls) fuel tol eos p0

/-- **C156.** The same for a neutral link from a bottle to a cast. -/
theorem ntp_padding (Ls : NanSum F) {kind : PPKind} {c c' : Cast F} {m : ℕ} (H : NanPad c c' m) (fuel : ℕ) (tol : F) (eos : F → F → F → F) (sB tB pB : F) :
    ntpBottleToCast fuel tol eos kind sB tB pB c' = ntpBottleToCast fuel tol eos kind sB tB pB c := (H.same Ls).ntp fuel tol eos sB tB pB

end Traj

/-! ## Example: the demonstration call with a level without data above and one below -/

namespace Omega
open FloatLike Lib Same

def padS : Nd (Fl ℚ) := ⟨[6, 2, 1], fun i => if i.getD 0 0 = 0 ∨ i.getD 0 0 = 5 then .nan else .fin (i.getD 0 0 - 1 + i.getD 1 0 : ℕ)⟩
def padT : Nd (Fl ℚ) := ⟨[6, 2, 1], fun i => if i.getD 0 0 = 0 ∨ i.getD 0 0 = 5 then .nan else .fin 0⟩
def padP : PArg (Fl ℚ) := .small 6 fun k => .fin (k - 1)

theorem pad_args : Args (.int 0) none padS padT padP 0 (fun _ k => .fin (k - 1)) :=
  ⟨rfl, by show 0 < 3; decide, rfl, rfl, fun _ _ => rfl⟩

theorem pad_casts (m : List ℕ) : NanPad (castAt demoS demoT (fun _ k => .fin k) 0 m) (castAt padS padT (fun _ k => .fin (k - 1)) 0 m) 1 := by
  have hi : ∀ i, i < 4 → i = 0 ∨ i = 1 ∨ i = 2 ∨ i = 3 := fun i hi => by omega
  refine ⟨rfl, rfl, rfl, rfl, by show 1 + 4 ≤ 6; decide, ?_, ?_, ?_, ?_⟩
  · intro i h
    rcases hi i h with rfl | rfl | rfl | rfl <;> simp [castAt, padS, demoS]
  · intro i h
    rcases hi i h with rfl | rfl | rfl | rfl <;> simp [castAt, padT, demoT]
  · intro i h
    simp [castAt]
  · intro j h1 h2
    have h1 : j < 6 := h1
    have h2 : j < 1 ∨ 1 + 4 ≤ j := h2
    have : j = 0 ∨ j = 5 := by omega
    left
    rcases this with rfl | rfl <;> simp [castAt, padS, padT]

example : ∃ out st, omegaSurf (demoO "poisson") none (fun _ => none) padS padT padP demoG (.tuple [0, 0]) (.array ⟨[2, 1], fun _ => .fin 2⟩) =
    .ok ([2, 1], out, st) ∧ (out [1, 0]).2.2 = .fin 1 := by
  have h := demo_front "poisson" (by simp)
  have hrun : ∀ r, omegaSurf (demoO "poisson") none (fun _ => none) demoS demoT demoP demoG (.tuple [0, 0]) (.array ⟨[2, 1], fun _ => .fin 2⟩) = r →
      ∃ out st, r = .ok ([2, 1], out, st) ∧ (out [1, 0]).2.2 = .fin 1 := by
    intro r hr
    rw [hr] at h
    match r, h with
    | .ok (a, out, st), h =>
      simp only [Option.some.injEq, Prod.mk.injEq] at h
      exact ⟨out, st, by rw [h.1], h.2.2⟩
  obtain ⟨out, st, hr, h1⟩ := hrun _ rfl
  obtain ⟨out', st', e1, -, e2⟩ := (omegaSurf_padding nanLaws_fl nanSum_fl (o := demoO "poisson") (d' := .int 0) demo_args pad_args rfl (g := demoG)
    (by show ∀ e ∈ [(0, 1)], e.1 < 2 ∧ e.2 < 2; decide) (by show 2 < 200; decide) (fun m _ => ⟨1, pad_casts m⟩)).1 hr
  exact ⟨out', st', e1, by rw [e2 _ (.cons (by decide) (.cons (by decide) .nil))]; exact h1⟩

end Omega
