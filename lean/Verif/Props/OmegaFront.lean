import Verif.Model.OmegaFront
import Verif.Props.Omega
import Verif.Props.Graph
import Verif.Props.Flatten

/-! # Omega surfaces from arrays with several horizontal dimensions (C104, C105) -/

namespace Omega
open FloatLike Lib Traj Bfs
open Fl hiding nan

set_option linter.unusedSectionVars false

variable {F : Type*} [FloatLike F]

theorem fbind_ok {A B : Type*} {x : FRes A} {k : A → FRes B} {b : B} (h : x.bind k = .ok b) : ∃ a, x = .ok a ∧ k a = .ok b := by
  cases x <;> first | exact ⟨_, rfl, h⟩ | cases h

theorem ofLib_ok {A : Type*} {x : Lib.Res A} {a : A} (h : ofLib x = .ok a) : x = .ok a := by
  cases x <;> first | (cases h; rfl) | cases h

theorem ofGraph_ok {A : Type*} {x : Graph.Res A} {a : A} (h : ofGraph x = .ok a) : x = .ok a := by
  cases x <;> first | (cases h; rfl) | cases h

theorem ofIter_ok {A : Type*} {x : Omega.Res A} {a : A} (h : ofIter x = .ok a) : x = .ok a := by
  cases x <;> first | (cases h; rfl) | cases h

/-- `np.ravel_multi_index` accepts exactly the indices that are valid and not negative. -/
theorem ravelMultiIndex_ok {s : List ℕ} {l : List ℤ} {r : ℕ} :
    ravelMultiIndex s l = .ok r ↔ ∃ m : List ℕ, l = m.map (fun i : ℕ => (i : ℤ)) ∧ Valid s m ∧ r = ravel s m := by
  induction s generalizing l r with
  | nil =>
    cases l with
    | nil =>
      simp only [ravelMultiIndex, FRes.ok.injEq]
      constructor
      · rintro rfl; exact ⟨[], rfl, List.Forall₂.nil, rfl⟩
      · rintro ⟨m, h1, h2, h3⟩
        have : m = [] := by simpa using h1.symm
        subst this; rw [h3]; rfl
    | cons i l =>
      simp only [ravelMultiIndex]
      constructor
      · intro h; cases h
      · rintro ⟨m, h1, h2, h3⟩
        have := Valid.length h2
        rw [eq_comm, List.length_nil] at this
        rw [List.eq_nil_of_length_eq_zero this] at h1
        cases h1
  | cons n s ih =>
    cases l with
    | nil =>
      simp only [ravelMultiIndex]
      constructor
      · intro h; cases h
      · rintro ⟨m, h1, h2, h3⟩
        have : m = [] := by simpa using h1.symm
        subst this; cases h2
    | cons i l =>
      simp only [ravelMultiIndex]
      constructor
      · intro h
        split_ifs at h with hi
        obtain ⟨r', h1, h2⟩ := fbind_ok h
        cases h2
        obtain ⟨m, rfl, hm, rfl⟩ := ih.1 h1
        refine ⟨i.toNat :: m, ?_, List.Forall₂.cons (by omega) hm, rfl⟩
        simp only [List.map_cons, List.cons.injEq, and_true]
        omega
      · rintro ⟨m, h1, h2, rfl⟩
        cases m with
        | nil => cases h2
        | cons j m =>
          cases h2 with
          | cons hj hm =>
            simp only [List.map_cons, List.cons.injEq] at h1
            obtain ⟨rfl, rfl⟩ := h1
            rw [if_pos ⟨by omega, by omega⟩, ih.2 ⟨m, rfl, hm, rfl⟩]
            rfl

/-- It raises `ValueError` on all others. -/
theorem ravelMultiIndex_error {s : List ℕ} {l : List ℤ} (h : ¬ ∃ m : List ℕ, l = m.map (fun i : ℕ => (i : ℤ)) ∧ Valid s m) :
    ravelMultiIndex s l = .valueError := by
  have key : ∀ (s : List ℕ) (l : List ℤ), (∃ r, ravelMultiIndex s l = .ok r) ∨ ravelMultiIndex s l = .valueError := by
    intro s
    induction s with
    | nil => intro l; cases l with
      | nil => exact .inl ⟨0, rfl⟩
      | cons i l => exact .inr rfl
    | cons n s ih =>
      intro l
      cases l with
      | nil => exact .inr rfl
      | cons i l =>
        rw [ravelMultiIndex]
        split_ifs
        · rcases ih l with ⟨r, hr⟩ | hr
          · exact .inl ⟨_, by rw [hr]; rfl⟩
          · exact .inr (by rw [hr]; rfl)
        · exact .inr rfl
  rcases key s l with ⟨r, hr⟩ | hr
  · obtain ⟨m, h1, h2, _⟩ := ravelMultiIndex_ok.1 hr
    exact absurd ⟨m, h1, h2⟩ h
  · exact hr

/-- Specification: the initial pressure at the horizontal indices `m`. -/
def initAt : PArgInit F → List ℕ → Option F
  | .scalar p, _ => some p
  | .array p, m => some (p.get m)
  | .other, _ => none

/-- Specification: the iteration runs with the options of the call; `p_ml` is read in C order, and is below everything if left out;
the tolerance of `ϕ` is divided by 10⁶ if the equation of state gives specific volume. -/
structure Follows (c : Cfg F) (o : Opts F) (hs : List ℕ) : Prop where
  eos : c.eos = o.eos
  iterMin : c.iterMin = o.iterMin
  iterMax : c.iterMax = o.iterMax
  startWet : c.startWet = o.startWet
  stopWet : c.stopWet = o.stopWet
  nrep : c.nrep = o.nrep
  diags : c.diags = o.diags
  tol : c.tol = o.tol
  tolP : c.tolP = o.tolP
  tolPhi : c.tolPhi = if lt (o.eos (lit (345/10)) (lit 3) (lit 1000)) (lit 1) then o.tolPhi / lit 1000000 else o.tolPhi
  sqrt : c.sqrt = o.sqrt
  errs : c.errs = o.errs
  pml : ∀ x, o.pml = some x → x.shape = hs → ∀ m, Valid hs m → c.pml (ravel hs m) = x.get m
  noml : o.pml = none → ∀ n, c.pml n = -(lit 1 / lit 0)

theorem cfgOf_follows (o : Opts F) (hs : List ℕ) (S T P : Nd F) (G : Csr) (pin : ℕ)
    (solver : (ℕ → F) → (ℕ → F) → (ℕ → F) → List ℕ → ℕ → OmegaMat.Res (ℕ → F)) : Follows (cfgOf o hs S T P G pin solver) o hs := by
  refine ⟨rfl, rfl, rfl, rfl, rfl, rfl, rfl, rfl, rfl, rfl, rfl, rfl, ?_, ?_⟩
  · intro x hx hsx m hm
    simp only [cfgOf, hx, flatten, hsx, unravel_ravel hm]
  · intro hx n
    simp only [cfgOf, hx]

/-- **C104.** A call of `omega_surf` on arrays that returns: it ran the iteration on the casts numbered in C order, with `n` next
to `m` iff the grid has an edge between them; the surface returned has the shape of `S` without the vertical dimension, and its
entry at horizontal indices `m` is that of the cast of `S`, `T`, `P` at `m`. -/
theorem omegaSurf_spec {o : Opts F} {dims : Option (List String)} {coord : String → Option (List ℚ)} {S T : Nd F} {P : PArg F}
    {v : ℕ} {pr : List ℕ → ℕ → F} (A : Args o.vertDim dims S T P v pr) {g : GridDict F}
    (hg : ∀ e ∈ g.edges, e.1 < (S.shape.eraseIdx v).prod ∧ e.2 < (S.shape.eraseIdx v).prod) {pc : PinCast} {p0 : PArgInit F}
    {hs : List ℕ} {out : List ℕ → F × F × F} {st : State F} (h : omegaSurf o dims coord S T P g pc p0 = .ok (hs, out, st)) :
    hs = S.shape.eraseIdx v ∧
    ∃ (m0 : List ℕ) (c : Cfg F) (p0' : PInit F),
      processPinCast coord pc = .ok (m0.map fun i : ℕ => (i : ℤ)) ∧ Valid hs m0 ∧ c.pin = ravel hs m0 ∧ c.N = hs.prod ∧
      omega c p0' = .ok st ∧ initAt p0 m0 = some (pinPOf c p0') ∧
      InRange c.G c.N ∧ (∀ a b, b ∈ c.G.nbrs a ↔ (a, b) ∈ g.edges ∨ (b, a) ∈ g.edges) ∧
      (∀ m, Valid hs m → c.casts (ravel hs m) = castAt S T pr v m ∧ out m = st.stp (ravel hs m)) ∧
      (∀ p, p0 = .array p → p.shape = hs ∧ ∃ q, p0' = .array q ∧ ∀ m, Valid hs m → q (ravel hs m) = p.get m) ∧
      c.fuel = o.fuel ∧ c.kind = o.kind ∧ Follows c o hs ∧
      ∃ q d, g.distperp = some q ∧ g.dist = some d ∧
        ((o.formulation.toLower = "poisson" ∧ c.solver = fun s t p m r =>
            OmegaMat.poisson o.spsolve o.eosST s t p g.edges (.arr (List.zipWith (fun x y => x / y) q d)) m r) ∨
         (o.formulation.toLower = "gradient" ∧ c.solver = fun s t p m r =>
            OmegaMat.gradient o.lsqr o.eosST s t p g.edges (.arr ((List.zipWith (fun x y => x / y) q d).map o.sqrt)) m r)) := by
  unfold omegaSurf at h
  obtain ⟨pc', e1, h⟩ := fbind_ok h
  obtain ⟨STP, e2, h⟩ := fbind_ok h
  dsimp only at h
  split_ifs at h with hne
  obtain ⟨pin, e3, h⟩ := fbind_ok h
  obtain ⟨ratio, e4, h⟩ := fbind_ok h
  obtain ⟨G, e5, h⟩ := fbind_ok h
  obtain ⟨solver, e6, h⟩ := fbind_ok h
  obtain ⟨p0', e7, h⟩ := fbind_ok h
  obtain ⟨s, e8, h⟩ := fbind_ok h
  cases h
  obtain ⟨a1, a2⟩ := A.casts (ofLib_ok e2)
  have hhs : STP.1.shape.dropLast = S.shape.eraseIdx v := by rw [a1, List.dropLast_concat]
  rw [hhs] at e3 e5 e7 e8 ⊢
  refine ⟨rfl, ?_⟩
  obtain ⟨m0, rfl, hm0, rfl⟩ := ravelMultiIndex_ok.1 e3
  obtain ⟨b1, b2⟩ := Graph.edgesToCsr_mem g.edges _ o.garbage hg G (ofGraph_ok e5)
  have e8' := ofIter_ok e8
  refine ⟨m0, _, p0', ofLib_ok e1, hm0, rfl, rfl, e8', ?_, b2, b1, ?_, ?_, rfl, rfl, cfgOf_follows _ _ _ _ _ _ _ _, ?_⟩
  · cases p0 with
    | scalar p => cases e7; rfl
    | array p =>
      rw [checkInit] at e7
      split_ifs at e7 with hp
      cases e7
      simp only [initAt, pinPOf, cfgOf, flatten, hp, unravel_ravel hm0]
    | other => cases e7
  · intro m hm
    refine ⟨a2 m hm, ?_⟩
    rw [reshapeGet, foldl_ravel hm, Nat.zero_mul, Nat.zero_add]
  · rintro p rfl
    rw [checkInit] at e7
    split_ifs at e7 with hp
    cases e7
    refine ⟨hp, _, rfl, ?_⟩
    intro m hm
    rw [flatten, hp, unravel_ravel hm]
  · unfold distRatio at e4
    split at e4
    · rename_i q d hq hd
      cases e4
      refine ⟨q, d, hq, hd, ?_⟩
      unfold solverOf at e6
      split_ifs at e6 with f1 f2
      · cases e6; exact .inl ⟨f1, rfl⟩
      · cases e6; exact .inr ⟨f2, rfl⟩
    · cases e4

/-- **C104.** The surface returned for arrays goes through the pinning point: at the cast given by `pin_cast` its pressure is the
scalar `p_init`, or the entry of the array `p_init` there, and its salinity and temperature are those of that cast of `S` and `T`
interpolated to that pressure.  With the Poisson formulation; for any rounding and whatever the sparse solver returns. -/
theorem omegaSurf_pinned (hnan : isFinite (nan : F) = false) (h0 : feq (lit 0 : F) (lit 0) = true)
    {o : Opts F} (ho : o.formulation.toLower = "poisson") {dims : Option (List String)} {coord : String → Option (List ℚ)}
    {S T : Nd F} {P : PArg F} {v : ℕ} {pr : List ℕ → ℕ → F} (A : Args o.vertDim dims S T P v pr) {g : GridDict F}
    (hg : ∀ e ∈ g.edges, e.1 < (S.shape.eraseIdx v).prod ∧ e.2 < (S.shape.eraseIdx v).prod)
    (hf : (S.shape.eraseIdx v).prod < o.fuel) {pc : PinCast} {p0 : PArgInit F}
    {hs : List ℕ} {out : List ℕ → F × F × F} {st : State F} (h : omegaSurf o dims coord S T P g pc p0 = .ok (hs, out, st)) :
    ∃ (m0 : List ℕ) (pp s0 t0 : F), processPinCast coord pc = .ok (m0.map fun i : ℕ => (i : ℤ)) ∧ Valid hs m0 ∧
      initAt p0 m0 = some pp ∧
      (isFinite pp = true →
        (match o.kind with
          | .linear => Interp.ppinterp1Two Interp.linearCoeffsI pp (castAt S T pr v m0).P (castAt S T pr v m0).S (castAt S T pr v m0).T 0
          | .pchip => Interp.ppinterp1Two Interp.pchipCoeffsI pp (castAt S T pr v m0).P (castAt S T pr v m0).S (castAt S T pr v m0).T 0)
            = some (s0, t0) ∧
        isNaN s0 = false ∧ out m0 = (s0, t0, pp)) := by
  obtain ⟨rfl, m0, c, p0', h1, hm0, h3, h4, h5, h6, h7, _, h8, _, h9, h10, _, q, d, _, _, h11⟩ := omegaSurf_spec A hg h
  by_cases hfin : isFinite (pinPOf c p0') = true
  · have hsol : PinSolver c.solver := by
      rcases h11 with ⟨_, h⟩ | ⟨h, _⟩
      · rw [h]; exact poisson_pinSolver h0 _ _ _ _
      · rw [ho] at h; exact absurd h (by decide)
    obtain ⟨s0, t0, e1, e2, e3⟩ := omega_pinned hnan ⟨h7, by rw [h3, h4]; exact ravel_lt hm0, by rw [h4, h9]; exact hf⟩ hsol hfin h5
    refine ⟨m0, _, s0, t0, h1, hm0, h6, fun _ => ⟨?_, e2, ?_⟩⟩
    · unfold interpTwo at e1
      rw [h3, (h8 m0 hm0).1, h10] at e1
      exact e1
    · rw [(h8 m0 hm0).2, ← h3, e3]
  · exact ⟨m0, _, nan, nan, h1, hm0, h6, fun h => absurd h hfin⟩

/-! ## Calls that raise -/

/-- what has to be fine for the front end to reach `np.ravel_multi_index` -/
theorem omegaSurf_unfold {o : Opts F} {dims : Option (List String)} {coord : String → Option (List ℚ)} {S T : Nd F} {P : PArg F}
    {v : ℕ} {pr : List ℕ → ℕ → F} (A : Args o.vertDim dims S T P v pr) (hS : 2 ≤ S.shape.length) (g : GridDict F) {pc : PinCast} {l : List ℤ}
    (hpc : processPinCast coord pc = .ok l) (p0 : PArgInit F) :
    ∃ k : ℕ → List F → FRes (List ℕ × (List ℕ → F × F × F) × State F), omegaSurf o dims coord S T P g pc p0 = (ravelMultiIndex (S.shape.eraseIdx v) l).bind fun pin =>
      (distRatio g).bind fun ratio => k pin ratio := by
  have hne : S.shape.eraseIdx v ≠ [] := by
    intro h
    have := congrArg List.length h
    rw [List.length_eraseIdx, if_pos A.lt] at this
    simp at this; omega
  obtain ⟨STP, e⟩ : ∃ STP, processCasts dims S T P o.vertDim = .ok STP := by
    obtain ⟨h1, h2⟩ := processCasts_spec dims S T o.vertDim v A.lt A.dim (by rw [A.shape])
    have hp := A.press
    cases P with
    | full P => obtain ⟨_, _, _, e, _⟩ := h2 P (by rw [hp.1]); exact ⟨_, e⟩
    | small size P => obtain ⟨_, _, _, e, _⟩ := h1 size P hp.1; exact ⟨_, e⟩
  have hhs : STP.1.shape.dropLast = S.shape.eraseIdx v := by rw [(A.casts e).1, List.dropLast_concat]
  unfold omegaSurf
  rw [hpc, e]
  simp only [ofLib, FRes.bind, hhs, if_neg hne]
  exact ⟨_, rfl⟩

/-- **C105 is false:** `pin_cast` is documented as an `int` or a tuple of `int`, but an `int` raises `ValueError` whatever its
value if the casts are on a grid with two dimensions or more; -/
theorem omegaSurf_int_false {o : Opts F} {dims : Option (List String)} {coord : String → Option (List ℚ)} {S T : Nd F} {P : PArg F}
    {v : ℕ} {pr : List ℕ → ℕ → F} (A : Args o.vertDim dims S T P v pr) (hS : 3 ≤ S.shape.length) (g : GridDict F) (i : ℤ) (p0 : PArgInit F) :
    omegaSurf o dims coord S T P g (.int i) p0 = .valueError := by
  obtain ⟨k, e⟩ := omegaSurf_unfold (coord := coord) A (by omega) g (pc := .int i) (l := [i]) rfl p0
  rw [e, ravelMultiIndex_error]
  · rfl
  · rintro ⟨m, h1, h2⟩
    have h3 := Valid.length h2
    rw [List.length_eraseIdx, if_pos A.lt] at h3
    have h4 := congrArg List.length h1
    simp at h4
    omega

/-- and a tuple with a negative index, which indexes arrays of numpy and is accepted by the other surfaces, raises `ValueError`. -/
theorem omegaSurf_negative {o : Opts F} {dims : Option (List String)} {coord : String → Option (List ℚ)} {S T : Nd F} {P : PArg F}
    {v : ℕ} {pr : List ℕ → ℕ → F} (A : Args o.vertDim dims S T P v pr) (hS : 2 ≤ S.shape.length) (g : GridDict F) (l : List ℤ)
    (hl : ∃ i ∈ l, i < 0) (p0 : PArgInit F) :
    omegaSurf o dims coord S T P g (.tuple l) p0 = .valueError := by
  obtain ⟨k, e⟩ := omegaSurf_unfold (coord := coord) A hS g (pc := .tuple l) (l := l) rfl p0
  rw [e, ravelMultiIndex_error]
  · rfl
  · rintro ⟨m, rfl, _⟩
    obtain ⟨i, hi, hneg⟩ := hl
    rw [List.mem_map] at hi
    obtain ⟨j, _, rfl⟩ := hi
    omega

/-- **C105, partial.** For casts in a row an `int` is accepted if it is not negative, and then the surface is pinned at that cast. -/
theorem omegaSurf_int_partial (hnan : isFinite (nan : F) = false) (h0 : feq (lit 0 : F) (lit 0) = true)
    {o : Opts F} (ho : o.formulation.toLower = "poisson") {dims : Option (List String)} {coord : String → Option (List ℚ)}
    {S T : Nd F} {P : PArg F} {v : ℕ} {pr : List ℕ → ℕ → F} (A : Args o.vertDim dims S T P v pr) {g : GridDict F} {n : ℕ}
    (hS : S.shape.eraseIdx v = [n]) (hg : ∀ e ∈ g.edges, e.1 < n ∧ e.2 < n) (hf : n < o.fuel) {i : ℤ} {p0 : PArgInit F}
    {hs : List ℕ} {out : List ℕ → F × F × F} {st : State F} (h : omegaSurf o dims coord S T P g (.int i) p0 = .ok (hs, out, st)) :
    ∃ j : ℕ, i = j ∧ j < n ∧ ∃ pp, initAt p0 [j] = some pp ∧ (isFinite pp = true → (out [j]).2.2 = pp) := by
  have hhs := (omegaSurf_spec A (by rw [hS]; simpa using hg) h).1
  obtain ⟨m0, pp, s0, t0, h1, h2, h3, h4⟩ :=
    omegaSurf_pinned hnan h0 ho A (by rw [hS]; simpa using hg) (by rw [hS]; simpa using hf) h
  have h5 : [i] = m0.map fun i : ℕ => (i : ℤ) := Lib.Res.ok.inj h1
  rw [hhs, hS] at h2
  cases h2 with
  | @cons _ j _ m hj hm =>
    cases hm
    refine ⟨j, by simpa using h5, hj, pp, h3, fun hfin => ?_⟩
    rw [(h4 hfin).2.2]

/-- **C35, also for omega surfaces: false as documented.**  Without `dist` or `distperp` in the grid, the call raises `KeyError`. -/
theorem omegaSurf_nodist_false {o : Opts F} {dims : Option (List String)} {coord : String → Option (List ℚ)} {S T : Nd F} {P : PArg F}
    {v : ℕ} {pr : List ℕ → ℕ → F} (A : Args o.vertDim dims S T P v pr) (hS : 2 ≤ S.shape.length) (g : GridDict F)
    (hg : g.dist = none ∨ g.distperp = none) (m0 : List ℕ) (hm : Valid (S.shape.eraseIdx v) m0) (p0 : PArgInit F) :
    omegaSurf o dims coord S T P g (.tuple (m0.map fun i : ℕ => (i : ℤ))) p0 = .keyError := by
  obtain ⟨k, e⟩ := omegaSurf_unfold (coord := coord) A hS g (pc := .tuple _) rfl p0
  rw [e, ravelMultiIndex_ok.2 ⟨m0, rfl, hm, rfl⟩]
  have : distRatio g = .keyError := by
    unfold distRatio
    rcases hg with h | h <;> rw [h]
    cases g.distperp <;> rfl
  rw [FRes.bind, this]
  rfl

/-! ## Examples -/

/-- `demo` as a call of `omega_surf`: vertical dimension first, casts on a `2 × 1` grid. -/
def demoO (f : String) : Opts (Fl ℚ) where
  vertDim := .int 0
  formulation := f
  eos s _ _ := s
  eosST _ _ _ := (.fin 1, .fin 0)
  errs _ := (.fin 0, .fin 0)
  sqrt x := x
  spsolve _ L D i := if i = 0 then .fin 0 else D 1 / L 1 1
  lsqr _ _ _ _ _ := .fin 0
  kind := .linear
  pml := none
  tol := .fin (1/100)
  tolPhi := .fin 0
  tolP := .fin 0
  diags := true
  iterMin := 1
  iterMax := 2
  startWet := 1
  stopWet := 5
  nrep := 10
  garbage _ := 0
  fuel := 200

def demoS : Nd (Fl ℚ) := ⟨[4, 2, 1], fun i => .fin (i.getD 0 0 + i.getD 1 0 : ℕ)⟩
def demoT : Nd (Fl ℚ) := ⟨[4, 2, 1], fun _ => .fin 0⟩
def demoP : PArg (Fl ℚ) := .small 4 fun k => .fin k
def demoG : GridDict (Fl ℚ) := ⟨[(0, 1)], some [.fin 1], some [.fin 1]⟩

theorem demo_args : Args (.int 0) none demoS demoT demoP 0 (fun _ k => .fin k) :=
  ⟨rfl, by decide, rfl, rfl, fun _ _ => rfl⟩

/-- The call returns, with the pressure of the array `p_init` at the pinning cast `(0, 0)`. -/
theorem demo_front : ∀ f ∈ ["Poisson", "poisson"],
    (match omegaSurf (demoO f) none (fun _ => none) demoS demoT demoP demoG (.tuple [0, 0]) (.array ⟨[2, 1], fun _ => .fin 2⟩) with
      | .ok r => some (r.1, (r.2.1 [0, 0]).2.2, (r.2.1 [1, 0]).2.2) | _ => none) = some ([2, 1], .fin 2, .fin 1) := by decide +kernel

example : Valid (demoS.shape.eraseIdx 0) [1, 0] ∧ ∀ e ∈ demoG.edges, e.1 < (demoS.shape.eraseIdx 0).prod ∧ e.2 < (demoS.shape.eraseIdx 0).prod := by
  unfold Valid; simp [demoS, demoG]
example : ("Poisson".toLower = "poisson") ∧ (isFinite (nan : Fl ℚ) = false) ∧ feq (lit 0 : Fl ℚ) (lit 0) = true := by decide +kernel
/-- The hypotheses of `omegaSurf_int_false`, `omegaSurf_negative` and `omegaSurf_nodist_false`. -/
example (p0 : PArgInit (Fl ℚ)) : omegaSurf (demoO "poisson") none (fun _ => none) demoS demoT demoP demoG (.int 1) p0 = .valueError ∧
    omegaSurf (demoO "poisson") none (fun _ => none) demoS demoT demoP demoG (.tuple [-1, 0]) p0 = .valueError ∧
    omegaSurf (demoO "poisson") none (fun _ => none) demoS demoT demoP ⟨[(0, 1)], none, none⟩ (.tuple [1, 0]) p0 = .keyError :=
  ⟨omegaSurf_int_false demo_args (by decide) _ _ _, omegaSurf_negative demo_args (by decide) _ _ ⟨-1, by simp, by decide⟩ _,
    omegaSurf_nodist_false demo_args (by decide) _ (.inl rfl) [1, 0] (by unfold Valid; simp [demoS]) _⟩
/-- Casts in a row, for `omegaSurf_int_partial`. -/
example : (match omegaSurf (demoO "poisson") none (fun _ => none) ⟨[4, 2], fun i => .fin (i.getD 0 0 + i.getD 1 0 : ℕ)⟩
      ⟨[4, 2], fun _ => .fin 0⟩ demoP demoG (.int 0) (.scalar (.fin 2)) with
      | .ok r => some (r.1, (r.2.1 [0]).2.2) | _ => none) = some ([2], .fin 2) := by decide +kernel

end Omega
