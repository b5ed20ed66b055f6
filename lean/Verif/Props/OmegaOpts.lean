import Verif.Props.OmegaFront
import Verif.Props.OmegaML

/-! # The options of `omega_surf` mean what they say (C42, C103, C104, C128) -/

namespace Omega
open FloatLike Lib Traj Bfs
open Fl hiding nan

set_option linter.unusedSectionVars false

variable {F : Type*} [FloatLike F]

/-- Specification: the mean of the absolute values of the numbers among `f 0, …, f (N - 1)`. -/
def meanAbsN (N : ℕ) (f : ℕ → F) : F := nanmean N fun n => FloatLike.abs (f n)

/-- **C42, for calls of `omega_surf`.** `ITER_MIN` and `ITER_MAX` bound the number of passes, and a call that stopped before
`ITER_MAX` stopped because the mean `|ϕ|` of its last pass is below `TOL_LRPD_MAV` (divided by 10⁶ if the equation of state gives
specific volume), or because the root mean square of its pressure changes is below `TOL_P_CHANGE_RMS`. -/
theorem omegaSurf_iterations {o : Opts F} {dims : Option (List String)} {coord : String → Option (List ℚ)} {S T : Nd F} {P : PArg F}
    {v : ℕ} {pr : List ℕ → ℕ → F} (A : Args o.vertDim dims S T P v pr) {g : GridDict F}
    (hg : ∀ e ∈ g.edges, e.1 < (S.shape.eraseIdx v).prod ∧ e.2 < (S.shape.eraseIdx v).prod)
    {pc : PinCast} {p0 : PArgInit F} {hs : List ℕ} {out : List ℕ → F × F × F} {st : State F}
    (h : omegaSurf o dims coord S T P g pc p0 = .ok (hs, out, st)) :
    st.last ≤ o.iterMax ∧ min o.iterMin o.iterMax ≤ st.last ∧
    (st.last < o.iterMax → o.iterMin ≤ st.last ∧ ∃ (c : Cfg F) (p0' : PInit F) (prev : Surf F) (r : Iter F),
      omega c p0' = .ok st ∧ step c (pinPOf c p0') st.last prev = .ok r ∧ r.new = st.stp ∧
      (lt (meanAbsN hs.prod r.phi) (if lt (o.eos (lit (345/10)) (lit 3) (lit 1000)) (lit 1) then o.tolPhi / lit 1000000 else o.tolPhi) = true ∨
      lt (if o.diags = true ∨ lt (lit 0) o.tolP = true then
          o.sqrt (nanmean hs.prod fun n => ((st.stp n).2.2 - (r.old n).2.2) * ((st.stp n).2.2 - (r.old n).2.2)) else lit 0)
        o.tolP = true)) := by
  obtain ⟨-, m0, c, p0', -, -, -, hN, h1, -, -, -, -, -, -, -, fo, -⟩ := omegaSurf_spec A hg h
  obtain ⟨a1, a2, stp0, it, -, a4, a5, a6, -⟩ := omega_iterations h1
  rw [fo.iterMin, fo.iterMax] at *
  refine ⟨a1, a2, fun hl => ?_⟩
  obtain ⟨k, hk, hm, hs'⟩ := a6 hl
  unfold small at hs'
  rw [Bool.or_eq_true] at hs'
  have hst : st.stp = (it k).new := by rw [a5, ← hk]; rfl
  refine ⟨hm, _, _, surfAt stp0 it k, it k, h1, by rw [← hk]; exact a4 k (by omega), hst.symm, ?_⟩
  rw [← fo.tolPhi, ← fo.tolP, ← fo.diags, ← fo.sqrt, ← hN, hst]
  exact hs'

/-- **C103, partial, for calls of `omega_surf` with an array `p_ml`.** The surfaces `U 0, …, U st.last` are those after each pass. Once wetting has
stopped, the entry at horizontal indices `m` is NaN in the surface returned if after some pass, other than the last, its pressure was below
the entry of `p_ml` at `m`.  Missing: the surface left by the last pass, and casts wetted. -/
theorem omegaSurf_ml_partial (hnan : isFinite (nan : F) = false) (hnz : feq (nan : F) (lit 0) = false) (h0 : feq (lit 0 : F) (lit 0) = true)
    {o : Opts F} (ho : o.formulation.toLower = "poisson") {dims : Option (List String)} {coord : String → Option (List ℚ)}
    {S T : Nd F} {P : PArg F} {v : ℕ} {pr : List ℕ → ℕ → F} (A : Args o.vertDim dims S T P v pr) {g : GridDict F}
    (hg : ∀ e ∈ g.edges, e.1 < (S.shape.eraseIdx v).prod ∧ e.2 < (S.shape.eraseIdx v).prod)
    (hf : (S.shape.eraseIdx v).prod < o.fuel) {pc : PinCast} {p0 : PArgInit F}
    {hs : List ℕ} {out : List ℕ → F × F × F} {st : State F} (h : omegaSurf o dims coord S T P g pc p0 = .ok (hs, out, st))
    {x : Nd F} (hx : o.pml = some x) (hxs : x.shape = S.shape.eraseIdx v) (hfin : ∀ m p, initAt p0 m = some p → isFinite p = true) :
    ∃ (c : Cfg F) (p0' : PInit F) (U : ℕ → Surf F), omega c p0' = .ok st ∧ init c p0' = .ok (U 0) ∧ U st.last = st.stp ∧
      (∀ k < st.last, ∃ r, step c (pinPOf c p0') (k + 1) (U k) = .ok r ∧ r.new = U (k + 1)) ∧
      ∀ k, o.stopWet ≤ k → 1 ≤ k → k < st.last → ∀ m, Valid hs m → lt (U k (ravel hs m)).2.2 (x.get m) = true →
        out m = (nan, nan, nan) := by
  obtain ⟨rfl, m0, c, p0', h1, hm0, h3, h4, h5, h6, h7, -, h8, -, h9, -, fo, q, d, -, -, h11⟩ := omegaSurf_spec A hg h
  have hsol : PinSolver c.solver := by
    rcases h11 with ⟨_, h⟩ | ⟨h, _⟩
    · rw [h]; exact poisson_pinSolver h0 _ _ _ _
    · rw [ho] at h; exact absurd h (by decide)
  obtain ⟨stp0, it, e1, e2, e3, e4⟩ := omega_ml_partial hnan hnz ⟨h7, by rw [h3, h4]; exact ravel_lt hm0, by rw [h4, h9]; exact hf⟩ hsol
    (hfin m0 _ h6) h5
  refine ⟨c, p0', surfAt stp0 it, h5, e1, e3.symm, fun k hk => ⟨it k, e2 k hk, rfl⟩, fun k h1 h2 h3 m hm hlt => ?_⟩
  rw [(h8 m hm).2]
  refine e4 k (by rw [fo.stopWet]; exact h1) h3 _ (by rw [h4]; exact ravel_lt hm) (Or.inr ⟨h2, ?_⟩)
  rw [fo.pml x hx hxs m hm]
  exact hlt

/-- `-(1/0)` is `-inf`. -/
theorem neg_inf {α : Type*} [Field α] [LinearOrder α] [IsStrictOrderedRing α] : (-(lit 1 / lit 0) : Fl α) = .ninf := by
  rw [lit_eq, lit_eq]
  show Fl.neg (Fl.div (Fl.fin ((1 : ℚ) : α)) (Fl.fin ((0 : ℚ) : α))) = .ninf
  simp [Fl.div, Fl.neg]

/-- **C104.** With `p_ml` left out the call does the same as with `p_ml` equal to `-inf` everywhere. -/
theorem omegaSurf_noml {α : Type*} [Field α] [LinearOrder α] [IsStrictOrderedRing α] (o : Opts (Fl α)) (dims : Option (List String))
    (coord : String → Option (List ℚ)) (S T : Nd (Fl α)) (P : PArg (Fl α)) (g : GridDict (Fl α)) (pc : PinCast) (p0 : PArgInit (Fl α))
    (s : List ℕ) : omegaSurf { o with pml := none } dims coord S T P g pc p0 =
      omegaSurf { o with pml := some ⟨s, fun _ => .ninf⟩ } dims coord S T P g pc p0 := by
  have : ∀ hs S' T' P' G pin solver, cfgOf { o with pml := none } hs S' T' P' G pin solver =
      cfgOf { o with pml := some ⟨s, fun _ => .ninf⟩ } hs S' T' P' G pin solver := by
    intros
    unfold cfgOf
    congr 1
    funext n
    exact neg_inf
  unfold omegaSurf
  simp only [this]
  rfl

/-! ## Examples -/

/-- A call that stops after three of at most nine passes, since the third does not change the surface. -/
example : (match omegaSurf { demoO "poisson" with iterMin := 3, iterMax := 9, tolPhi := .fin (1/10) } none (fun _ => none) demoS demoT demoP demoG
      (.tuple [0, 0]) (.array ⟨[2, 1], fun _ => .fin 2⟩) with
      | .ok r => some r.2.2.last | _ => none) = some 3 := by decide +kernel

/-- A call with a mixed layer with base 3/2 at `(1, 0)`: that entry is removed by the second pass. -/
example : (match omegaSurf { demoO "poisson" with stopWet := 0, pml := some ⟨[2, 1], fun m => if m = [1, 0] then .fin (3/2) else .ninf⟩ }
      none (fun _ => none) demoS demoT demoP demoG (.tuple [0, 0]) (.array ⟨[2, 1], fun _ => .fin 2⟩) with
      | .ok r => some (r.2.2.last, (r.2.1 [0, 0]).2.2, (r.2.1 [1, 0]).2.2) | _ => none) = some (2, .fin 2, Fl.nan) := by decide +kernel

end Omega
