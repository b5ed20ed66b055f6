import Verif.Model.OmegaArgs
import Verif.Props.OmegaApi
import Verif.Props.OmegaOpts

/-! # Other forms of arguments of `omega_surf`: a dict `p_ml` (C140), an integer `p_init` (C141) -/

namespace Omega
open FloatLike Lib Traj Interp
open Fl hiding nan

set_option linter.unusedSectionVars false

variable {F : Type*} [FloatLike F]

/-- the part of a call before the mixed layer -/
theorem omegaSurfMl_unfold {o : Opts F} {dims : Option (List String)} {coord : String → Option (List ℚ)} {S T : Nd F} {P : PArg F}
    {v : ℕ} {pr : List ℕ → ℕ → F} (A : Args o.vertDim dims S T P v pr) (hS : 2 ≤ S.shape.length) {g : GridDict F} {q dd : List F}
    (hq : g.distperp = some q) (hd : g.dist = some dd) {pc : PinCast} {m0 : List ℕ}
    (hpc : processPinCast coord pc = .ok (m0.map fun i : ℕ => (i : ℤ))) (hm0 : Valid (S.shape.eraseIdx v) m0) (p0 : PArgInit F) (d : MlDict F) :
    ∃ casts : ℕ → Cast F, (∀ m, Valid (S.shape.eraseIdx v) m → casts (ravel (S.shape.eraseIdx v) m) = castAt S T pr v m) ∧
      omegaSurfMl o d dims coord S T P g pc p0 = (mlDict d o.eos (S.shape.eraseIdx v).prod (S.shape.getD v 0) casts).bind fun ml =>
        if ml.1 = (S.shape.eraseIdx v).prod then
          omegaSurf { o with pml := some ⟨S.shape.eraseIdx v, fun m => ml.2 (List.foldl (fun acc x => acc * x.1 + x.2) 0 ((S.shape.eraseIdx v).zip m))⟩ }
            dims coord S T P g pc p0
        else .valueError := by
  have hne : S.shape.eraseIdx v ≠ [] := by
    intro h
    have := congrArg List.length h
    rw [List.length_eraseIdx, if_pos A.lt] at this
    simp at this; omega
  obtain ⟨STP, e⟩ : ∃ STP, processCasts dims S T P o.vertDim = .ok STP := by
    obtain ⟨h1, h2⟩ := processCasts_spec dims S T o.vertDim v A.lt A.dim (by rw [A.shape])
    have hp := A.press
    cases P with
    | full P => obtain ⟨_, _, _, e, _⟩ := h2 P (by rw [hp.1]); exact ⟨_, e⟩
    | small size P => obtain ⟨_, _, _, e, _⟩ := h1 size P hp.1; exact ⟨_, e⟩
  obtain ⟨a1, a2⟩ := A.casts e
  have hhs : STP.1.shape.dropLast = S.shape.eraseIdx v := by rw [a1, List.dropLast_concat]
  have hlast : STP.1.shape.getLastD 0 = S.shape.getD v 0 := by rw [a1, List.getLastD_concat]
  have hr : distRatio g = .ok (List.zipWith (fun x y => x / y) q dd) := by unfold distRatio; rw [hq, hd]
  refine ⟨castsOf STP.1 STP.2.1 STP.2.2, a2, ?_⟩
  unfold omegaSurfMl
  rw [hpc, e]
  simp only [ofLib, FRes.bind, hhs, hlast, if_neg hne]
  rw [ravelMultiIndex_ok.2 ⟨m0, rfl, hm0, rfl⟩, hr]

/-- **C140** With `p_ml` a dict without `vert_dim` (or with the last dimension), the call does the same as with the array `p_ml` whose entry at each cast
is the base of the mixed layer of that cast of `S`, `T`, `P`, whatever their vertical dimension and number of horizontal dimensions.
For any rounding and any solvers. -/
theorem omegaSurf_dict_partial {o : Opts F} {dims : Option (List String)} {coord : String → Option (List ℚ)} {S T : Nd F} {P : PArg F}
    {v : ℕ} {pr : List ℕ → ℕ → F} (A : Args o.vertDim dims S T P v pr) (hS : 2 ≤ S.shape.length) {g : GridDict F} {q dd : List F}
    (hq : g.distperp = some q) (hd : g.dist = some dd) {pc : PinCast} {m0 : List ℕ}
    (hpc : processPinCast coord pc = .ok (m0.map fun i : ℕ => (i : ℤ))) (hm0 : Valid (S.shape.eraseIdx v) m0) (p0 : PArgInit F) {d : MlDict F}
    (hv : d.vertDim = -1 ∨ d.vertDim = 1) {interp : F → Arr F → Arr F → ℕ → Option F}
    (hint : d.interp = .linear ∧ interp = Interp.linearInterp1 ∨ d.interp = .pchip ∧ interp = Interp.pchipInterp1) (base : List ℕ → F)
    (hb : ∀ m, Valid (S.shape.eraseIdx v) m → MixedLayer.mixedLayer interp o.eos (castAt S T pr v m).S (castAt S T pr v m).T (castAt S T pr v m).P
      d.thr d.refp d.bottle = some (base m)) :
    ∃ x : Nd F, x.shape = S.shape.eraseIdx v ∧ (∀ m, Valid (S.shape.eraseIdx v) m → x.get m = base m) ∧
      omegaSurfMl o d dims coord S T P g pc p0 = omegaSurf { o with pml := some x } dims coord S T P g pc p0 := by
  obtain ⟨casts, hc, e⟩ := omegaSurfMl_unfold (o := o) A hS hq hd hpc hm0 p0 d
  obtain rfl : interp = mlInterp d.interp := by rcases hint with ⟨h1, h2⟩ | ⟨h1, h2⟩ <;> rw [h1, h2] <;> rfl
  have hv2 : d.vertDim % 2 = 1 := by rcases hv with h | h <;> rw [h] <;> rfl
  have hrow : ∀ m, Valid (S.shape.eraseIdx v) m → MixedLayer.mixedLayer (mlInterp d.interp) o.eos
      (mlRow (S.shape.eraseIdx v).prod (S.shape.getD v 0) d.vertDim (fun m k => (casts m).S.get k) (ravel (S.shape.eraseIdx v) m))
      (mlRow (S.shape.eraseIdx v).prod (S.shape.getD v 0) d.vertDim (fun m k => (casts m).T.get k) (ravel (S.shape.eraseIdx v) m))
      (mlRow (S.shape.eraseIdx v).prod (S.shape.getD v 0) d.vertDim (fun m k => (casts m).P.get k) (ravel (S.shape.eraseIdx v) m))
      d.thr d.refp d.bottle = some (base m) := by
    intro m hm
    unfold mlRow
    simp only [if_pos hv2, hc m hm]
    exact hb m hm
  obtain ⟨f, hf1, hf2⟩ : ∃ f, mlDict d o.eos (S.shape.eraseIdx v).prod (S.shape.getD v 0) casts = .ok ((S.shape.eraseIdx v).prod, f) ∧
      ∀ m, Valid (S.shape.eraseIdx v) m → f (ravel (S.shape.eraseIdx v) m) = base m := by
    rw [mlDict]
    dsimp only
    rw [if_pos hv2, if_pos]
    · refine ⟨_, rfl, fun m hm => ?_⟩
      rw [hrow m hm]
      rfl
    · intro i hi
      obtain ⟨u1, u2⟩ := valid_unravel hi
      rw [← u2, hrow _ u1]
      rfl
  rw [e, hf1]
  simp only [FRes.bind, if_true]
  refine ⟨_, ?_, ?_, rfl⟩
  · rfl
  · intro m hm
    dsimp only
    rw [foldl_ravel hm, Nat.zero_mul, Nat.zero_add, hf2 m hm]

/-- Two casts of two levels, the base of the mixed layer at pressure 1 in the first and 2 in the second. -/
def mlDemo (d : ℤ) : FRes (ℕ × (ℕ → Fl ℚ)) :=
  mlDict ⟨.linear, .fin 1, .fin 0, 0, d⟩ (fun s _ _ => s) 2 2
    (fun n => ⟨⟨2, fun k => .fin (if k = 0 then 30 else 31 : ℚ)⟩, ⟨2, fun _ => .fin 0⟩, ⟨2, fun k => .fin (k + (n : ℚ))⟩⟩)

/-- **C140 is false** if the dict names the vertical dimension of the data as `omega_surf` is told, when this is not the last one: the
casts and levels are taken for each other, and there is another mixed layer, or none, without any error; -/
theorem omegaSurf_dict_false :
    (match mlDemo (-1) with | .ok (n, f) => some (n, f 0, f 1) | _ => none) = some (2, .fin 1, .fin 2) ∧
    (match mlDemo 0 with | .ok (n, f) => some (n, f 0, f 1) | _ => none) = some (2, .nan, .nan) := by decide +kernel

/-- and if the number of levels is not the number of casts, the call raises. -/
theorem omegaSurf_dict_vert_false {o : Opts F} {dims : Option (List String)} {coord : String → Option (List ℚ)} {S T : Nd F} {P : PArg F}
    {v : ℕ} {pr : List ℕ → ℕ → F} (A : Args o.vertDim dims S T P v pr) (hS : 2 ≤ S.shape.length) {g : GridDict F} {q dd : List F}
    (hq : g.distperp = some q) (hd : g.dist = some dd) {pc : PinCast} {m0 : List ℕ}
    (hpc : processPinCast coord pc = .ok (m0.map fun i : ℕ => (i : ℤ))) (hm0 : Valid (S.shape.eraseIdx v) m0) (p0 : PArgInit F) {d : MlDict F}
    (hv : d.vertDim = 0 ∨ d.vertDim = -2) (hN : S.shape.getD v 0 ≠ (S.shape.eraseIdx v).prod) :
    omegaSurfMl o d dims coord S T P g pc p0 = .valueError := by
  obtain ⟨casts, hc, e⟩ := omegaSurfMl_unfold (o := o) A hS hq hd hpc hm0 p0 d
  have hv2 : ¬ d.vertDim % 2 = 1 := by rcases hv with h | h <;> rw [h] <;> decide
  rw [e, mlDict]
  dsimp only
  rw [if_neg hv2]
  split_ifs
  · simp only [FRes.bind, if_neg hN]
  · rfl

/-! ## dtype of `p_init` -/

/-- **C141 is false:** with well formed arguments, an array `p_init` of integers raises `ValueError`, -/
theorem omegaSurf_intinit_false {o : Opts (Fl ℝ)} {dims : Option (List String)} {coord : String → Option (List ℚ)} {S T : Nd (Fl ℝ)} {P : PArg (Fl ℝ)}
    {v : ℕ} {pr : List ℕ → ℕ → Fl ℝ} {L : List Link} {pc : PinCast} {m0 : List ℕ} {p0 : ℝ} {e : ℝ → ℝ → ℝ → ℝ} {smin tol : ℝ} {n : ℕ}
    {b : List ℕ → ℕ → ℝ} (C : Call o dims coord S T P v pr L pc m0 p0 e smin tol n b) {p : Nd (Fl ℝ)}
    (hI : Starts (S.shape.eraseIdx v) m0 p0 (.array p)) : omegaSurfD .int o dims coord S T P (gridOf L) pc p = .valueError := by
  have C' : Call { o with iterMax := 0, diags := false } dims coord S T P v pr L pc m0 p0 e smin tol n b :=
    ⟨C.args, C.horiz, C.pin, C.valid, C.within, C.dist, C.solver, C.tolEq, C.tolPos, C.fuel, C.enough, C.eos, C.der, C.casts, C.start, C.below,
      by intro h; cases h⟩
  obtain ⟨out, st, h, -⟩ := omegaSurf_total C' hI
  unfold omegaSurfD
  dsimp only
  rw [h]
  rfl

/-- **C141, partial.** while the same numbers as floats give a surface through the pinning point. -/
theorem omegaSurf_floatinit_partial {o : Opts (Fl ℝ)} {dims : Option (List String)} {coord : String → Option (List ℚ)} {S T : Nd (Fl ℝ)} {P : PArg (Fl ℝ)}
    {v : ℕ} {pr : List ℕ → ℕ → Fl ℝ} {L : List Link} {pc : PinCast} {m0 : List ℕ} {p0 : ℝ} {e : ℝ → ℝ → ℝ → ℝ} {smin tol : ℝ} {n : ℕ}
    {b : List ℕ → ℕ → ℝ} (C : Call o dims coord S T P v pr L pc m0 p0 e smin tol n b) {p : Nd (Fl ℝ)}
    (hI : Starts (S.shape.eraseIdx v) m0 p0 (.array p)) : ∃ out st, omegaSurfD .float64 o dims coord S T P (gridOf L) pc p = .ok (S.shape.eraseIdx v, out, st) ∧
      (out m0).2.2 = fin p0 := by
  obtain ⟨out, st, h, ⟨s0, t0, h1, -⟩, -⟩ := omegaSurf_total C hI
  exact ⟨out, st, h, by rw [h1]⟩

/-! ## Examples -/

/-- A call with a dict, and its mixed layer: base at pressure 3/2 of the four levels in both casts. -/
example : (∀ m, Valid [2, 1] m → MixedLayer.mixedLayer (mlInterp .linear) (fun s _ _ => s) (castAt demoS demoT (fun _ k => .fin k) 0 m).S
      (castAt demoS demoT (fun _ k => .fin k) 0 m).T (castAt demoS demoT (fun _ k => .fin k) 0 m).P (.fin (3/2)) (.fin 0) 0 = some (.fin (3/2))) ∧
    (match omegaSurfMl (demoO "poisson") ⟨.linear, .fin (3/2), .fin 0, 0, -1⟩ none (fun _ => none) demoS demoT demoP demoG (.tuple [0, 0]) (.scalar (.fin 2)) with
      | .ok r => some (r.1, (r.2.1 [0, 0]).2.2) | _ => none) = some ([2, 1], .fin 2) ∧
    (match omegaSurfMl (demoO "poisson") ⟨.linear, .fin (3/2), .fin 0, 0, 0⟩ none (fun _ => none) demoS demoT demoP demoG (.tuple [0, 0]) (.scalar (.fin 2)) with
      | .valueError => true | _ => false) = true := by
  refine ⟨?_, by decide +kernel, by decide +kernel⟩
  intro m hm
  unfold Valid at hm
  cases hm with
  | @cons _ i _ m hi hm =>
    cases hm with
    | @cons _ j _ m hj hm =>
      cases hm
      obtain rfl : j = 0 := by omega
      have : i = 0 ∨ i = 1 := by omega
      rcases this with rfl | rfl <;> decide +kernel

end Omega
