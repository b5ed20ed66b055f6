import Verif.Props.UnitsSurf
import Verif.Model.EosBase

/-! # Units do not matter, continued: omega surfaces (C143) -/

set_option linter.unusedSectionVars false

namespace UnitChange
open FloatLike Fzero Interp Traj VertSolve
open Fl hiding nan
variable {α : Type*} [Field α] [LinearOrder α] [IsStrictOrderedRing α]
variable {u : Change α} (hu : u.Pos)
include hu

/-! ## Neutrality errors and matrix problems -/

omit hu in
/-- `e'` gives the partial derivatives `e` in the new units. -/
def Change.EosST (u : Change α) (e e' : Ntp.EosST (Fl α)) : Prop :=
  ∀ s t p, e' (u.S s) (u.T t) (u.P p) = (sc (u.k / u.aS) (e s t p).1, sc (u.k / u.aT) (e s t p).2)

theorem epsErr_units {e e'} (he : u.EosST e e') (s t p : ℕ → Fl α) (x : ℕ × ℕ) :
    Ntp.epsErr e' (fun n => u.S (s n)) (fun n => u.T (t n)) (fun n => u.P (p n)) x = u.drho (Ntp.epsErr e s t p x) := by
  unfold Ntp.epsErr
  have e1 : lit (1/2) * (u.S (s x.1) + u.S (s x.2)) = u.S (lit (1/2) * (s x.1 + s x.2)) := aff_mid hu.aS _ _
  have e2 : lit (1/2) * (u.T (t x.1) + u.T (t x.2)) = u.T (lit (1/2) * (t x.1 + t x.2)) := aff_mid hu.aT _ _
  have e3 : lit (1/2) * (u.P (p x.1) + u.P (p x.2)) = u.P (lit (1/2) * (p x.1 + p x.2)) := by
    unfold Change.P
    rw [sc_add hu.h, mul_sc hu.h]
  have e4 : u.S (s x.2) - u.S (s x.1) = sc u.aS (s x.2 - s x.1) := aff_sub hu.aS _ _
  have e5 : u.T (t x.2) - u.T (t x.1) = sc u.aT (t x.2 - t x.1) := aff_sub hu.aT _ _
  dsimp only
  rw [e1, e2, e3, e4, e5, he]
  dsimp only
  rw [sc_mul_sc (div_pos hu.k hu.aS) hu.aS, sc_mul_sc (div_pos hu.k hu.aT) hu.aT, div_mul_cancel₀ _ hu.aS.ne', div_mul_cancel₀ _ hu.aT.ne']
  exact sc_add hu.k _ _

omit hu in
/-- a row of the matrix problem in the new units -/
def Change.row (u : Change α) (r : OmegaMat.Row (Fl α)) : OmegaMat.Row (Fl α) := ⟨r.a, r.b, u.drho r.e, r.w⟩

theorem helper_units {e e'} (he : u.EosST e e') (s t p : ℕ → Fl α) (edges : List (ℕ × ℕ)) (ratio : OmegaMat.Ratio (Fl α)) (m : List ℕ) :
    OmegaMat.helper e' (fun n => u.S (s n)) (fun n => u.T (t n)) (fun n => u.P (p n)) edges ratio m =
      (OmegaMat.helper e s t p edges ratio m).map u.row := by
  unfold OmegaMat.helper
  cases ratio with
  | scalar d =>
    dsimp only
    rw [List.map_map]
    apply List.map_congr_left
    intro x _
    unfold Change.row
    dsimp only [Function.comp_apply]
    rw [epsErr_units hu he]
    unfold Change.drho
    congr 1
    rw [sc_div hu.k, sc_mul hu.k, sc_ite]
  | arr l =>
    dsimp only
    rw [List.map_map]
    apply List.map_congr_left
    intro x _
    unfold Change.row
    dsimp only [Function.comp_apply]
    rw [epsErr_units hu he]
    unfold Change.drho
    congr 1
    rw [sc_div hu.k, sc_mul hu.k]

omit hu in
theorem drho_zero : u.drho (lit 0) = (lit 0 : Fl α) := by
  simp only [Change.drho, lit_eq, Rat.cast_zero, sc_zero]

theorem aggsum_units (l : List (ℤ × Fl α)) (n : ℕ) :
    Lib.aggsum (l.map fun x => (x.1, u.drho x.2)) n =
      match Lib.aggsum l n with
      | .ok f => .ok fun i => u.drho (f i)
      | r => r := by
  unfold Lib.aggsum
  have e1 : ((l.map fun x => (x.1, u.drho x.2)).all fun x => decide (x.1 < (n : ℤ))) = l.all fun x => decide (x.1 < (n : ℤ)) := by
    rw [List.all_map]; rfl
  rw [e1]
  split_ifs
  · dsimp only
    congr 1
    have key : ∀ (l : List (ℤ × Fl α)) (f : ℕ → Fl α),
        (l.map fun x => (x.1, u.drho x.2)).foldl (fun b x => if 0 ≤ x.1 then Function.update b x.1.toNat (b x.1.toNat + x.2) else b) (fun i => u.drho (f i)) =
        fun i => u.drho (l.foldl (fun b x => if 0 ≤ x.1 then Function.update b x.1.toNat (b x.1.toNat + x.2) else b) f i) := by
      intro l
      induction l with
      | nil => intro _; rfl
      | cons x l ih =>
        intro f
        rw [List.map_cons, List.foldl_cons, List.foldl_cons, ← ih]
        congr 1
        dsimp only
        split_ifs
        · rw [update_map u.drho]
          congr 1
          exact sc_add hu.k _ _
        · rfl
    rw [← key, drho_zero]
  · rfl

omit hu in
/-- map over the result of a matrix problem -/
def matMap {A B : Type*} (g : A → B) : OmegaMat.Res A → OmegaMat.Res B
  | .ok a => .ok (g a)
  | .indexError => .indexError

theorem poissonSystem_units (rows : List (OmegaMat.Row (Fl α))) (N ref : ℕ) :
    OmegaMat.poissonSystem (rows.map u.row) N ref = matMap (fun DL => (fun i => u.drho (DL.1 i), DL.2)) (OmegaMat.poissonSystem rows N ref) := by
  unfold OmegaMat.poissonSystem
  have e1 : ((rows.map u.row).map fun x => ((x.a : ℤ), x.e)) = (rows.map fun x => ((x.a : ℤ), x.e)).map fun x => (x.1, u.drho x.2) := by
    rw [List.map_map, List.map_map]; rfl
  have e2 : ((rows.map u.row).map fun x => ((x.b : ℤ), x.e)) = (rows.map fun x => ((x.b : ℤ), x.e)).map fun x => (x.1, u.drho x.2) := by
    rw [List.map_map, List.map_map]; rfl
  have e3 : ((rows.map u.row).map fun x => ((x.a : ℤ), x.w)) = rows.map fun x => ((x.a : ℤ), x.w) := by rw [List.map_map]; rfl
  have e4 : ((rows.map u.row).map fun x => ((x.b : ℤ), x.w)) = rows.map fun x => ((x.b : ℤ), x.w) := by rw [List.map_map]; rfl
  have e5 : (rows.map u.row).map (fun x => (x.a, x.b, -x.w)) = rows.map (fun x => (x.a, x.b, -x.w)) := by rw [List.map_map]; rfl
  have e6 : (rows.map u.row).map (fun x => (x.b, x.a, -x.w)) = rows.map (fun x => (x.b, x.a, -x.w)) := by rw [List.map_map]; rfl
  rw [e1, e2, e3, e4, e5, e6, aggsum_units hu, aggsum_units hu]
  cases Lib.aggsum (rows.map fun x => ((x.a : ℤ), x.e)) N with
  | ok ea =>
    cases Lib.aggsum (rows.map fun x => ((x.b : ℤ), x.e)) N with
    | ok eb =>
      cases Lib.aggsum (rows.map fun x => ((x.a : ℤ), x.w)) N with
      | ok wa =>
        cases Lib.aggsum (rows.map fun x => ((x.b : ℤ), x.w)) N with
        | ok wb =>
          simp only [matMap, OmegaMat.Res.ok.injEq, Prod.mk.injEq, and_true]
          funext i
          exact sc_sub hu.k _ _
        | _ => rfl
      | _ => rfl
    | _ => rfl
  | _ => rfl

omit hu in
theorem scatter_units (g : Fl α → Fl α) (hg : g Fl.nan = Fl.nan) (m : List ℕ) (sol : ℕ → Fl α) :
    OmegaMat.scatter m (fun i => g (sol i)) = fun n => g (OmegaMat.scatter m sol n) := by
  unfold OmegaMat.scatter
  have key : ∀ (l : List (ℕ × ℕ)) (f : ℕ → Fl α), l.foldl (fun φ x => Function.update φ x.1 (g (sol x.2))) (fun n => g (f n)) =
      fun n => g (l.foldl (fun φ x => Function.update φ x.1 (sol x.2)) f n) := by
    intro l
    induction l with
    | nil => intro _; rfl
    | cons x l ih =>
      intro f
      rw [List.foldl_cons, List.foldl_cons, ← ih, update_map g]
  have := key m.zipIdx fun _ => Fl.nan
  rw [hg] at this
  exact this

omit hu in
/-- The sparse solver is homogeneous in the right-hand side. -/
def HomSolve (f : ℕ → (ℕ → ℕ → Fl α) → (ℕ → Fl α) → ℕ → Fl α) : Prop :=
  ∀ k : α, 0 < k → ∀ N L D, f N L (fun i => sc k (D i)) = fun i => sc k (f N L D i)

omit hu in
/-- The least squares solver is homogeneous in the right-hand side. -/
def HomLsqr (f : ℕ → ℕ → (ℕ → ℕ → Fl α) → (ℕ → Fl α) → ℕ → Fl α) : Prop :=
  ∀ k : α, 0 < k → ∀ R C M b, f R C M (fun i => sc k (b i)) = fun i => sc k (f R C M b i)

/-- The Poisson problem in other units: the correction is a difference of densities. -/
theorem poisson_units {e e'} (he : u.EosST e e') {spsolve} (hs : HomSolve spsolve) (s t p : ℕ → Fl α) (edges : List (ℕ × ℕ))
    (ratio : OmegaMat.Ratio (Fl α)) (m : List ℕ) (mref : ℕ) :
    OmegaMat.poisson spsolve e' (fun n => u.S (s n)) (fun n => u.T (t n)) (fun n => u.P (p n)) edges ratio m mref =
      matMap (fun φ n => u.drho (φ n)) (OmegaMat.poisson spsolve e s t p edges ratio m mref) := by
  unfold OmegaMat.poisson
  split_ifs
  · cases m with
    | nil => rfl
    | cons x m =>
      simp only [matMap, OmegaMat.Res.ok.injEq]
      rw [update_map u.drho, drho_zero]
      rfl
  · rw [helper_units hu he, poissonSystem_units hu]
    cases OmegaMat.poissonSystem (OmegaMat.helper e s t p edges ratio m) m.length (OmegaMat.refOf m mref) with
    | indexError => rfl
    | ok DL =>
      obtain ⟨D, L⟩ := DL
      simp only [matMap, OmegaMat.Res.ok.injEq]
      rw [update_map u.drho, drho_zero, ← scatter_units u.drho rfl]
      unfold Change.drho
      rw [hs u.k hu.k]

/-- The least squares problem in other units. -/
theorem gradient_units {e e'} (he : u.EosST e e') {lsqr} (hs : HomLsqr lsqr) (s t p : ℕ → Fl α) (edges : List (ℕ × ℕ))
    (ratio : OmegaMat.Ratio (Fl α)) (m : List ℕ) (mref : ℕ) :
    OmegaMat.gradient lsqr e' (fun n => u.S (s n)) (fun n => u.T (t n)) (fun n => u.P (p n)) edges ratio m mref =
      matMap (fun φ n => u.drho (φ n)) (OmegaMat.gradient lsqr e s t p edges ratio m mref) := by
  unfold OmegaMat.gradient
  split_ifs
  · cases m with
    | nil => rfl
    | cons x m =>
      simp only [matMap, OmegaMat.Res.ok.injEq]
      rw [update_map u.drho, drho_zero]
      rfl
  · dsimp only
    rw [helper_units hu he]
    generalize OmegaMat.helper e s t p edges ratio m = rows
    have e1 : (OmegaMat.gradientSystem (rows.map u.row) (OmegaMat.refOf m mref)).2 = (OmegaMat.gradientSystem rows (OmegaMat.refOf m mref)).2 := by
      unfold OmegaMat.gradientSystem
      dsimp only
      rw [List.length_map, List.zipIdx_map, List.map_map, List.map_map]
      rfl
    have e2 : (OmegaMat.gradientSystem (rows.map u.row) (OmegaMat.refOf m mref)).1 =
        fun i => sc u.k ((OmegaMat.gradientSystem rows (OmegaMat.refOf m mref)).1 i) := by
      unfold OmegaMat.gradientSystem
      dsimp only
      funext i
      rw [List.map_map]
      have : ∀ (l : List (OmegaMat.Row (Fl α))) (i : ℕ), (l.map ((fun x => -x.e) ∘ u.row)).getD i (lit 0) = sc u.k ((l.map fun x => -x.e).getD i (lit 0)) := by
        intro l
        induction l with
        | nil => intro i; exact (drho_zero (u := u)).symm
        | cons x l ih =>
          intro i
          cases i with
          | zero => exact sc_neg hu.k _
          | succ i => exact ih i
      exact this rows i
    rw [e1, e2, hs u.k hu.k, List.length_map]
    simp only [matMap, OmegaMat.Res.ok.injEq]
    rw [← scatter_units u.drho rfl]
    congr 1
    funext i
    exact sc_sub hu.k _ _

/-! ## Norms -/

theorem sum_sc {k : α} (hk : 0 < k) (l : List (Fl α)) : Ntp.sum (l.map (sc k)) = sc k (Ntp.sum l) := by
  unfold Ntp.sum
  have key : ∀ (l : List (Fl α)) (a : Fl α), (l.map (sc k)).foldl (· + ·) (sc k a) = sc k (l.foldl (· + ·) a) := by
    intro l
    induction l with
    | nil => intro _; rfl
    | cons x l ih =>
      intro a
      rw [List.map_cons, List.foldl_cons, List.foldl_cons, sc_add hk, ih]
  have := key l (lit 0)
  simp only [lit_eq, Rat.cast_zero, sc_zero] at this ⊢
  exact this

theorem nansum_sc {k : α} (hk : 0 < k) (l : List (Fl α)) : Ntp.nansum (l.map (sc k)) = sc k (Ntp.nansum l) := by
  unfold Ntp.nansum
  rw [← sum_sc hu hk, List.map_map, List.map_map]
  congr 1
  apply List.map_congr_left
  intro x _
  dsimp only [Function.comp_apply]
  rw [sc_isNaN hk]
  split_ifs
  · simp only [lit_eq, Rat.cast_zero, sc_zero]
  · rfl

omit hu in
/-- `np.sqrt` is homogeneous of degree one half. -/
def HomSqrt (sqrt : Fl α → Fl α) : Prop := ∀ k : α, 0 < k → ∀ x, sqrt (sc (k * k) x) = sc k (sqrt x)

/-- Errors scaled by a positive constant have norms scaled by it. -/
theorem normsOf_units {sqrt} (hq : HomSqrt sqrt) (l : List (Fl α × Fl α × Fl α)) :
    Ntp.normsOf sqrt (l.map fun x => (u.drho x.1, x.2)) = (u.drho (Ntp.normsOf sqrt l).1, u.drho (Ntp.normsOf sqrt l).2) := by
  unfold Ntp.normsOf
  simp only [List.map_map]
  have e1 : (l.map ((fun x : Fl α × Fl α × Fl α => x.2.1 * x.2.2 * if isFinite x.1 then lit 1 else lit 0) ∘ fun x => (u.drho x.1, x.2))) =
      l.map fun x => x.2.1 * x.2.2 * if isFinite x.1 then lit 1 else lit 0 := by
    apply List.map_congr_left
    intro x _
    dsimp only [Function.comp_apply]
    unfold Change.drho
    rw [sc_isFinite hu.k]
  have e2 : (l.map ((fun x : Fl α × Fl α × Fl α => x.2.2 / x.2.1 * (x.1 * x.1)) ∘ fun x => (u.drho x.1, x.2))) =
      (l.map fun x => x.2.2 / x.2.1 * (x.1 * x.1)).map (sc (u.k * u.k)) := by
    rw [List.map_map]
    apply List.map_congr_left
    intro x _
    dsimp only [Function.comp_apply]
    unfold Change.drho
    rw [sc_mul_sc hu.k hu.k, mul_sc (mul_pos hu.k hu.k)]
  have e3 : (l.map ((fun x : Fl α × Fl α × Fl α => x.2.2 * FloatLike.abs x.1) ∘ fun x => (u.drho x.1, x.2))) =
      (l.map fun x => x.2.2 * FloatLike.abs x.1).map (sc u.k) := by
    rw [List.map_map]
    apply List.map_congr_left
    intro x _
    dsimp only [Function.comp_apply]
    unfold Change.drho
    rw [sc_abs hu.k, mul_sc hu.k]
  rw [e1, e2, e3, nansum_sc hu (mul_pos hu.k hu.k), nansum_sc hu hu.k, sc_div (mul_pos hu.k hu.k), sc_div hu.k, hq _ hu.k]
  split_ifs
  · show _ = (u.drho (lit 0), u.drho (lit 0))
    rw [drho_zero]
  · rfl

omit hu in
/-- map over the result of a norm -/
def ntpMap {A B : Type*} (g : A → B) : Ntp.Res A → Ntp.Res B
  | .ok a => .ok (g a)
  | .keyError => .keyError
  | .shapeError => .shapeError

/-- The neutrality errors in other units: differences of densities. -/
theorem epsilonErrors_units {e e'} (he : u.EosST e e') (s t p : ℕ → Fl α) (g : Ntp.GridArg (Fl α)) :
    Ntp.epsilonErrors e' (fun n => u.S (s n)) (fun n => u.T (t n)) (fun n => u.P (p n)) g = ntpMap (List.map u.drho) (Ntp.epsilonErrors e s t p g) := by
  have e0 : ∀ edges, Ntp.epsErrs e' (fun n => u.S (s n)) (fun n => u.T (t n)) (fun n => u.P (p n)) edges = (Ntp.epsErrs e s t p edges).map u.drho := by
    intro edges
    unfold Ntp.epsErrs
    rw [List.map_map]
    exact List.map_congr_left fun x _ => epsErr_units hu he s t p x
  have e1 : ∀ l : List (Fl α), (l.map u.drho).map (· / lit 1) = (l.map (· / lit 1)).map u.drho := by
    intro l
    rw [List.map_map, List.map_map]
    exact List.map_congr_left fun x _ => sc_div hu.k _ _
  unfold Ntp.epsilonErrors
  cases g with
  | tuple edges =>
    dsimp only
    rw [e0, e1]
    rfl
  | dict g =>
    dsimp only
    cases g.dist with
    | none =>
      dsimp only
      rw [e0, e1]
      rfl
    | some d =>
      dsimp only
      rw [e0]
      unfold Ntp.zipR
      rw [List.length_map]
      split_ifs
      · simp only [ntpMap, Ntp.Res.ok.injEq]
        rw [List.zipWith_map_left, List.map_zipWith]
        congr 1
        funext x y
        exact sc_div hu.k _ _
      · rfl

/-- The norms of the neutrality errors in other units. -/
theorem norms_units {sqrt} (hq : HomSqrt sqrt) {e e'} (he : u.EosST e e') (s t p : ℕ → Fl α) (g : Ntp.Grid (Fl α)) :
    Ntp.norms sqrt e' (fun n => u.S (s n)) (fun n => u.T (t n)) (fun n => u.P (p n)) g =
      ntpMap (fun x => (u.drho x.1, u.drho x.2)) (Ntp.norms sqrt e s t p g) := by
  unfold Ntp.norms
  rw [epsilonErrors_units hu he]
  cases Ntp.epsilonErrors e s t p (.dict ⟨g.edges, none, none⟩) with
  | keyError => rfl
  | shapeError => rfl
  | ok l =>
    simp only [ntpMap, List.length_map]
    cases g.dist with
    | none => rfl
    | some d =>
      cases g.distperp with
      | none => rfl
      | some q =>
        dsimp only
        split_ifs
        · simp only [Ntp.Res.ok.injEq]
          rw [← normsOf_units hu hq, List.zip_map_left]
          rfl
        · rfl

end UnitChange
