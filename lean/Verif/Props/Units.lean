import Verif.Lemmas.ScaleInterp
import Verif.Model.Isopycnal
import Verif.Model.Omega
import Verif.Model.MixedLayer

/-!
# Units do not matter (C143)

Salinity and temperature in other units (times a positive constant, plus a constant), pressure in another unit (times a positive constant), density
in another unit (times a positive constant, plus a constant): all results are the former results in these units.
-/

set_option linter.unusedSectionVars false

namespace UnitChange
open FloatLike Fzero Interp Traj VertSolve
open Fl hiding nan
variable {α : Type*} [Field α] [LinearOrder α] [IsStrictOrderedRing α]

/-- A change of units: `S' = aS S + bS`, `T' = aT T + bT`, `P' = h P`, density `k ρ + c`. -/
structure Change (α : Type*) where
  (aS bS aT bT h k c : α)

/-- units are positive -/
structure Change.Pos (u : Change α) : Prop where
  aS : 0 < u.aS
  aT : 0 < u.aT
  h : 0 < u.h
  k : 0 < u.k

/-- salinity in the new units -/
def Change.S (u : Change α) : Fl α → Fl α := aff u.aS u.bS
/-- temperature in the new units -/
def Change.T (u : Change α) : Fl α → Fl α := aff u.aT u.bT
/-- pressure in the new units -/
def Change.P (u : Change α) : Fl α → Fl α := sc u.h
/-- density in the new units -/
def Change.rho (u : Change α) : Fl α → Fl α := aff u.k u.c
/-- differences of density in the new units -/
def Change.drho (u : Change α) : Fl α → Fl α := sc u.k
/-- a bottle in the new units -/
def Change.stp (u : Change α) (b : Fl α × Fl α × Fl α) : Fl α × Fl α × Fl α := (u.S b.1, u.T b.2.1, u.P b.2.2)
/-- a cast in the new units -/
def Change.cast (u : Change α) (c : Cast (Fl α)) : Cast (Fl α) := ⟨c.S.map u.S, c.T.map u.T, c.P.map u.P⟩

/-- `eos'` is the equation of state `eos` in the new units. -/
def Change.Eos (u : Change α) (eos eos' : Fl α → Fl α → Fl α → Fl α) : Prop :=
  ∀ s t p, eos' (u.S s) (u.T t) (u.P p) = u.rho (eos s t p)

variable {u : Change α} (hu : u.Pos)
include hu

omit hu in
theorem ppcFn_row {F : Type*} [FloatLike F] {kind : PPKind} {X Y : Arr F} {C : PPC F} (h : ppcFn kind X Y = some C) (i : ℕ) : C.row i ≠ [] := by
  cases kind with
  | linear =>
    obtain rfl := Option.some.inj h
    exact List.cons_ne_nil _ _
  | pchip =>
    have h : pchipCoeffsAux X Y 0 X.size = some C := h
    have hrow : ∀ {k K j r}, pchipRow X Y k K j = some r → r ≠ [] := by
      intro k K j r hr
      unfold pchipRow hermite at hr
      simp only [Option.bind_eq_bind, Option.bind_eq_some_iff, Option.pure_def, Option.some.injEq] at hr
      obtain ⟨_, _, _, _, _, _, _, _, _, _, rfl⟩ := hr
      exact List.cons_ne_nil _ _
    unfold pchipCoeffsAux at h
    dsimp only at h
    split_ifs at h with h1 h2 h3
    · obtain rfl := Option.some.inj h
      dsimp only
      split_ifs with h4
      · cases hr : pchipRow X Y 0 X.size i with
        | none => exact List.cons_ne_nil _ _
        | some r => exact hrow hr
      · exact List.cons_ne_nil _ _
    · simp only [Option.bind_eq_bind, Option.bind_eq_some_iff, Option.pure_def, Option.some.injEq] at h
      obtain ⟨_, _, rfl⟩ := h
      dsimp only
      split_ifs <;> exact List.cons_ne_nil _ _
    · obtain rfl := Option.some.inj h
      exact List.cons_ne_nil _ _

theorem ppval1NonanTwo_units {P : Arr (Fl α)} {C D : PPC (Fl α)} (hC : ∀ i, C.row i ≠ []) (hD : ∀ i, D.row i ≠ []) (p : Fl α) :
    ppval1NonanTwo (u.P p) (P.map u.P) (scPPC u.h u.aS u.bS C) (scPPC u.h u.aT u.bT D) 0 =
      (u.S (ppval1NonanTwo p P C D 0).1, u.T (ppval1NonanTwo p P C D 0).2) := by
  unfold ppval1NonanTwo
  have e1 : (isNaN (u.P p) || lt (u.P p) ((P.map u.P).get 0) || lt ((P.map u.P).get ((P.map u.P).size - 1)) (u.P p)) =
      (isNaN p || lt p (P.get 0) || lt (P.get (P.size - 1)) p) := by
    show (isNaN (sc u.h p) || lt (sc u.h p) (sc u.h (P.get 0)) || lt (sc u.h (P.get (P.size - 1))) (sc u.h p)) = _
    rw [sc_isNaN hu.h, sc_lt hu.h, sc_lt hu.h]
  have e2 : searchsorted (P.map u.P) (u.P p) = searchsorted P p := searchsorted_sc hu.h P p
  rw [e1, e2]
  split_ifs
  · rfl
  · have e3 : u.P p - (P.map u.P).get (max 0 (searchsorted P p - 1)) = sc u.h (p - P.get (max 0 (searchsorted P p - 1))) := sc_sub hu.h _ _
    dsimp only
    rw [e3]
    exact Prod.ext (pval_sc hu.h hu.aS _ _ (hC _)) (pval_sc hu.h hu.aT _ _ (hD _))

theorem ppval1Two_units {P : Arr (Fl α)} {C D : PPC (Fl α)} (hC : ∀ i, C.row i ≠ []) (hD : ∀ i, D.row i ≠ []) (p : Fl α) :
    ppval1Two (u.P p) (P.map u.P) (scPPC u.h u.aS u.bS C) (scPPC u.h u.aT u.bT D) 0 =
      (u.S (ppval1Two p P C D 0).1, u.T (ppval1Two p P C D 0).2) := by
  unfold ppval1Two
  have e0 : (scPPC u.h u.aS u.bS C).lastCol = C.lastCol.map (aff u.aS u.bS) := by
    unfold PPC.lastCol scPPC Arr.map
    simp only [scRow_last]
  have e1 : validRange2 (P.map u.P) (scPPC u.h u.aS u.bS C).lastCol = validRange2 P C.lastCol := by
    rw [e0]
    exact validRange2_sc hu.h hu.aS P _
  dsimp only
  rw [e1]
  have e2 := outside_sc hu.h P (validRange2 P C.lastCol).1 (validRange2 P C.lastCol).2 p
  have e3 := pieceIndex_sc hu.h P (validRange2 P C.lastCol).1 (validRange2 P C.lastCol).2 p
  unfold Change.P
  rw [e2, e3]
  split_ifs
  · rfl
  · generalize pieceIndex P (validRange2 P C.lastCol).1 (validRange2 P C.lastCol).2 p = i
    have e4 : sc u.h p - (P.map (sc u.h)).get i = sc u.h (p - P.get i) := sc_sub hu.h _ _
    dsimp only
    rw [e4]
    exact Prod.ext (pval_sc hu.h hu.aS _ _ (hC _)) (pval_sc hu.h hu.aT _ _ (hD _))

/-! ## Root finding -/

/-- Root finding: the units of the argument and of the function do not matter. -/
theorem solveRoot_units {f f' : Fl α → Fl α} (hf : ∀ x, f' (u.P x) = u.drho (f x)) (fuel : ℕ) (x A B tol : Fl α) :
    solveRoot fuel f' (u.P x) (u.P A) (u.P B) (u.P tol) = (solveRoot fuel f x A B tol).map u.P := by
  unfold solveRoot
  have := guessToBounds_sc hu.h hu.k hf fuel x A B
  unfold Change.P at this ⊢
  rw [this]
  cases guessToBounds fuel f x A B with
  | ret ab =>
    show (if isFinite (sc u.h ab.1) = true then _ else _) = Outcome.map _ (if isFinite ab.1 = true then _ else _)
    rw [sc_isFinite hu.h]
    split_ifs
    · exact brent_sc hu.h hu.k hf fuel ab.1 ab.2 tol
    · rfl
  | zeroDiv => rfl
  | unbound => rfl
  | oob => rfl
  | outOfFuel => rfl

/-! ## Neutral tangent planes and trajectories -/

theorem rho_sub (x y : Fl α) : u.rho x - u.rho y = u.drho (x - y) := aff_sub hu.k x y

theorem mid_units (x y : Fl α) : (u.P x + u.P y) * lit (1/2) = u.P ((x + y) * lit (1/2)) := by
  unfold Change.P
  rw [sc_add hu.h, sc_mul hu.h]

theorem ntpPpc_units {eos eos'} (he : u.Eos eos eos') (fuel : ℕ) (tol s t p : Fl α) {P : Arr (Fl α)} {C D : PPC (Fl α)} (hC : ∀ i, C.row i ≠ [])
    (hD : ∀ i, D.row i ≠ []) :
    ntpPpc fuel (u.P tol) eos' (u.S s) (u.T t) (u.P p) (P.map u.P) (scPPC u.h u.aS u.bS C) (scPPC u.h u.aT u.bT D) =
      (ntpPpc fuel tol eos s t p P C D).map u.P := by
  refine solveRoot_units hu (fun x => ?_) fuel p (P.get 0) (P.get (P.size - 1)) tol
  unfold potDensDiff
  dsimp only
  rw [ppval1NonanTwo_units hu hC hD, mid_units hu, he, he, rho_sub hu]

theorem validRange_cast (c : Cast (Fl α)) : validRange2 (u.cast c).S (u.cast c).P = validRange2 c.S c.P := validRange2_aff hu.h hu.aS c.P c.S

omit hu in
theorem slice_cast (c : Cast (Fl α)) (k K : ℕ) : (u.cast c).P.slice k K = (c.P.slice k K).map u.P ∧
    (u.cast c).S.slice k K = (c.S.slice k K).map u.S ∧ (u.cast c).T.slice k K = (c.T.slice k K).map u.T := ⟨rfl, rfl, rfl⟩

/-- A neutral tangent plane calculation in other units gives the same bottle in these units. -/
theorem ntp_units {eos eos'} (he : u.Eos eos eos') (fuel : ℕ) (tol : Fl α) (kind : PPKind) (b : Fl α × Fl α × Fl α) (c : Cast (Fl α)) :
    ntpBottleToCast fuel (u.P tol) eos' kind (u.S b.1) (u.T b.2.1) (u.P b.2.2) (u.cast c) =
      (ntpBottleToCast fuel tol eos kind b.1 b.2.1 b.2.2 c).map u.stp := by
  unfold ntpBottleToCast ntpCast
  rw [validRange_cast hu]
  generalize validRange2 c.S c.P = kK
  obtain ⟨e1, e2, e3⟩ := slice_cast (u := u) c kK.1 kK.2
  dsimp only
  rw [e1, e2, e3]
  unfold Change.S Change.T
  split_ifs
  · have a1 := ppcFn_sc hu.h hu.aS (b := u.bS) kind (c.P.slice kK.1 kK.2) (c.S.slice kK.1 kK.2)
    have a2 := ppcFn_sc hu.h hu.aT (b := u.bT) kind (c.P.slice kK.1 kK.2) (c.T.slice kK.1 kK.2)
    change ppcFn kind ((c.P.slice kK.1 kK.2).map u.P) _ = _ at a1
    change ppcFn kind ((c.P.slice kK.1 kK.2).map u.P) _ = _ at a2
    rw [a1, a2]
    cases hC : ppcFn kind (c.P.slice kK.1 kK.2) (c.S.slice kK.1 kK.2) with
    | none => rfl
    | some C =>
      cases hD : ppcFn kind (c.P.slice kK.1 kK.2) (c.T.slice kK.1 kK.2) with
      | none => rfl
      | some D =>
        simp only [Option.map_some]
        have := ntpPpc_units hu he fuel tol b.1 b.2.1 b.2.2 (P := c.P.slice kK.1 kK.2) (ppcFn_row hC) (ppcFn_row hD)
        unfold Change.S Change.T at this
        rw [this]
        cases ntpPpc fuel tol eos b.1 b.2.1 b.2.2 (c.P.slice kK.1 kK.2) C D with
        | ret p =>
          show (if isFinite (sc u.h p) = true then _ else _) = Outcome.map _ (if isFinite p = true then _ else _)
          rw [sc_isFinite hu.h]
          split_ifs
          · have := ppval1NonanTwo_units hu (P := c.P.slice kK.1 kK.2) (ppcFn_row hC) (ppcFn_row hD) p
            show Outcome.ret ((ppval1NonanTwo (u.P p) _ _ _ 0).1, (ppval1NonanTwo (u.P p) _ _ _ 0).2, u.P p) = _
            rw [this]
            rfl
          · rfl
        | zeroDiv => rfl
        | unbound => rfl
        | oob => rfl
        | outOfFuel => rfl
  · rfl

theorem trajLoop_units {eos eos'} (he : u.Eos eos eos') (fuel : ℕ) (tol : Fl α) (kind : PPKind) : ∀ (cs : List (Cast (Fl α))) (b : Fl α × Fl α × Fl α),
    trajLoop fuel (u.P tol) eos' kind (u.stp b) (cs.map u.cast) = (trajLoop fuel tol eos kind b cs).map (List.map u.stp)
  | [], _ => rfl
  | c :: cs, b => by
    have ih := trajLoop_units he fuel tol kind cs
    rw [List.map_cons, trajLoop, trajLoop]
    show (ntpBottleToCast fuel (u.P tol) eos' kind (u.S b.1) (u.T b.2.1) (u.P b.2.2) (u.cast c)).bind _ = _
    rw [ntp_units hu he]
    cases ntpBottleToCast fuel tol eos kind b.1 b.2.1 b.2.2 c with
    | ret b' =>
      show (if isNaN (sc u.h b'.2.2) = true then Outcome.ret (u.stp b' :: (cs.map u.cast).map _) else _) =
        Outcome.map _ (if isNaN b'.2.2 = true then Outcome.ret (b' :: cs.map _) else _)
      rw [sc_isNaN hu.h]
      split_ifs
      · show Outcome.ret _ = Outcome.ret _
        rw [List.map_cons, List.map_map, List.map_map]
        rfl
      · rw [ih b']
        cases trajLoop fuel tol eos kind b' cs <;> rfl
    | zeroDiv => rfl
    | unbound => rfl
    | oob => rfl
    | outOfFuel => rfl

theorem trajStart_units (kind : PPKind) (p : Fl α) (c : Cast (Fl α)) :
    trajStart kind (u.P p) (u.cast c) = (trajStart kind p c).map u.stp := by
  unfold trajStart
  rw [validRange_cast hu]
  generalize validRange2 c.S c.P = kK
  obtain ⟨e1, e2, e3⟩ := slice_cast (u := u) c kK.1 kK.2
  dsimp only
  rw [e1, e2, e3]
  have e4 : ((c.P.slice kK.1 kK.2).map u.P).size = (c.P.slice kK.1 kK.2).size := rfl
  rw [e4]
  split_ifs
  · rfl
  · have a1 := ppcFn_sc hu.h hu.aS (b := u.bS) kind (c.P.slice kK.1 kK.2) (c.S.slice kK.1 kK.2)
    have a2 := ppcFn_sc hu.h hu.aT (b := u.bT) kind (c.P.slice kK.1 kK.2) (c.T.slice kK.1 kK.2)
    change ppcFn kind ((c.P.slice kK.1 kK.2).map u.P) ((c.S.slice kK.1 kK.2).map u.S) = _ at a1
    change ppcFn kind ((c.P.slice kK.1 kK.2).map u.P) ((c.T.slice kK.1 kK.2).map u.T) = _ at a2
    rw [a1, a2]
    cases hC : ppcFn kind (c.P.slice kK.1 kK.2) (c.S.slice kK.1 kK.2) with
    | none => rfl
    | some C =>
      cases hD : ppcFn kind (c.P.slice kK.1 kK.2) (c.T.slice kK.1 kK.2) with
      | none => rfl
      | some D =>
        simp only [Option.map_some]
        rw [ppval1NonanTwo_units hu (ppcFn_row hC) (ppcFn_row hD) p]
        rfl

/-- **Neutral trajectories**: in other units the trajectory is the same. -/
theorem trajectory_units {eos eos'} (he : u.Eos eos eos') (fuel : ℕ) (tol : Fl α) (kind : PPKind) (p0 : Fl α) (cs : List (Cast (Fl α))) :
    neutralTrajectory fuel (u.P tol) eos' kind (u.P p0) (cs.map u.cast) = (neutralTrajectory fuel tol eos kind p0 cs).map (List.map u.stp) := by
  cases cs with
  | nil => rfl
  | cons c cs =>
    unfold neutralTrajectory
    simp only [List.map_cons]
    rw [trajStart_units hu]
    cases trajStart kind p0 c with
    | ret b =>
      show (if isNaN (sc u.h b.2.2) = true then Outcome.ret (u.stp b :: (cs.map u.cast).map _) else _) =
        Outcome.map _ (if isNaN b.2.2 = true then Outcome.ret (b :: cs.map _) else _)
      rw [sc_isNaN hu.h]
      split_ifs
      · show Outcome.ret _ = Outcome.ret _
        rw [List.map_cons, List.map_map, List.map_map]
        rfl
      · rw [trajLoop_units hu he fuel tol kind cs b]
        cases trajLoop fuel tol eos kind b cs <;> rfl
    | zeroDiv => rfl
    | unbound => rfl
    | oob => rfl
    | outOfFuel => rfl

/-! ## Vertical solves -/

/-- one cast of `_vertsolve`, for functions `zf`, `zf'` that correspond -/
theorem vertsolve1_units {zf zf' : Arr (Fl α) → PPC (Fl α) → PPC (Fl α) → Fl α → Fl α}
    (hz : ∀ P C D x, (∀ i, C.row i ≠ []) → (∀ i, D.row i ≠ []) →
      zf' (P.map u.P) (scPPC u.h u.aS u.bS C) (scPPC u.h u.aT u.bT D) (u.P x) = u.drho (zf P C D x))
    (fuel : ℕ) (tol : Fl α) (kind : PPKind) (c : Cast (Fl α)) :
    vertsolve1 fuel (u.P tol) kind zf' (u.cast c) = (vertsolve1 fuel tol kind zf c).map u.stp := by
  unfold vertsolve1
  rw [validRange_cast hu]
  generalize validRange2 c.S c.P = kK
  obtain ⟨e1, e2, e3⟩ := slice_cast (u := u) c kK.1 kK.2
  dsimp only
  rw [e1, e2, e3]
  split_ifs
  · have a1 := ppcFn_sc hu.h hu.aS (b := u.bS) kind (c.P.slice kK.1 kK.2) (c.S.slice kK.1 kK.2)
    have a2 := ppcFn_sc hu.h hu.aT (b := u.bT) kind (c.P.slice kK.1 kK.2) (c.T.slice kK.1 kK.2)
    change ppcFn kind ((c.P.slice kK.1 kK.2).map u.P) ((c.S.slice kK.1 kK.2).map u.S) = _ at a1
    change ppcFn kind ((c.P.slice kK.1 kK.2).map u.P) ((c.T.slice kK.1 kK.2).map u.T) = _ at a2
    rw [a1, a2]
    cases hC : ppcFn kind (c.P.slice kK.1 kK.2) (c.S.slice kK.1 kK.2) with
    | none => rfl
    | some C =>
      cases hD : ppcFn kind (c.P.slice kK.1 kK.2) (c.T.slice kK.1 kK.2) with
      | none => rfl
      | some D =>
        simp only [Option.map_some]
        generalize hP : c.P.slice kK.1 kK.2 = P at *
        have hf := fun x => hz P C D x (ppcFn_row hC) (ppcFn_row hD)
        have e5 : ((P.map u.P).get 0 + (P.map u.P).get ((P.map u.P).size - 1)) * lit (1/2) = u.P ((P.get 0 + P.get (P.size - 1)) * lit (1/2)) :=
          mid_units hu _ _
        have e6 := guessToBounds_sc hu.h hu.k hf fuel ((P.get 0 + P.get (P.size - 1)) * lit (1/2)) (P.get 0) (P.get (P.size - 1))
        rw [e5]
        change guessToBounds fuel _ (u.P _) ((P.map u.P).get 0) ((P.map u.P).get ((P.map u.P).size - 1)) = _ at e6
        rw [e6]
        cases guessToBounds fuel (zf P C D) ((P.get 0 + P.get (P.size - 1)) * lit (1/2)) (P.get 0) (P.get (P.size - 1)) with
        | ret ab =>
          show (if isFinite (sc u.h ab.1) = true then _ else _) = Outcome.map _ (if isFinite ab.1 = true then _ else _)
          rw [sc_isFinite hu.h]
          split_ifs
          · have e7 := brent_sc hu.h hu.k hf fuel ab.1 ab.2 tol
            change brent fuel _ _ _ (u.P tol) = _ at e7
            show Outcome.bind (brent fuel _ (sc u.h ab.1) (sc u.h ab.2) (u.P tol)) _ = _
            rw [e7]
            cases brent fuel (zf P C D) ab.1 ab.2 tol with
            | ret p =>
              show Outcome.ret ((ppval1NonanTwo (u.P p) _ _ _ 0).1, (ppval1NonanTwo (u.P p) _ _ _ 0).2, u.P p) = _
              rw [ppval1NonanTwo_units hu (ppcFn_row hC) (ppcFn_row hD)]
              rfl
            | zeroDiv => rfl
            | unbound => rfl
            | oob => rfl
            | outOfFuel => rfl
          · rfl
        | zeroDiv => rfl
        | unbound => rfl
        | oob => rfl
        | outOfFuel => rfl
  · rfl

omit [Field α] [LinearOrder α] [IsStrictOrderedRing α] hu in
theorem update_map {A B : Type*} (g : A → B) (f : ℕ → A) (n : ℕ) (x : A) :
    (fun m => g (Function.update f n x m)) = Function.update (fun m => g (f m)) n (g x) := by
  funext m
  by_cases h : m = n
  · subst h; simp
  · simp [h]

theorem vertsolve_units {zf zf' : Arr (Fl α) → PPC (Fl α) → PPC (Fl α) → Fl α → Fl α}
    (hz : ∀ P C D x, (∀ i, C.row i ≠ []) → (∀ i, D.row i ≠ []) →
      zf' (P.map u.P) (scPPC u.h u.aS u.bS C) (scPPC u.h u.aT u.bT D) (u.P x) = u.drho (zf P C D x))
    (fuel : ℕ) (tol : Fl α) (kind : PPKind) (casts : ℕ → Cast (Fl α)) : ∀ N : ℕ,
    vertsolve fuel (u.P tol) kind zf' (fun n => u.cast (casts n)) N = (vertsolve fuel tol kind zf casts N).map fun s n => u.stp (s n)
  | 0 => rfl
  | N + 1 => by
    unfold vertsolve
    rw [vertsolve_units hz fuel tol kind casts N, vertsolve1_units hu hz]
    cases vertsolve fuel tol kind zf casts N with
    | ret s =>
      show Outcome.bind ((vertsolve1 fuel tol kind zf (casts N)).map u.stp) _ = Outcome.map _ ((vertsolve1 fuel tol kind zf (casts N)).bind _)
      cases vertsolve1 fuel tol kind zf (casts N) with
      | ret r =>
        exact congrArg Outcome.ret (update_map u.stp s N r).symm
      | zeroDiv => rfl
      | unbound => rfl
      | oob => rfl
      | outOfFuel => rfl
    | zeroDiv => rfl
    | unbound => rfl
    | oob => rfl
    | outOfFuel => rfl

theorem zeroPotential_units {eos eos'} (he : u.Eos eos eos') (ref iso : Fl α) (P : Arr (Fl α)) (C D : PPC (Fl α)) (x : Fl α)
    (hC : ∀ i, C.row i ≠ []) (hD : ∀ i, D.row i ≠ []) :
    zeroPotential eos' (P.map u.P) (scPPC u.h u.aS u.bS C) (scPPC u.h u.aT u.bT D) (u.P ref) (u.rho iso) (u.P x) =
      u.drho (zeroPotential eos P C D ref iso x) := by
  unfold zeroPotential
  dsimp only
  rw [ppval1NonanTwo_units hu hC hD, he, rho_sub hu]

theorem zeroAnomaly_units {eos eos'} (he : u.Eos eos eos') (ref : Fl α × Fl α) (iso : Fl α) (P : Arr (Fl α)) (C D : PPC (Fl α)) (x : Fl α)
    (hC : ∀ i, C.row i ≠ []) (hD : ∀ i, D.row i ≠ []) :
    zeroAnomaly eos' (P.map u.P) (scPPC u.h u.aS u.bS C) (scPPC u.h u.aT u.bT D) (u.S ref.1, u.T ref.2) (u.drho iso) (u.P x) =
      u.drho (zeroAnomaly eos P C D ref iso x) := by
  unfold zeroAnomaly
  dsimp only
  rw [ppval1NonanTwo_units hu hC hD, he, he, rho_sub hu]
  exact sc_sub hu.k _ _

theorem omegaSolve1_units {eos eos'} (he : u.Eos eos eos') (fuel : ℕ) (tol : Fl α) (kind : PPKind) (phi : Fl α) (b : Fl α × Fl α × Fl α)
    (c : Cast (Fl α)) :
    omegaSolve1 fuel (u.P tol) kind eos' (u.drho phi) (u.stp b) (u.cast c) = (omegaSolve1 fuel tol kind eos phi b c).map u.stp := by
  unfold omegaSolve1
  rw [validRange_cast hu]
  generalize validRange2 c.S c.P = kK
  obtain ⟨e1, e2, e3⟩ := slice_cast (u := u) c kK.1 kK.2
  dsimp only
  have e8 : feq (u.drho phi) (lit 0) = feq phi (lit 0) := by
    simp only [lit_eq, Rat.cast_zero]
    exact sc_feq_zero hu.k phi
  have e9 : isFinite (u.drho phi) = isFinite phi := sc_isFinite hu.k phi
  rw [e1, e2, e3, e8, e9]
  split_ifs
  · rfl
  · have a1 := ppcFn_sc hu.h hu.aS (b := u.bS) kind (c.P.slice kK.1 kK.2) (c.S.slice kK.1 kK.2)
    have a2 := ppcFn_sc hu.h hu.aT (b := u.bT) kind (c.P.slice kK.1 kK.2) (c.T.slice kK.1 kK.2)
    change ppcFn kind ((c.P.slice kK.1 kK.2).map u.P) ((c.S.slice kK.1 kK.2).map u.S) = _ at a1
    change ppcFn kind ((c.P.slice kK.1 kK.2).map u.P) ((c.T.slice kK.1 kK.2).map u.T) = _ at a2
    rw [a1, a2]
    cases hC : ppcFn kind (c.P.slice kK.1 kK.2) (c.S.slice kK.1 kK.2) with
    | none => rfl
    | some C =>
      cases hD : ppcFn kind (c.P.slice kK.1 kK.2) (c.T.slice kK.1 kK.2) with
      | none => rfl
      | some D =>
        simp only [Option.map_some]
        generalize hP : c.P.slice kK.1 kK.2 = P at *
        have e10 : eos' (u.stp b).1 (u.stp b).2.1 (u.stp b).2.2 + u.drho phi = u.rho (eos b.1 b.2.1 b.2.2 + phi) := by
          show eos' (u.S b.1) (u.T b.2.1) (u.P b.2.2) + _ = _
          rw [he]
          exact aff_add_sc hu.k _ _
        rw [e10]
        have hf := fun x => zeroPotential_units hu he b.2.2 (eos b.1 b.2.1 b.2.2 + phi) P C D x (ppcFn_row hC) (ppcFn_row hD)
        have e6 := guessToBounds_sc hu.h hu.k hf fuel b.2.2 (P.get 0) (P.get (P.size - 1))
        change guessToBounds fuel _ (u.stp b).2.2 ((P.map u.P).get 0) ((P.map u.P).get ((P.map u.P).size - 1)) = _ at e6
        show Outcome.bind (guessToBounds fuel (zeroPotential eos' (P.map u.P) (scPPC u.h u.aS u.bS C) (scPPC u.h u.aT u.bT D) (u.P b.2.2)
          (u.rho (eos b.1 b.2.1 b.2.2 + phi))) (u.stp b).2.2 ((P.map u.P).get 0) ((P.map u.P).get ((P.map u.P).size - 1))) _ = _
        rw [e6]
        generalize zeroPotential eos P C D b.2.2 (eos b.1 b.2.1 b.2.2 + phi) = f at *
        cases guessToBounds fuel f b.2.2 (P.get 0) (P.get (P.size - 1)) with
        | ret ab =>
          show (if isFinite (sc u.h ab.1) = true then _ else _) = Outcome.map _ (if isFinite ab.1 = true then _ else _)
          rw [sc_isFinite hu.h]
          split_ifs
          · have e7 := brent_sc hu.h hu.k hf fuel ab.1 ab.2 tol
            change brent fuel _ _ _ (u.P tol) = _ at e7
            show Outcome.bind (brent fuel (zeroPotential eos' (P.map u.P) (scPPC u.h u.aS u.bS C) (scPPC u.h u.aT u.bT D) (u.P b.2.2)
              (u.rho (eos b.1 b.2.1 b.2.2 + phi))) (sc u.h ab.1) (sc u.h ab.2) (u.P tol)) _ = _
            rw [e7]
            cases brent fuel f ab.1 ab.2 tol with
            | ret p =>
              show Outcome.ret ((ppval1NonanTwo (u.P p) _ _ _ 0).1, (ppval1NonanTwo (u.P p) _ _ _ 0).2, u.P p) = _
              rw [ppval1NonanTwo_units hu (ppcFn_row hC) (ppcFn_row hD)]
              rfl
            | zeroDiv => rfl
            | unbound => rfl
            | oob => rfl
            | outOfFuel => rfl
          · rfl
        | zeroDiv => rfl
        | unbound => rfl
        | oob => rfl
        | outOfFuel => rfl
  · rfl

theorem vertsolveOmega_units {eos eos'} (he : u.Eos eos eos') (fuel : ℕ) (tol : Fl α) (kind : PPKind) (phi : ℕ → Fl α) (casts : ℕ → Cast (Fl α))
    (stp : ℕ → Fl α × Fl α × Fl α) : ∀ N : ℕ,
    vertsolveOmega fuel (u.P tol) kind eos' (fun n => u.drho (phi n)) (fun n => u.cast (casts n)) (fun n => u.stp (stp n)) N =
      (vertsolveOmega fuel tol kind eos phi casts stp N).map fun s n => u.stp (s n)
  | 0 => rfl
  | N + 1 => by
    unfold vertsolveOmega
    rw [vertsolveOmega_units he fuel tol kind phi casts stp N]
    cases vertsolveOmega fuel tol kind eos phi casts stp N with
    | ret s =>
      show Outcome.bind (omegaSolve1 fuel (u.P tol) kind eos' (u.drho (phi N)) (u.stp (s N)) (u.cast (casts N))) _ =
        Outcome.map _ ((omegaSolve1 fuel tol kind eos (phi N) (s N) (casts N)).bind _)
      rw [omegaSolve1_units hu he]
      cases omegaSolve1 fuel tol kind eos (phi N) (s N) (casts N) with
      | ret r =>
        exact congrArg Outcome.ret (update_map u.stp s N r).symm
      | zeroDiv => rfl
      | unbound => rfl
      | oob => rfl
      | outOfFuel => rfl
    | zeroDiv => rfl
    | unbound => rfl
    | oob => rfl
    | outOfFuel => rfl

end UnitChange
