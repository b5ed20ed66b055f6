import Verif.Props.Units
import Verif.Props.OmegaMat

/-! # Units do not matter, continued: isopycnals, wetting, omega surfaces (C143) -/

set_option linter.unusedSectionVars false

namespace UnitChange
open FloatLike Fzero Interp Traj VertSolve
open Fl hiding nan
variable {α : Type*} [Field α] [LinearOrder α] [IsStrictOrderedRing α]

/-! ## Isopycnals -/

/-- map over a result -/
def isoMap {A B : Type*} (g : A → B) (r : Isopycnal.Res A) : Isopycnal.Res B := r.bind fun a => .ok (g a)

/-- the reference option in the new units -/
def Change.ref (u : Change α) : Isopycnal.RefArg (Fl α) → Isopycnal.RefArg (Fl α)
  | .none => .none
  | .float x => .float (u.P x)
  | .pair a b => .pair (a.map u.S) (b.map u.T)
  | .other => .other

/-- the pinning pressure in the new units -/
def Change.pinP (u : Change α) : Isopycnal.PinP (Fl α) → Isopycnal.PinP (Fl α)
  | .none => .none
  | .float x => .float (u.P x)
  | .other => .other

/-- the isovalue in the new units: of density (potential density surfaces), of a difference of densities (anomaly surfaces) -/
def Change.iso (u : Change α) : Isopycnal.Ans → Fl α → Fl α
  | .potential => u.rho
  | .anomaly => u.drho

variable {u : Change α} (hu : u.Pos)
include hu

theorem pinST_units (kind : PPKind) (c : Cast (Fl α)) (p : Fl α) :
    Isopycnal.pinST kind (u.cast c) (u.P p) = isoMap (fun st => (u.S st.1, u.T st.2)) (Isopycnal.pinST kind c p) := by
  unfold Isopycnal.pinST
  have e0 : validRange (Isopycnal.addArr (u.cast c).S (u.cast c).P) = validRange (Isopycnal.addArr c.S c.P) :=
    validRange_add_sc hu.h hu.aS c.P c.S c.S.size
  rw [e0]
  generalize validRange (Isopycnal.addArr c.S c.P) = kK
  obtain ⟨e1, e2, e3⟩ := slice_cast (u := u) c kK.1 kK.2
  dsimp only
  rw [e1, e2, e3]
  have a1 := ppcFn_sc hu.h hu.aS (b := u.bS) kind (c.P.slice kK.1 kK.2) (c.S.slice kK.1 kK.2)
  have a2 := ppcFn_sc hu.h hu.aT (b := u.bT) kind (c.P.slice kK.1 kK.2) (c.T.slice kK.1 kK.2)
  change ppcFn kind ((c.P.slice kK.1 kK.2).map u.P) ((c.S.slice kK.1 kK.2).map u.S) = _ at a1
  change ppcFn kind ((c.P.slice kK.1 kK.2).map u.P) ((c.T.slice kK.1 kK.2).map u.T) = _ at a2
  rw [a1, a2]
  cases hC : ppcFn kind (c.P.slice kK.1 kK.2) (c.S.slice kK.1 kK.2) with
  | none => rfl
  | some C =>
    cases hD : ppcFn kind (c.P.slice kK.1 kK.2) (c.T.slice kK.1 kK.2) with
    | none => rfl
    | some D =>
      simp only [Option.map_some]
      rw [ppval1Two_units hu (ppcFn_row hC) (ppcFn_row hD)]
      rfl

omit hu in
theorem checkRef_units (ty : Isopycnal.Ans) (ref : Isopycnal.RefArg (Fl α)) (iso : Option (Fl α)) (pinCast : Option ℤ) (pinP : Isopycnal.PinP (Fl α)) (N : ℕ) :
    Isopycnal.checkRef ty (u.ref ref) (iso.map (u.iso ty)) pinCast (u.pinP pinP) N = Isopycnal.checkRef ty ref iso pinCast pinP N := by
  cases ref <;> cases pinP <;> cases iso <;> cases ty <;> rfl

theorem choose_units {eos eos'} (he : u.Eos eos eos') (kind : PPKind) (ty : Isopycnal.Ans) (ref : Isopycnal.RefArg (Fl α)) (iso : Option (Fl α))
    (pin : Option (Cast (Fl α) × Fl α)) :
    Isopycnal.choose kind eos' ty (u.ref ref) (iso.map (u.iso ty)) (pin.map fun x => (u.cast x.1, u.P x.2)) =
      isoMap (fun ri => (u.ref ri.1, u.iso ty ri.2)) (Isopycnal.choose kind eos ty ref iso pin) := by
  have he' : ∀ s t p, eos' (u.S s) (u.T t) (u.P p) = u.rho (eos s t p) := he
  cases iso with
  | some v => rfl
  | none =>
    cases pin with
    | none => rfl
    | some x =>
      obtain ⟨c, p⟩ := x
      simp only [Isopycnal.choose, Option.map_some, Option.map_none]
      rw [pinST_units hu]
      cases Isopycnal.pinST kind c p with
      | ok st =>
        show Isopycnal.Res.bind (Isopycnal.Res.ok (u.S st.1, u.T st.2)) _ = isoMap _ (Isopycnal.Res.bind (Isopycnal.Res.ok st) _)
        simp only [Isopycnal.Res.bind]
        cases ty with
        | potential =>
          cases ref <;> simp only [Change.ref, isoMap, Isopycnal.Res.bind, he', Change.iso]
        | anomaly =>
          cases ref with
          | none => simp only [Change.ref, isoMap, Isopycnal.Res.bind, he', Change.iso, rho_sub hu, Option.map_some]
          | float x => rfl
          | other => rfl
          | pair a b =>
            cases a <;> cases b <;> simp only [Change.ref, isoMap, Isopycnal.Res.bind, he', Change.iso, rho_sub hu, Option.map_some, Option.map_none]
      | typeError => rfl
      | valueError => rfl
      | typingError => rfl
      | noReturn => rfl

omit hu in
theorem ofOutcome_map {A B : Type*} (g : A → B) (r : Outcome A) : Isopycnal.ofOutcome (r.map g) = isoMap g (Isopycnal.ofOutcome r) := by
  cases r <;> rfl

theorem solve_units {eos eos'} (he : u.Eos eos eos') (fuel : ℕ) (tol : Fl α) (kind : PPKind) (ty : Isopycnal.Ans) (ref : Isopycnal.RefArg (Fl α))
    (iso : Fl α) (casts : ℕ → Cast (Fl α)) (N : ℕ) :
    Isopycnal.solve fuel (u.P tol) kind eos' ty (u.ref ref) (u.iso ty iso) (fun n => u.cast (casts n)) N =
      isoMap (fun s n => u.stp (s n)) (Isopycnal.solve fuel tol kind eos ty ref iso casts N) := by
  cases ty with
  | potential =>
    cases ref with
    | float r =>
      show Isopycnal.ofOutcome (vertsolve _ _ _ _ _ _) = isoMap _ (Isopycnal.ofOutcome _)
      rw [← ofOutcome_map, ← vertsolve_units hu (zf' := fun P C D => zeroPotential eos' P C D (u.P r) (u.rho iso)) (fun P C D x hC hD => zeroPotential_units hu he r iso P C D x hC hD)]
      rfl
    | none => rfl
    | pair a b => rfl
    | other => rfl
  | anomaly =>
    cases ref with
    | pair a b =>
      cases a with
      | none => rfl
      | some a =>
        cases b with
        | none => rfl
        | some b =>
          show Isopycnal.ofOutcome (vertsolve _ _ _ _ _ _) = isoMap _ (Isopycnal.ofOutcome _)
          rw [← ofOutcome_map, ← vertsolve_units hu (zf' := fun P C D => zeroAnomaly eos' P C D (u.S a, u.T b) (u.drho iso)) (fun P C D x hC hD => zeroAnomaly_units hu he (a, b) iso P C D x hC hD)]
          rfl
    | none => rfl
    | float r => rfl
    | other => rfl

/-- **Isopycnals**: potential density and specific volume anomaly surfaces in other units are the same surfaces, with the same exceptions. -/
theorem isopycnal_units {eos eos'} (he : u.Eos eos eos') (fuel : ℕ) (tol : Fl α) (kind : PPKind) (ty : Isopycnal.Ans) (ref : Isopycnal.RefArg (Fl α))
    (iso : Option (Fl α)) (pinCast : Option ℤ) (pinP : Isopycnal.PinP (Fl α)) (casts : ℕ → Cast (Fl α)) (N : ℕ) :
    Isopycnal.isopycnal fuel (u.P tol) kind eos' ty (u.ref ref) (iso.map (u.iso ty)) pinCast (u.pinP pinP) (fun n => u.cast (casts n)) N =
      isoMap (fun r => (fun n => u.stp (r.1 n), u.ref r.2.1, u.iso ty r.2.2)) (Isopycnal.isopycnal fuel tol kind eos ty ref iso pinCast pinP casts N) := by
  unfold Isopycnal.isopycnal
  rw [checkRef_units]
  cases Isopycnal.checkRef ty ref iso pinCast pinP N with
  | ok _ =>
    simp only [Isopycnal.Res.bind]
    generalize pinCast.bind (Lib.npIdx N) = n
    have e1 : Isopycnal.pinOf (fun n => u.cast (casts n)) n (u.pinP pinP) = (Isopycnal.pinOf casts n pinP).map fun x => (u.cast x.1, u.P x.2) := by
      cases n <;> cases pinP <;> rfl
    rw [e1, choose_units hu he]
    cases Isopycnal.choose kind eos ty ref iso (Isopycnal.pinOf casts n pinP) with
    | ok ri =>
      simp only [Isopycnal.Res.bind, isoMap]
      rw [solve_units hu he]
      cases Isopycnal.solve fuel tol kind eos ty ri.1 ri.2 casts N with
      | ok stp =>
        simp only [Isopycnal.Res.bind, isoMap]
        cases pinP with
        | none => rfl
        | other => rfl
        | float x =>
          cases n with
          | none => rfl
          | some n =>
            simp only [Change.pinP]
            rw [pinST_units hu]
            cases Isopycnal.pinST kind (casts n) x with
            | ok st =>
              simp only [Isopycnal.Res.bind, isoMap]
              rw [update_map u.stp]
              rfl
            | typeError => rfl
            | valueError => rfl
            | typingError => rfl
            | noReturn => rfl
      | typeError => rfl
      | valueError => rfl
      | typingError => rfl
      | noReturn => rfl
    | typeError => rfl
    | valueError => rfl
    | typingError => rfl
    | noReturn => rfl
  | typeError => rfl
  | valueError => rfl
  | typingError => rfl
  | noReturn => rfl

/-! ## Wetting -/

omit hu in
/-- `O'` is the ocean `O` in the new units. -/
structure Change.Ocean (u : Change α) (O O' : Bfs.Ocean (Fl α)) : Prop where
  data : ∀ n, O'.data n = O.data n
  ntp : ∀ b n, O'.ntp (u.stp b) n = u.stp (O.ntp b n)
  ntpP : ∀ b n, O'.ntpP (u.stp b) n = u.P (O.ntpP b n)
  st : ∀ n p, O'.st n (u.P p) = (u.S (O.st n p).1, u.T (O.st n p).2)
  pml : ∀ n, O'.pml n = u.P (O.pml n)

omit hu in
theorem valueOr_map {A B : Type*} (g : A → B) (d : A) (r : Outcome A) : Bfs.valueOr (g d) (r.map g) = g (Bfs.valueOr d r) := by
  cases r <;> rfl

theorem ocean_units {eos eos'} (he : u.Eos eos eos') (fuel : ℕ) (tol : Fl α) (kind : PPKind) (c : ℕ → Cast (Fl α)) (pml : ℕ → Fl α) :
    u.Ocean (Bfs.Ocean.ofCasts fuel tol eos kind c pml) (Bfs.Ocean.ofCasts fuel (u.P tol) eos' kind (fun n => u.cast (c n)) fun n => u.P (pml n)) where
  data n := by
    unfold Bfs.Ocean.ofCasts
    dsimp only
    rw [validRange_cast hu]
  ntp b n := by
    unfold Bfs.Ocean.ofCasts
    dsimp only
    show Bfs.valueOr _ (ntpBottleToCast fuel (u.P tol) eos' kind (u.S b.1) (u.T b.2.1) (u.P b.2.2) (u.cast (c n))) = _
    rw [ntp_units hu he]
    exact valueOr_map u.stp (Fl.nan, Fl.nan, Fl.nan) _
  ntpP b n := by
    unfold Bfs.Ocean.ofCasts
    dsimp only
    rw [validRange_cast hu]
    generalize validRange2 (c n).S (c n).P = kK
    obtain ⟨e1, e2, e3⟩ := slice_cast (u := u) (c n) kK.1 kK.2
    rw [e1, e2, e3]
    have a1 := ppcFn_sc hu.h hu.aS (b := u.bS) kind ((c n).P.slice kK.1 kK.2) ((c n).S.slice kK.1 kK.2)
    have a2 := ppcFn_sc hu.h hu.aT (b := u.bT) kind ((c n).P.slice kK.1 kK.2) ((c n).T.slice kK.1 kK.2)
    change ppcFn kind (((c n).P.slice kK.1 kK.2).map u.P) (((c n).S.slice kK.1 kK.2).map u.S) = _ at a1
    change ppcFn kind (((c n).P.slice kK.1 kK.2).map u.P) (((c n).T.slice kK.1 kK.2).map u.T) = _ at a2
    rw [a1, a2]
    cases hC : ppcFn kind ((c n).P.slice kK.1 kK.2) ((c n).S.slice kK.1 kK.2) with
    | none => rfl
    | some C =>
      cases hD : ppcFn kind ((c n).P.slice kK.1 kK.2) ((c n).T.slice kK.1 kK.2) with
      | none => rfl
      | some D =>
        simp only [Option.map_some]
        have := ntpPpc_units hu he fuel tol b.1 b.2.1 b.2.2 (P := (c n).P.slice kK.1 kK.2) (ppcFn_row hC) (ppcFn_row hD)
        show Bfs.valueOr (u.P Fl.nan) (ntpPpc fuel (u.P tol) eos' (u.S b.1) (u.T b.2.1) (u.P b.2.2) _ _ _) = _
        rw [this]
        exact valueOr_map u.P Fl.nan _
  st n p := by
    unfold Bfs.Ocean.ofCasts
    dsimp only
    rw [validRange_cast hu]
    generalize validRange2 (c n).S (c n).P = kK
    obtain ⟨e1, e2, e3⟩ := slice_cast (u := u) (c n) kK.1 kK.2
    rw [e1, e2, e3]
    have a1 := ppcFn_sc hu.h hu.aS (b := u.bS) kind ((c n).P.slice kK.1 kK.2) ((c n).S.slice kK.1 kK.2)
    have a2 := ppcFn_sc hu.h hu.aT (b := u.bT) kind ((c n).P.slice kK.1 kK.2) ((c n).T.slice kK.1 kK.2)
    change ppcFn kind (((c n).P.slice kK.1 kK.2).map u.P) (((c n).S.slice kK.1 kK.2).map u.S) = _ at a1
    change ppcFn kind (((c n).P.slice kK.1 kK.2).map u.P) (((c n).T.slice kK.1 kK.2).map u.T) = _ at a2
    rw [a1, a2]
    cases hC : ppcFn kind ((c n).P.slice kK.1 kK.2) ((c n).S.slice kK.1 kK.2) with
    | none => rfl
    | some C =>
      cases hD : ppcFn kind ((c n).P.slice kK.1 kK.2) ((c n).T.slice kK.1 kK.2) with
      | none => rfl
      | some D =>
        simp only [Option.map_some]
        exact ppval1Two_units hu (ppcFn_row hC) (ppcFn_row hD) p
  pml _ := rfl

variable {O O' : Bfs.Ocean (Fl α)} (hO : u.Ocean O O')
include hO

theorem accept_units (n : ℕ) (p : Fl α) : Bfs.accept O' n (u.P p) = Bfs.accept O n p := by
  unfold Bfs.accept
  rw [hO.pml]
  show (isFinite (sc u.h p) && lt (sc u.h _) (sc u.h p)) = _
  rw [sc_isFinite hu.h, sc_lt hu.h]

omit hu hO in
/-- the variables of the search with wetting in the new units -/
def Change.wst (u : Change α) (s : Bfs.WSt (Fl α)) : Bfs.WSt (Fl α) := ⟨s.q, s.good, s.dry, fun n => u.stp (s.stp n), s.newly, s.calls⟩

theorem visitW_units (m : ℕ) (st : Bfs.WSt (Fl α)) (n : ℕ) : Bfs.visitW O' m (u.wst st) n = u.wst (Bfs.visitW O m st n) := by
  unfold Bfs.visitW
  have e1 : O'.ntp ((u.wst st).stp m) n = u.stp (O.ntp (st.stp m) n) := hO.ntp _ _
  have e2 : Bfs.accept O' n (u.stp (O.ntp (st.stp m) n)).2.2 = Bfs.accept O n (O.ntp (st.stp m) n).2.2 := accept_units hu hO _ _
  dsimp only
  rw [e1, e2, hO.data]
  have e3 : (u.wst st).good n = st.good n := rfl
  have e4 : (u.wst st).dry n = st.dry n := rfl
  rw [e3, e4]
  split_ifs
  · rfl
  · unfold Change.wst
    dsimp only
    rw [update_map u.stp]
  · rfl
  · rfl
  · rfl

theorem loopW_units (G : Csr) : ∀ (fuel hd : ℕ) (st : Bfs.WSt (Fl α)), Bfs.loopW G O' fuel hd (u.wst st) = (Bfs.loopW G O fuel hd st).map u.wst
  | 0, _, _ => rfl
  | fuel + 1, hd, st => by
    unfold Bfs.loopW
    have ef : ∀ (m : ℕ) (l : List ℕ) (st : Bfs.WSt (Fl α)), l.foldl (Bfs.visitW O' m) (u.wst st) = u.wst (l.foldl (Bfs.visitW O m) st) := by
      intro m l
      induction l with
      | nil => intro _; rfl
      | cons n l ih =>
        intro st
        rw [List.foldl_cons, List.foldl_cons, visitW_units hu hO, ih]
    by_cases h : hd < st.q.length
    · rw [dif_pos h, dif_pos (show hd < (u.wst st).q.length from h)]
      have e : (u.wst st).q[hd] = st.q[hd] := rfl
      rw [← loopW_units G fuel, ← ef]
      rfl
    · rw [dif_neg h, dif_neg (show ¬ hd < (u.wst st).q.length from h)]
      rfl

/-- The search with wetting in other units. -/
theorem bfsWet_units (G : Csr) (root : ℕ) (stp : ℕ → Fl α × Fl α × Fl α) (fuel : ℕ) :
    Bfs.bfsWet G O' root (fun n => u.stp (stp n)) fuel = (Bfs.bfsWet G O root stp fuel).map u.wst := by
  unfold Bfs.bfsWet
  have e : ∀ n, isFinite (u.stp (stp n)).2.2 = isFinite (stp n).2.2 := fun n => sc_isFinite hu.h _
  simp only [e]
  split_ifs
  · exact loopW_units hu hO G fuel 0 ⟨[root], Function.update (fun n => isFinite (stp n).2.2) root false, fun n => !isFinite (stp n).2.2, stp, 0, []⟩
  · rfl

omit hO in
theorem P_zero : u.P (lit 0) = (lit 0 : Fl α) := by
  simp only [Change.P, lit_eq, Rat.cast_zero, sc_zero]

theorem gather_units (stp : ℕ → Fl α × Fl α × Fl α) (m : ℕ) (nb : List ℕ) :
    Bfs.gather O' (fun n => u.stp (stp n)) m nb = (u.P (Bfs.gather O stp m nb).1, (Bfs.gather O stp m nb).2) := by
  unfold Bfs.gather
  have key : ∀ (nb : List ℕ) (acc : Fl α × ℕ),
      nb.foldl (fun (acc : Fl α × ℕ) n =>
        if isFinite (u.stp (stp n)).2.2 then
          let p := O'.ntpP (u.stp (stp n)) m
          if Bfs.accept O' n p then (acc.1 + p, acc.2 + 1) else acc
        else acc) (u.P acc.1, acc.2) =
      (u.P (nb.foldl (fun (acc : Fl α × ℕ) n =>
        if isFinite (stp n).2.2 then
          let p := O.ntpP (stp n) m
          if Bfs.accept O n p then (acc.1 + p, acc.2 + 1) else acc
        else acc) acc).1, (nb.foldl (fun (acc : Fl α × ℕ) n =>
        if isFinite (stp n).2.2 then
          let p := O.ntpP (stp n) m
          if Bfs.accept O n p then (acc.1 + p, acc.2 + 1) else acc
        else acc) acc).2) := by
    intro nb
    induction nb with
    | nil => intro _; rfl
    | cons n nb ih =>
      intro acc
      rw [List.foldl_cons, List.foldl_cons, ← ih]
      congr 1
      have e : isFinite (u.stp (stp n)).2.2 = isFinite (stp n).2.2 := sc_isFinite hu.h _
      dsimp only
      rw [e, hO.ntpP, accept_units hu hO]
      split_ifs
      · have : u.P acc.1 + u.P (O.ntpP (stp n) m) = u.P (acc.1 + O.ntpP (stp n) m) := sc_add hu.h _ _
        rw [this]
      · rfl
      · rfl
  have := key nb (lit 0, 0)
  rw [P_zero hu] at this
  exact this

omit hu hO in
/-- the state of the second phase of wetting in the new units -/
def Change.pst (u : Change α) (s : Bfs.PSt (Fl α)) : Bfs.PSt (Fl α) := ⟨s.a, fun n => u.stp (s.stp n), s.newly⟩

theorem wetOne_units (G : Csr) (N : ℕ) (st : Bfs.PSt (Fl α)) (i : ℕ) : Bfs.wetOne G O' N (u.pst st) i = u.pst (Bfs.wetOne G O N st i) := by
  unfold Bfs.wetOne
  have ea : (u.pst st).a = st.a := rfl
  have es : (u.pst st).stp = fun n => u.stp (st.stp n) := rfl
  dsimp only
  rw [ea, es, hO.data, gather_units hu hO]
  have ed : u.P (Bfs.gather O st.stp (st.a.qu i) (G.nbrs (st.a.qu i))).1 / lit ((Bfs.gather O st.stp (st.a.qu i) (G.nbrs (st.a.qu i))).2 : ℚ) =
      u.P ((Bfs.gather O st.stp (st.a.qu i) (G.nbrs (st.a.qu i))).1 / lit ((Bfs.gather O st.stp (st.a.qu i) (G.nbrs (st.a.qu i))).2 : ℚ)) :=
    sc_div hu.h _ _
  split_ifs with h1 _ _
  · dsimp only
    rw [ed, hO.st]
    unfold Change.pst
    dsimp only
    rw [update_map u.stp]
    rfl
  · rfl
  · rfl

theorem wetLoop_units (G : Csr) (N : ℕ) : ∀ (reps done : ℕ) (st : Bfs.PSt (Fl α)),
    Bfs.wetLoop G O' N reps done (u.pst st) = u.pst (Bfs.wetLoop G O N reps done st)
  | 0, _, _ => rfl
  | reps + 1, done, st => by
    unfold Bfs.wetLoop
    have ef : ∀ (l : List ℕ) (st : Bfs.PSt (Fl α)), l.foldl (fun st j => Bfs.wetOne G O' N st (N - 1 - j)) (u.pst st) =
        u.pst (l.foldl (fun st j => Bfs.wetOne G O N st (N - 1 - j)) st) := by
      intro l
      induction l with
      | nil => intro _; rfl
      | cons n l ih =>
        intro st
        rw [List.foldl_cons, List.foldl_cons, wetOne_units hu hO, ih]
    have ea : (u.pst st).a = st.a := rfl
    rw [ea, ef, wetLoop_units G N reps]
    split_ifs <;> rfl

/-- Wetting at the perimeter in other units. -/
theorem wetPerim_units (G : Csr) (N root : ℕ) (stp : ℕ → Fl α × Fl α × Fl α) (garbage : ℕ → ℕ) (nrep fuel : ℕ) :
    Bfs.wetPerim G O' N root (fun n => u.stp (stp n)) garbage nrep fuel = (Bfs.wetPerim G O N root stp garbage nrep fuel).map u.pst := by
  unfold Bfs.wetPerim
  have e : ∀ n, isFinite (u.stp (stp n)).2.2 = isFinite (stp n).2.2 := fun n => sc_isFinite hu.h _
  simp only [e]
  cases Bfs.searchA G N root (fun n => isFinite (stp n).2.2) garbage fuel with
  | none => rfl
  | some a =>
    simp only [Option.map_some, Option.some.injEq]
    rw [← wetLoop_units hu hO]
    congr 1
    unfold Change.pst
    dsimp only
    congr 1
    funext n
    split_ifs <;> rfl

end UnitChange
