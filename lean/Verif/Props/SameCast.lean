import Verif.Props.OmegaLocalApi
import Verif.Props.IsoFront

/-!
# Casts that look the same to the compiled functions

The functions of the library read a cast only through its end pressures and its interpolants.
-/

set_option linter.unusedSectionVars false

namespace Same
open FloatLike Fzero Interp Traj VertSolve Bfs
variable {F : Type*} [FloatLike F]

/-- the cast has two or more valid sites -/
def Has (c : Cast F) : Prop := 1 < (validRange2 c.S c.P).2 - (validRange2 c.S c.P).1

instance (c : Cast F) : Decidable (Has c) := by unfold Has; infer_instance

/-- the valid part of an array -/
def trim (c : Cast F) (X : Arr F) : Arr F := X.slice (validRange2 c.S c.P).1 (validRange2 c.S c.P).2

def top (c : Cast F) : F := (trim c c.P).get 0
def bot (c : Cast F) : F := (trim c c.P).get ((trim c c.P).size - 1)

/-- evaluation with coefficients of the valid part, without and with the test for NaN -/
def evalN (kind : PPKind) (c : Cast F) : Option (F → F × F) :=
  match ppcFn kind (trim c c.P) (trim c c.S), ppcFn kind (trim c c.P) (trim c c.T) with
  | some A, some B => some fun x => ppval1NonanTwo x (trim c c.P) A B 0
  | _, _ => none

def evalT (kind : PPKind) (c : Cast F) : Option (F → F × F) :=
  match ppcFn kind (trim c c.P) (trim c c.S), ppcFn kind (trim c c.P) (trim c c.T) with
  | some A, some B => some fun x => ppval1Two x (trim c c.P) A B 0
  | _, _ => none

/-- Nothing that the compiled functions read distinguishes the casts, the second one perhaps with another interpolant. -/
structure SameCast (kind : PPKind) (c c' : Cast F) (kind' : PPKind := kind) : Prop where
  has : Has c' ↔ Has c
  top : Has c → top c' = top c
  bot : Has c → bot c' = bot c
  evalN : Has c → evalN kind' c' = evalN kind c
  evalT : Has c → evalT kind' c' = evalT kind c
  fly : ∀ p, Omega.interpOn kind' c' p = Omega.interpOn kind c p
  start : ∀ p, trajStart kind' p c' = trajStart kind p c
  pin : ∀ p, Isopycnal.pinST kind' c' p = Isopycnal.pinST kind c p

variable {kind kind' kind'' : PPKind} {c c' c'' : Cast F}

theorem SameCast.refl (c : Cast F) : SameCast kind c c :=
  ⟨Iff.rfl, fun _ => rfl, fun _ => rfl, fun _ => rfl, fun _ => rfl, fun _ => rfl, fun _ => rfl, fun _ => rfl⟩

theorem SameCast.symm (H : SameCast kind c c' kind') : SameCast kind' c' c kind :=
  ⟨H.has.symm, fun h => (H.top (H.has.1 h)).symm, fun h => (H.bot (H.has.1 h)).symm, fun h => (H.evalN (H.has.1 h)).symm,
    fun h => (H.evalT (H.has.1 h)).symm, fun p => (H.fly p).symm, fun p => (H.start p).symm, fun p => (H.pin p).symm⟩

theorem SameCast.trans (H : SameCast kind c c' kind') (H' : SameCast kind' c' c'' kind'') : SameCast kind c c'' kind'' :=
  ⟨H'.has.trans H.has, fun h => (H'.top (H.has.2 h)).trans (H.top h), fun h => (H'.bot (H.has.2 h)).trans (H.bot h),
    fun h => (H'.evalN (H.has.2 h)).trans (H.evalN h), fun h => (H'.evalT (H.has.2 h)).trans (H.evalT h),
    fun p => (H'.fly p).trans (H.fly p), fun p => (H'.start p).trans (H.start p), fun p => (H'.pin p).trans (H.pin p)⟩

/-! ## The compiled functions in terms of these -/

theorem ntpPpc_eval (fuel : ℕ) (tol : F) (eos : F → F → F → F) (b : F × F × F) (c : Cast F) :
    (match ppcFn kind (trim c c.P) (trim c c.S), ppcFn kind (trim c c.P) (trim c c.T) with
      | some A, some B => some (ntpPpc fuel tol eos b.1 b.2.1 b.2.2 (trim c c.P) A B)
      | _, _ => none) =
    (evalN kind c).map fun e => solveRoot fuel (fun p => eos b.1 b.2.1 ((b.2.2 + p) * lit (1/2)) - eos (e p).1 (e p).2 ((b.2.2 + p) * lit (1/2)))
      b.2.2 (top c) (bot c) tol := by
  unfold evalN
  split <;> rfl

theorem ntp_eval (fuel : ℕ) (tol : F) (eos : F → F → F → F) (sB tB pB : F) (c : Cast F) :
    ntpBottleToCast fuel tol eos kind sB tB pB c =
      if Has c then
        match evalN kind c with
        | some e =>
          (solveRoot fuel (fun p => eos sB tB ((pB + p) * lit (1/2)) - eos (e p).1 (e p).2 ((pB + p) * lit (1/2))) pB (top c) (bot c) tol).bind fun p =>
            if isFinite p then .ret ((e p).1, (e p).2, p) else .ret (nan, nan, p)
        | none => .zeroDiv
      else .ret (nan, nan, nan) := by
  unfold ntpBottleToCast ntpCast evalN
  by_cases h : Has c
  · rw [if_pos h, if_pos (show 1 < (validRange2 c.S c.P).2 - (validRange2 c.S c.P).1 from h)]
    show (match ppcFn kind (trim c c.P) (trim c c.S), ppcFn kind (trim c c.P) (trim c c.T) with
      | some A, some B => _
      | _, _ => _) = _
    split <;> rfl
  · rw [if_neg h, if_neg (show ¬ 1 < (validRange2 c.S c.P).2 - (validRange2 c.S c.P).1 from h)]

theorem SameCast.ntp (H : SameCast kind c c' kind') (fuel : ℕ) (tol : F) (eos : F → F → F → F) (sB tB pB : F) :
    ntpBottleToCast fuel tol eos kind' sB tB pB c' = ntpBottleToCast fuel tol eos kind sB tB pB c := by
  rw [ntp_eval, ntp_eval]
  by_cases h : Has c
  · rw [if_pos h, if_pos (H.has.2 h), H.evalN h, H.top h, H.bot h]
  · rw [if_neg h, if_neg (fun h' => h (H.has.1 h'))]

theorem vertsolve1_eval (fuel : ℕ) (tol : F) (g : (F → F × F) → F → F) (zf : Arr F → PPC F → PPC F → F → F)
    (hz : ∀ P A B, zf P A B = g fun x => ppval1NonanTwo x P A B 0) (c : Cast F) :
    vertsolve1 fuel tol kind zf c =
      if Has c then
        match evalN kind c with
        | some e =>
          (guessToBounds fuel (g e) ((top c + bot c) * lit (1/2)) (top c) (bot c)).bind fun ab =>
            if isFinite ab.1 then (brent fuel (g e) ab.1 ab.2 tol).bind fun p => .ret ((e p).1, (e p).2, p)
            else .ret (nan, nan, nan)
        | none => .zeroDiv
      else .ret (nan, nan, nan) := by
  unfold vertsolve1 evalN
  by_cases h : Has c
  · rw [if_pos h]
    dsimp only
    rw [if_pos (show 1 < (validRange2 c.S c.P).2 - (validRange2 c.S c.P).1 from h)]
    show (match ppcFn kind (trim c c.P) (trim c c.S), ppcFn kind (trim c c.P) (trim c c.T) with
      | some A, some B => _
      | _, _ => _) = _
    split
    · rw [hz]; rfl
    · rfl
  · rw [if_neg h]
    dsimp only
    rw [if_neg (show ¬ 1 < (validRange2 c.S c.P).2 - (validRange2 c.S c.P).1 from h)]

theorem SameCast.vertsolve1 (H : SameCast kind c c' kind') (fuel : ℕ) (tol : F) (g : (F → F × F) → F → F) (zf : Arr F → PPC F → PPC F → F → F)
    (hz : ∀ P A B, zf P A B = g fun x => ppval1NonanTwo x P A B 0) :
    VertSolve.vertsolve1 fuel tol kind' zf c' = VertSolve.vertsolve1 fuel tol kind zf c := by
  rw [vertsolve1_eval _ _ g zf hz, vertsolve1_eval _ _ g zf hz]
  by_cases h : Has c
  · rw [if_pos h, if_pos (H.has.2 h), H.evalN h, H.top h, H.bot h]
  · rw [if_neg h, if_neg (fun h' => h (H.has.1 h'))]

theorem omegaSolve1_eval (fuel : ℕ) (tol : F) (eos : F → F → F → F) (phi : F) (b : F × F × F) (c : Cast F) :
    omegaSolve1 fuel tol kind eos phi b c =
      if feq phi (lit 0) then .ret b
      else if Has c ∧ isFinite phi = true then
        match evalN kind c with
        | some e =>
          (guessToBounds fuel (fun p => eos (e p).1 (e p).2 b.2.2 - (eos b.1 b.2.1 b.2.2 + phi)) b.2.2 (top c) (bot c)).bind fun ab =>
            if isFinite ab.1 then
              (brent fuel (fun p => eos (e p).1 (e p).2 b.2.2 - (eos b.1 b.2.1 b.2.2 + phi)) ab.1 ab.2 tol).bind fun p => .ret ((e p).1, (e p).2, p)
            else .ret (nan, nan, nan)
        | none => .zeroDiv
      else .ret (nan, nan, nan) := by
  unfold omegaSolve1 evalN
  by_cases h0 : feq phi (lit 0) = true
  · rw [if_pos h0, if_pos h0]
  rw [if_neg h0, if_neg h0]
  dsimp only
  by_cases h : Has c ∧ isFinite phi = true
  · rw [if_pos h, if_pos (show 1 < (validRange2 c.S c.P).2 - (validRange2 c.S c.P).1 ∧ isFinite phi = true from h)]
    show (match ppcFn kind (trim c c.P) (trim c c.S), ppcFn kind (trim c c.P) (trim c c.T) with
      | some A, some B => _
      | _, _ => _) = _
    split <;> rfl
  · rw [if_neg h, if_neg (show ¬ (1 < (validRange2 c.S c.P).2 - (validRange2 c.S c.P).1 ∧ isFinite phi = true) from h)]

theorem SameCast.omegaSolve1 (H : SameCast kind c c' kind') (fuel : ℕ) (tol : F) (eos : F → F → F → F) (phi : F) (b : F × F × F) :
    VertSolve.omegaSolve1 fuel tol kind' eos phi b c' = VertSolve.omegaSolve1 fuel tol kind eos phi b c := by
  rw [omegaSolve1_eval, omegaSolve1_eval]
  by_cases h : Has c
  · rw [H.evalN h, H.top h, H.bot h]
    simp only [h, H.has.2 h]
  · have h' : ¬ Has c' := fun h' => h (H.has.1 h')
    simp only [h, h', false_and, if_false]

/-! ## Neutral trajectory -/

theorem trajLoop_same {cs cs' : List (Cast F)} (H : List.Forall₂ (fun c c' => SameCast kind c c' kind') cs cs') (fuel : ℕ) (tol : F) (eos : F → F → F → F) (b : F × F × F) :
    trajLoop fuel tol eos kind' b cs' = trajLoop fuel tol eos kind b cs := by
  induction H generalizing b with
  | nil => rfl
  | cons h hs ih =>
    unfold trajLoop
    rw [h.ntp, List.map_const', List.map_const', hs.length_eq]
    simp only [ih]

theorem trajectory_same {cs cs' : List (Cast F)} (H : List.Forall₂ (fun c c' => SameCast kind c c' kind') cs cs') (fuel : ℕ) (tol : F) (eos : F → F → F → F) (p0 : F) :
    neutralTrajectory fuel tol eos kind' p0 cs' = neutralTrajectory fuel tol eos kind p0 cs := by
  cases H with
  | nil => rfl
  | cons h hs =>
    unfold neutralTrajectory
    dsimp only
    rw [h.start, List.map_const', List.map_const', hs.length_eq]
    simp only [trajLoop_same hs]

/-! ## Isopycnals -/

theorem vertsolve_same {casts casts' : ℕ → Cast F} (N : ℕ) (H : ∀ n < N, SameCast kind (casts n) (casts' n) kind') (fuel : ℕ) (tol : F)
    (g : (F → F × F) → F → F) (zf : Arr F → PPC F → PPC F → F → F) (hz : ∀ P A B, zf P A B = g fun x => ppval1NonanTwo x P A B 0) :
    vertsolve fuel tol kind' zf casts' N = vertsolve fuel tol kind zf casts N := by
  induction N with
  | zero => rfl
  | succ N ih =>
    unfold vertsolve
    rw [ih (fun n hn => H n (by omega)), (H N (by omega)).vertsolve1 fuel tol g zf hz]

theorem solve_same {casts casts' : ℕ → Cast F} {N : ℕ} (H : ∀ n < N, SameCast kind (casts n) (casts' n) kind') (fuel : ℕ) (tol : F)
    (eos : F → F → F → F) (ty : Isopycnal.Ans) (ref : Isopycnal.RefArg F) (isoval : F) :
    Isopycnal.solve fuel tol kind' eos ty ref isoval casts' N = Isopycnal.solve fuel tol kind eos ty ref isoval casts N := by
  unfold Isopycnal.solve
  split
  · rename_i r
    exact congrArg _ (vertsolve_same N H fuel tol (fun e p => eos (e p).1 (e p).2 r - isoval) (fun P Sp Tp => zeroPotential eos P Sp Tp r isoval) fun _ _ _ => rfl)
  · rename_i a b
    exact congrArg _ (vertsolve_same N H fuel tol (fun e p => eos (e p).1 (e p).2 p - eos a b p - isoval)
      (fun P Sp Tp => zeroAnomaly eos P Sp Tp (a, b) isoval) fun _ _ _ => rfl)
  · rfl

theorem isopycnal_same {casts casts' : ℕ → Cast F} {N : ℕ} (H : ∀ n < N, SameCast kind (casts n) (casts' n) kind') (fuel : ℕ) (tol : F)
    (eos : F → F → F → F) (ty : Isopycnal.Ans) (ref : Isopycnal.RefArg F) (isoval : Option F) (pinCast : Option ℤ) (pinP : Isopycnal.PinP F) :
    Isopycnal.isopycnal fuel tol kind' eos ty ref isoval pinCast pinP casts' N =
      Isopycnal.isopycnal fuel tol kind eos ty ref isoval pinCast pinP casts N := by
  have hn : ∀ n, pinCast.bind (Lib.npIdx N) = some n → n < N := by
    intro n hn
    cases pinCast with
    | none => cases hn
    | some i => exact (Isopycnal.npIdx_lt hn).1
  have hch : Isopycnal.choose kind' eos ty ref isoval (Isopycnal.pinOf casts' (pinCast.bind (Lib.npIdx N)) pinP) =
      Isopycnal.choose kind eos ty ref isoval (Isopycnal.pinOf casts (pinCast.bind (Lib.npIdx N)) pinP) := by
    unfold Isopycnal.choose
    cases isoval with
    | some v => rfl
    | none =>
      dsimp only
      cases h : pinCast.bind (Lib.npIdx N) with
      | none => rfl
      | some n =>
        cases pinP with
        | float x => simp only [Isopycnal.pinOf]; rw [(H n (hn n h)).pin]
        | none => rfl
        | other => rfl
  unfold Isopycnal.isopycnal
  simp only [hch, solve_same H]
  cases h : pinCast.bind (Lib.npIdx N) with
  | none => rfl
  | some n =>
    cases pinP with
    | float x => simp only [(H n (hn n h)).pin]
    | none => rfl
    | other => rfl

/-! ## Wetting, and omega surfaces -/

theorem wetPerim_same {G : Csr} {O O' : Ocean F} (hd : ∀ n, O'.data n = O.data n) (hp : ∀ n, O'.pml n = O.pml n)
    (hn : ∀ b n, O.data n = true → O'.ntpP b n = O.ntpP b n) (hs : ∀ n p, O.data n = true → O'.st n p = O.st n p) (N root : ℕ)
    (stp : ℕ → F × F × F) (garbage : ℕ → ℕ) (nrep fuel : ℕ) :
    wetPerim G O' N root stp garbage nrep fuel = wetPerim G O N root stp garbage nrep fuel := by
  have hg : ∀ stp m nb, O.data m = true → gather O' stp m nb = gather O stp m nb := by
    intro stp m nb hm
    unfold gather accept
    simp only [hn _ m hm, hp]
  have h1 : ∀ st i, wetOne G O' N st i = wetOne G O N st i := by
    intro st i
    unfold wetOne
    dsimp only
    rw [hd]
    by_cases h : O.data (st.a.qu i) = true
    · rw [if_pos h, if_pos h, hg _ _ _ h, hs _ _ h]
    · rw [if_neg h, if_neg h]
  have h2 : ∀ reps done st, wetLoop G O' N reps done st = wetLoop G O N reps done st := by
    intro reps
    induction reps with
    | zero => intro done st; rfl
    | succ reps ih =>
      intro done st
      unfold wetLoop
      simp only [h1, ih]
  unfold wetPerim
  simp only [h2]

theorem ocean_same {casts casts' : ℕ → Cast F} (H : ∀ n, SameCast kind (casts n) (casts' n) kind') (fuel : ℕ) (tol : F) (eos : F → F → F → F) (pml : ℕ → F) :
    (∀ n, (Ocean.ofCasts fuel tol eos kind' casts' pml).data n = (Ocean.ofCasts fuel tol eos kind casts pml).data n) ∧
    (∀ b n, (Ocean.ofCasts fuel tol eos kind casts pml).data n = true →
      (Ocean.ofCasts fuel tol eos kind' casts' pml).ntpP b n = (Ocean.ofCasts fuel tol eos kind casts pml).ntpP b n) ∧
    ∀ n p, (Ocean.ofCasts fuel tol eos kind casts pml).data n = true →
      (Ocean.ofCasts fuel tol eos kind' casts' pml).st n p = (Ocean.ofCasts fuel tol eos kind casts pml).st n p := by
  have hN : ∀ (kind : PPKind) (casts : ℕ → Cast F) b n, (Ocean.ofCasts fuel tol eos kind casts pml).ntpP b n =
      match (evalN kind (casts n)).map fun e => solveRoot fuel (fun p => eos b.1 b.2.1 ((b.2.2 + p) * lit (1/2)) - eos (e p).1 (e p).2 ((b.2.2 + p) * lit (1/2)))
        b.2.2 (top (casts n)) (bot (casts n)) tol with
      | some r => valueOr nan r
      | none => nan := by
    intro kind casts b n
    rw [← ntpPpc_eval]
    show (match ppcFn kind (trim (casts n) (casts n).P) (trim (casts n) (casts n).S), ppcFn kind (trim (casts n) (casts n).P) (trim (casts n) (casts n).T) with
      | some A, some B => _
      | _, _ => _) = _
    generalize ppcFn kind (trim (casts n) (casts n).P) (trim (casts n) (casts n).S) = x
    generalize ppcFn kind (trim (casts n) (casts n).P) (trim (casts n) (casts n).T) = y
    cases x <;> cases y <;> rfl
  have hT : ∀ (kind : PPKind) (casts : ℕ → Cast F) n p, (Ocean.ofCasts fuel tol eos kind casts pml).st n p =
      match evalT kind (casts n) with
      | some e => e p
      | none => (nan, nan) := by
    intro kind casts n p
    unfold evalT
    show (match ppcFn kind (trim (casts n) (casts n).P) (trim (casts n) (casts n).S), ppcFn kind (trim (casts n) (casts n).P) (trim (casts n) (casts n).T) with
      | some A, some B => _
      | _, _ => _) = _
    generalize ppcFn kind (trim (casts n) (casts n).P) (trim (casts n) (casts n).S) = x
    generalize ppcFn kind (trim (casts n) (casts n).P) (trim (casts n) (casts n).T) = y
    cases x <;> cases y <;> rfl
  refine ⟨fun n => decide_eq_decide.2 (H n).has, ?_, ?_⟩
  · intro b n h
    have h := of_decide_eq_true h
    rw [hN, hN, (H n).evalN h, (H n).top h, (H n).bot h]
  · intro n p h
    have h := of_decide_eq_true h
    rw [hT, hT, (H n).evalT h]

end Same

namespace Omega
open FloatLike Same VertSolve
variable {F : Type*} [FloatLike F]

theorem wetting_same {c : Cfg F} {casts' : ℕ → Cast F} {kind' : PPKind} (H : ∀ n, SameCast c.kind (c.casts n) (casts' n) kind') (stp : Surf F) :
    wetting { c with casts := casts', kind := kind' } stp = wetting c stp := by
  obtain ⟨h1, h2, h3⟩ := ocean_same H c.fuel c.tol c.eos c.pml
  unfold wetting
  have := wetPerim_same (G := c.G) (O := c.ocean) (O' := Cfg.ocean { c with casts := casts', kind := kind' }) h1 (fun _ => rfl) h2 h3 c.N c.pin stp c.garbage c.nrep c.fuel
  dsimp only
  rw [this]

theorem vertsolveOmega_same {kind kind' : PPKind} {casts casts' : ℕ → Cast F} (H : ∀ n, SameCast kind (casts n) (casts' n) kind') (fuel : ℕ) (tol : F)
    (eos : F → F → F → F) (phi : ℕ → F) (stp : ℕ → F × F × F) (N : ℕ) :
    vertsolveOmega fuel tol kind' eos phi casts' stp N = vertsolveOmega fuel tol kind eos phi casts stp N := by
  induction N with
  | zero => rfl
  | succ N ih =>
    unfold vertsolveOmega
    rw [ih]
    simp only [(H N).omegaSolve1]

theorem step_same {c : Cfg F} {casts' : ℕ → Cast F} {kind' : PPKind} (H : ∀ n, SameCast c.kind (c.casts n) (casts' n) kind') (pinP : F) (iter : ℕ) (stp : Surf F) :
    step { c with casts := casts', kind := kind' } pinP iter stp = step c pinP iter stp := by
  have hr : ∀ stp, region { c with casts := casts', kind := kind' } iter stp = region c iter stp := by
    intro stp
    unfold region
    simp only [wetting_same H]
  unfold step
  rw [show removeML { c with casts := casts', kind := kind' } iter stp = removeML c iter stp from rfl, hr]
  simp only [vertsolveOmega_same H]

/-- an omega surface is the same on casts that look the same -/
theorem omega_same {c : Cfg F} {casts' : ℕ → Cast F} {kind' : PPKind} (H : ∀ n, SameCast c.kind (c.casts n) (casts' n) kind') (p0 : PInit F) :
    omega { c with casts := casts', kind := kind' } p0 = omega c p0 := by
  have hi : ∀ p n, interpTwo { c with casts := casts', kind := kind' } p n = interpTwo c p n := fun p n => (H n).fly p
  have hinit : init { c with casts := casts', kind := kind' } p0 = init c p0 := by
    unfold init initRaw
    cases p0 with
    | scalar p => simp only [hi, wetting_same H]
    | array p => simp only [hi]
  have hl : ∀ left iter s, loop { c with casts := casts', kind := kind' } (pinPOf c p0) left iter s = loop c (pinPOf c p0) left iter s := by
    intro left
    induction left with
    | zero => intro iter s; rfl
    | succ left ih =>
      intro iter s
      unfold loop
      rw [step_same H]
      simp only [ih]
      rfl
  have hp : pinPOf { c with casts := casts', kind := kind' } p0 = pinPOf c p0 := by cases p0 <;> rfl
  unfold omega
  rw [hinit, hp]
  simp only [hl]
  rfl

end Omega
