import Verif.Props.OmegaRound
import Verif.Props.OmegaApi

/-!
# Calls of `omega_surf` in floating point arithmetic (C154)
-/

set_option linter.unusedSectionVars false

namespace Omega
open FloatLike Fzero Interp Traj VertSolve Bfs Lib
open Fl hiding nan

variable {α : Type*} [Field α] [LinearOrder α] [IsStrictOrderedRing α] {rnd : α → α}

/-- Well formed arguments in floating point: arrays, equation of state (numbers in the domain `D`, NaN for NaN), casts, links between casts with any lengths at all, either
formulation with any matrix solver (finite results of `lsqr`), pinning cast and options. -/
structure CallR (o : Opts (Rfl rnd)) (dims : Option (List String)) (coord : String → Option (List ℚ)) (S T : Nd (Rfl rnd)) (P : PArg (Rfl rnd))
    (v : ℕ) (pr : List ℕ → ℕ → Rfl rnd) (g : GridDict (Rfl rnd)) (pc : PinCast) (m0 : List ℕ) (e : α → α → α → α) (D : α → α → α → Prop)
    (l u tol : α) (n : ℕ) : Prop where
  rounding : BinRound rnd
  args : Args o.vertDim dims S T P v pr
  horiz : 2 ≤ S.shape.length
  pin : processPinCast coord pc = .ok (m0.map fun i : ℕ => (i : ℤ))
  valid : Valid (S.shape.eraseIdx v) m0
  within : ∀ x ∈ g.edges, x.1 < (S.shape.eraseIdx v).prod ∧ x.2 < (S.shape.eraseIdx v).prod
  dist : g.dist.isSome = true ∧ g.distperp.isSome = true
  form : o.formulation.toLower = "poisson" ∨ o.formulation.toLower = "gradient" ∧ ∀ R C M b i, isFinite (o.lsqr R C M b i) = true
  tolEq : o.tol = Rfl.fin tol
  tolPos : 0 < tol
  fuel : o.fuel = n + 13
  enough : (S.shape.eraseIdx v).prod < o.fuel
  low : rnd l = l
  high : rnd u = u
  pos : 0 ≤ l
  eos : EosR rnd o.eos e D
  eosNan : ∀ p, o.eos Rfl.qnan Rfl.qnan p = Rfl.qnan
  casts : ∀ m, Valid (S.shape.eraseIdx v) m → LandR (castAt S T pr v m) ∨ CastOKR o.kind D l u tol n (castAt S T pr v m)
  diags : o.diags = true → 1 ≤ o.iterMax

/-- The initial pressures are floating point numbers (or NaN or infinite), an array has the horizontal shape, and the pressure at the pinning cast is `p0`. -/
def StartsR (hs m0 : List ℕ) (p0 : Rfl rnd) : PArgInit (Rfl rnd) → Prop
  | .scalar p => p = p0 ∧ ∀ z, p = Rfl.fin z → rnd z = z
  | .array p => p.shape = hs ∧ p.get m0 = p0 ∧ ∀ m z, p.get m = Rfl.fin z → rnd z = z
  | .other => False

theorem two_fst {F : Type*} [FloatLike F] {f : Arr F → Arr F → ℕ → Option (List F)} {X Y Z : Arr F} {x v w : F} {d : ℕ}
    (h : ppinterp1Two f x X Y Z d = some (v, w)) : ppinterp1 f x X Y d = some v := by
  unfold ppinterp1Two at h
  unfold ppinterp1
  dsimp only at h ⊢
  split_ifs at h ⊢
  · cases h; rfl
  · cases h1 : f X Y (pieceIndex X (validRange2 X Y).1 (validRange2 X Y).2 x) <;> rw [h1] at h <;>
    cases h2 : f X Z (pieceIndex X (validRange2 X Y).1 (validRange2 X Y).2 x) <;> rw [h2] at h <;> simp_all

/-- **C154** A call of `omega_surf` in floating point with well formed arguments and any matrix solver, from an initial surface not above the mixed layer at the pinning cast,
raises a `RuntimeError` (no bottle of the pinning cast is at the initial pressure) or returns a surface of the horizontal shape of `S`: at the pinning cast the
bottle of that cast at the initial pressure, exactly; at every other cast a bottle of that cast, or NaN pressure or, only if there are passes with wetting and three or more
links at the cast, a bottle of NaN salinity and temperature with pressure next to the data (C151). -/
theorem omegaSurf_float {o : Opts (Rfl rnd)} {dims : Option (List String)} {coord : String → Option (List ℚ)} {S T : Nd (Rfl rnd)} {P : PArg (Rfl rnd)}
    {v : ℕ} {pr : List ℕ → ℕ → Rfl rnd} {g : GridDict (Rfl rnd)} {pc : PinCast} {m0 : List ℕ} {e : α → α → α → α} {D : α → α → α → Prop}
    {l u tol : α} {n : ℕ} (C : CallR o dims coord S T P v pr g pc m0 e D l u tol n) {init : PArgInit (Rfl rnd)} {p0 : Rfl rnd}
    (hI : StartsR (S.shape.eraseIdx v) m0 p0 init) (hml : ∀ x, o.pml = some x → x.shape = S.shape.eraseIdx v ∧ lt p0 (x.get m0) = false) :
    (omegaSurf o dims coord S T P g pc init = .runtimeError ∧ ¬ ∃ s t, OnR o.kind (castAt S T pr v m0) D l u (s, t, p0)) ∨
    ∃ out st, omegaSurf o dims coord S T P g pc init = .ok (S.shape.eraseIdx v, out, st) ∧
      (∃ s0 t0, out m0 = (s0, t0, p0) ∧ OnR o.kind (castAt S T pr v m0) D l u (s0, t0, p0)) ∧
      (∀ m, Valid (S.shape.eraseIdx v) m → OnR o.kind (castAt S T pr v m) D l u (out m) ∨ (out m).2.2 = Rfl.qnan ∨
        (∃ iter, 1 ≤ iter ∧ iter ≤ o.iterMax ∧ o.startWet ≤ iter ∧ iter ≤ o.stopWet) ∧
          LostR (castAt S T pr v m) (Graph.otherEnds (ravel (S.shape.eraseIdx v) m) g.edges).length (out m)) ∧
      ∃ c Q, omega c Q = .ok st ∧ Follows c o (S.shape.eraseIdx v) ∧ RunR c e D l u tol Q := by
  have hne : S.shape.eraseIdx v ≠ [] := by
    intro h
    have := congrArg List.length h
    rw [List.length_eraseIdx, if_pos C.args.lt] at this
    have := C.horiz
    simp at *; omega
  obtain ⟨STP, hSTP⟩ : ∃ STP, processCasts dims S T P o.vertDim = .ok STP := by
    obtain ⟨h1, h2⟩ := processCasts_spec dims S T o.vertDim v C.args.lt C.args.dim (by rw [C.args.shape])
    have hp := C.args.press
    cases P with
    | full P => obtain ⟨_, _, _, e, _⟩ := h2 P (by rw [hp.1]); exact ⟨_, e⟩
    | small size P => obtain ⟨_, _, _, e, _⟩ := h1 size P hp.1; exact ⟨_, e⟩
  obtain ⟨a1, a2⟩ := C.args.casts hSTP
  have hhs : STP.1.shape.dropLast = S.shape.eraseIdx v := by rw [a1, List.dropLast_concat]
  obtain ⟨hs, hhs'⟩ : ∃ hs, hs = S.shape.eraseIdx v := ⟨_, rfl⟩
  have hedge : ∀ x ∈ g.edges, x.1 < hs.prod ∧ x.2 < hs.prod := by rw [hhs']; exact C.within
  obtain ⟨G, g1, -, -, g0⟩ := Graph.edgesToCsr_spec g.edges hs.prod o.garbage hedge
  obtain ⟨g2, g3⟩ := Graph.edgesToCsr_mem _ _ _ hedge G g1
  have h00 : feq (lit 0 : Rfl rnd) (lit 0) = true := by simp
  obtain ⟨ratio, hratio⟩ : ∃ ratio, distRatio g = .ok ratio := by
    obtain ⟨h1, h2⟩ := C.dist
    obtain ⟨d, hd⟩ := Option.isSome_iff_exists.1 h1
    obtain ⟨q, hq⟩ := Option.isSome_iff_exists.1 h2
    unfold distRatio
    rw [hd, hq]; exact ⟨_, rfl⟩
  obtain ⟨solver, s1, s2, s3⟩ : ∃ solver, solverOf o g.edges ratio = .ok solver ∧ PinSolver solver ∧ Total solver := by
    unfold solverOf
    rcases C.form with h | ⟨h, hl⟩
    · rw [if_pos h]
      exact ⟨_, rfl, poisson_pinSolver h00 _ _ _ _, poisson_total _ _ _ _⟩
    · rw [if_neg (by rw [h]; decide), if_pos h]
      refine ⟨_, rfl, gradient_pinSolver h00 _ _ _ _ fun R C' M b i => ?_, gradient_total _ _ _ _⟩
      have := hl R C' M b i
      revert this
      generalize o.lsqr R C' M b i = x
      intro hx
      cases x with
      | fin x =>
        show feq (Rfl.fin x - Rfl.fin x : Rfl rnd) _ = true
        simp [C.rounding.zero]
      | nan => cases hx
      | ninf => cases hx
      | pinf => cases hx
  obtain ⟨c, hc⟩ : ∃ c, c = cfgOf o hs STP.1 STP.2.1 STP.2.2 G (ravel hs m0) solver := ⟨_, rfl⟩
  have hfol : Follows c o hs := by rw [hc]; exact cfgOf_follows _ _ _ _ _ _ _ _
  have hN : c.N = hs.prod := by rw [hc]; rfl
  have hpin : c.pin = ravel hs m0 := by rw [hc]; rfl
  have hkind : c.kind = o.kind := by rw [hc]; rfl
  have hG : c.G = G := by rw [hc]; rfl
  have hv : Valid hs m0 := by rw [hhs']; exact C.valid
  have hcast : ∀ m, Valid hs m → c.casts (ravel hs m) = castAt S T pr v m := by
    intro m hm
    rw [hhs'] at hm
    rw [hc, hhs']
    exact a2 m hm
  have W : WorldR c e D l u tol n :=
    { rounding := C.rounding
      ok := ⟨by rw [hG, hN]; exact g3, by rw [hpin, hN]; exact ravel_lt hv, by rw [hN, hhs', hc]; exact C.enough⟩
      tolEq := hfol.tol.trans C.tolEq
      tolPos := C.tolPos
      fuel := by rw [hc]; exact C.fuel
      low := C.low
      high := C.high
      pos := C.pos
      eos := by rw [hfol.eos]; exact C.eos
      eosNan := by rw [hfol.eos]; exact C.eosNan
      casts := by
        intro m hm
        rw [hN] at hm
        obtain ⟨u1, u2⟩ := valid_unravel hm
        rw [← u2, hcast _ u1, hkind]
        exact C.casts _ (by rw [← hhs']; exact u1)
      pinZero := by rw [hc]; exact s2
      total := by rw [hc]; exact s3 }
  rw [← hhs'] at hI hml ⊢
  obtain ⟨Q, q1, q2, q3⟩ : ∃ Q, checkInit hs init = .ok Q ∧ RepInit c.N Q ∧ pinPOf c Q = p0 := by
    cases init with
    | scalar p => exact ⟨_, rfl, hI.2, hI.1⟩
    | array p =>
      obtain ⟨i1, i2, i3⟩ := hI
      refine ⟨.array (flatten p), by rw [checkInit, if_pos i1], fun m _ z hz => i3 _ z hz, ?_⟩
      show flatten p c.pin = p0
      rw [hpin, flatten, i1, unravel_ravel hv, i2]
    | other => exact absurd hI id
  have hml' : lt (pinPOf c Q) (c.pml c.pin) = false := by
    rw [q3]
    cases hp : o.pml with
    | none =>
      rw [hfol.noml hp]
      have : (lit 1 / lit 0 : Rfl rnd) = Fl.pinf := by
        rw [Rfl.lit_eq, Rfl.lit_eq]
        show Rfl.round rnd (Fl.div (Fl.fin _) (Fl.fin _)) = _
        simp [Fl.div, Rfl.round, C.rounding.zero, C.rounding.one]
      rw [this]
      show Fl.lt p0 (Fl.neg Fl.pinf) = false
      cases p0 <;> rfl
    | some x =>
      obtain ⟨b1, b2⟩ := hml x hp
      rw [hpin, hfol.pml x hp b1 m0 hv]
      exact b2
  have hd : c.diags = true → 1 ≤ c.iterMax := by rw [hfol.diags, hfol.iterMax]; exact C.diags
  have hrun : omegaSurf o dims coord S T P g pc init = (ofIter (omega c Q)).bind fun st => .ok (hs, reshapeGet hs st.stp, st) := by
    unfold omegaSurf
    rw [C.pin, hSTP]
    simp only [ofLib, FRes.bind, hhs, ← hhs']
    rw [if_neg (by rw [hhs']; exact hne), ravelMultiIndex_ok.2 ⟨m0, rfl, hv, rfl⟩]
    simp only [FRes.bind]
    rw [hratio]
    simp only [FRes.bind]
    rw [g1]
    simp only [ofGraph, FRes.bind]
    rw [s1]
    simp only
    rw [q1]
    simp only
    rw [← hc]
  rcases omega_float W q2 hml' hd with ⟨h, h'⟩ | hR
  · left
    refine ⟨by rw [hrun, h]; rfl, ?_⟩
    rintro ⟨s, t, ⟨s1, t1, p1, he, -⟩, h2, -⟩
    rw [q3, hpin] at h'
    have h3 : interpAt o.kind p0 (castAt S T pr v m0).P (castAt S T pr v m0).S = some Rfl.qnan := by
      rw [← hcast _ hv, ← hkind]
      unfold interpTwo at h'
      cases hk : c.kind with
      | linear => rw [hk] at h'; exact two_fst h'
      | pchip => rw [hk] at h'; exact two_fst h'
    rw [h3] at h2
    have hs1 : s = Rfl.fin s1 := congrArg Prod.fst he
    have h2 : (Rfl.qnan : Rfl rnd) = s := Option.some.inj h2
    exact Rfl.fin_ne_qnan _ (hs1.symm.trans h2.symm)
  · right
    obtain ⟨st, stp0, s0, t0, r1, -, -, r3, -, r5, r6, -⟩ := id hR
    refine ⟨reshapeGet hs st.stp, st, by rw [hrun, r1]; rfl, ⟨s0, t0, ?_, ?_⟩, ?_, c, Q, r1, hfol, hR⟩
    · rw [reshape_ravel _ hv, ← hpin, r5, q3]
    · rw [hkind, hpin, hcast _ hv, q3] at r6; exact r6
    · intro m hm
      rw [reshape_ravel _ hm, ← hcast m hm, ← hkind]
      rcases r3 _ (by rw [hN]; exact ravel_lt hm) with h | h | ⟨⟨iter, w⟩, h⟩
      · exact Or.inl h
      · exact Or.inr (Or.inl h)
      · refine Or.inr (Or.inr ⟨⟨iter, by rw [← hfol.iterMax, ← hfol.startWet, ← hfol.stopWet]; exact w⟩, ?_⟩)
        rw [hG, g0] at h
        exact h

/-- **C154** In double precision, on grids with at most four links at each cast, a lost bottle has exactly three links. -/
theorem lost_three [FloorRing α] {c : Cast (Rfl (Rounding53.rndNear (α := α)))} {d : ℕ} (hd : d ≤ 4)
    {x : Rfl (Rounding53.rndNear (α := α)) × Rfl (Rounding53.rndNear (α := α)) × Rfl (Rounding53.rndNear (α := α))} (h : LostR c d x) :
    ∃ (p : α) (k K : ℕ) (a s t : ℕ → α), x = (Rfl.qnan, Rfl.qnan, Rfl.fin p) ∧ GoodCastR c k K a s t ∧ ¬ (a k ≤ p ∧ p ≤ a (K - 1)) ∧ 3 ≤ d ∧
      a k * (1 - 1 / 2 ^ 53) ^ 4 / (1 + 1 / 2 ^ 53) ≤ p ∧ p ≤ a (K - 1) * (1 + 1 / 2 ^ 53) ^ 4 / (1 - 1 / 2 ^ 53) := by
  obtain ⟨p, j, k, K, a, s, t, h1, -, h3, h4, h5, h6, h7, h8, h9⟩ := h
  have h4' : j ≠ 4 := fun h => h7 h fun x hx => Rounding53.rnd_four hx
  obtain rfl : j = 3 := by omega
  exact ⟨p, k, K, a, s, t, h1, h3, h4, h6, h8, h9⟩

/-! ## An example: four casts in a row, the last one land -/

/-- salinity and temperature of `exCastR`, NaN in the last cast -/
def floatS (rnd : ℝ → ℝ) : Nd (Rfl rnd) := ⟨[5, 1, 4], fun i => if i.getD 2 0 = 3 then Rfl.qnan else (exCastR rnd).S.get (i.getD 0 0)⟩
def floatT (rnd : ℝ → ℝ) : Nd (Rfl rnd) := ⟨[5, 1, 4], fun i => if i.getD 2 0 = 3 then Rfl.qnan else (exCastR rnd).T.get (i.getD 0 0)⟩

noncomputable def floatO (rnd : ℝ → ℝ) (spsolve : ℕ → (ℕ → ℕ → Rfl rnd) → (ℕ → Rfl rnd) → ℕ → Rfl rnd) : Opts (Rfl rnd) where
  vertDim := .int 0
  formulation := "Poisson"
  eos s t _ := s - t
  eosST _ _ _ := (Rfl.fin 1, Rfl.fin (-1))
  errs _ := (Rfl.qnan, Rfl.qnan)
  sqrt x := x
  spsolve := spsolve
  lsqr _ _ _ _ _ := Rfl.qnan
  kind := .linear
  pml := none
  tol := Rfl.fin (1 / 10)
  tolPhi := Rfl.fin 0
  tolP := Rfl.fin 0
  diags := true
  iterMin := 1
  iterMax := 10
  startWet := 1
  stopWet := 5
  nrep := 10
  garbage _ := 0
  fuel := 100 + 13

theorem float_call {rnd : ℝ → ℝ} (R : BinRound rnd) (spsolve) :
    CallR (floatO rnd spsolve) none (fun _ => none) (floatS rnd) (floatT rnd) (.small 5 (exCastR rnd).P.get) 0 (fun _ k => (exCastR rnd).P.get k)
      ⟨[(0, 1), (1, 2), (2, 3)], some [Rfl.fin 1, Rfl.qnan, Rfl.fin 0], some [Rfl.fin 1, Rfl.fin 2, Rfl.fin 3]⟩ (.tuple [0, 1]) [0, 1]
      (fun s t _ => rnd (s - t)) exBox.In 0 4 (1 / 10) 100 where
  rounding := R
  args := ⟨rfl, by show 0 < 3; norm_num, rfl, rfl, fun _ _ => rfl⟩
  horiz := by show 2 ≤ 3; norm_num
  pin := rfl
  valid := by unfold Valid; simp [floatS]
  within := by simp [floatS]
  dist := ⟨rfl, rfl⟩
  form := Or.inl (by show "Poisson".toLower = _; decide +kernel)
  tolEq := rfl
  tolPos := by norm_num
  fuel := rfl
  enough := by show 4 < 113; norm_num
  low := R.zero
  high := (floatWorld R spsolve).high
  pos := le_refl _
  eos := (exEosBox R.toStdRound).val
  eosNan := fun _ => rfl
  casts := by
    intro m hm
    obtain ⟨j, hj⟩ : ∃ j, castAt (floatS rnd) (floatT rnd) (fun _ k => (exCastR rnd).P.get k) 0 m = ⟨⟨5, fun k => if j = 3 then Rfl.qnan else (exCastR rnd).S.get k⟩,
        ⟨5, fun k => if j = 3 then Rfl.qnan else (exCastR rnd).T.get k⟩, (exCastR rnd).P⟩ := by
      have hm : Valid [1, 4] m := hm
      unfold Valid at hm
      rcases m with _ | ⟨i, _ | ⟨j, _ | ⟨_, _⟩⟩⟩
      · simp at hm
      · simp at hm
      · exact ⟨j, rfl⟩
      · simp at hm
    rw [hj]
    by_cases h : j = 3
    · left; simp only [h, if_true]; exact ⟨Nat.le_of_ble_eq_true rfl, Nat.le_of_ble_eq_true rfl⟩
    · right; simp only [h, if_false]; exact exOKR R
  diags := by intro _; show 1 ≤ 10; norm_num

/-- Whatever `spsolve` returns, the call returns a surface through the bottle at the pressure 1 of the second cast; the lengths of the links are 1, NaN and 0. -/
example {rnd : ℝ → ℝ} (R : BinRound rnd) (spsolve) : ∃ out st, omegaSurf (floatO rnd spsolve) none (fun _ => none) (floatS rnd) (floatT rnd)
    (.small 5 (exCastR rnd).P.get) ⟨[(0, 1), (1, 2), (2, 3)], some [Rfl.fin 1, Rfl.qnan, Rfl.fin 0], some [Rfl.fin 1, Rfl.fin 2, Rfl.fin 3]⟩
    (.tuple [0, 1]) (.scalar (Rfl.fin 1)) = .ok ([1, 4], out, st) ∧ (out [0, 1]).2.2 = Rfl.fin 1 ∧
    ∀ j < 4, PointR exBox.In 0 4 (out [0, j]) ∨ (out [0, j]).2.2 = Rfl.qnan := by
  rcases omegaSurf_float (float_call R spsolve) (init := .scalar (Rfl.fin 1)) (p0 := Rfl.fin 1)
    ⟨rfl, fun z hz => by rw [← Rfl.fin_inj.1 hz]; exact R.one⟩ (by intro x hx; cases hx) with ⟨-, h⟩ | ⟨out, st, h1, ⟨s0, t0, h2, -⟩, h3, -⟩
  · exfalso
    obtain ⟨Sp, Tp, gS, gT, -, -, -, -, h3⟩ := exGoodR.curves R.toStdRound .linear (D := fun _ _ _ => True) (pr := fun x => x) (fun _ _ _ _ _ _ _ => trivial)
    obtain ⟨-, i1, i2, -⟩ := h3 1 (by norm_num [exA]) (by norm_num [exA])
    obtain ⟨k, K, a, s, t, G, hs, -⟩ := exOKR R
    obtain ⟨_, _, _, _, hin⟩ := (exCastBox R).inside R.toStdRound .linear
    refine h ⟨Rfl.fin (gS 1), Rfl.fin (gT 1), ⟨gS 1, gT 1, 1, rfl, fun q q1 q2 => ?_, by norm_num, by norm_num, R.one⟩, i1, i2⟩
    exact ((hin 1 (by norm_num [exA]) (by norm_num [exA])).2.2.2 _ _ i1 i2).1 q q1 q2
  · refine ⟨out, st, h1, by rw [h2], fun j hj => ?_⟩
    rcases h3 [0, j] (by show Valid [1, 4] _; unfold Valid; simpa using hj) with h | h | ⟨-, _, _, _, _, _, _, _, _, _, _, _, h4, h5, _⟩
    · exact Or.inl h.1
    · exact Or.inr h
    · exfalso
      have : (Graph.otherEnds (ravel [1, 4] [0, j]) [(0, 1), (1, 2), (2, 3)]).length ≤ 2 := by interval_cases j <;> decide
      have h5 : _ ≤ (Graph.otherEnds (ravel [1, 4] [0, j]) [(0, 1), (1, 2), (2, 3)]).length := h5
      omega

end Omega
