import Verif.Props.RefineCast

/-!
# Without thermobaricity potential and anomaly surfaces are the same (C183)
-/

set_option linter.unusedSectionVars false

namespace Isopycnal
open FloatLike Fzero Interp Traj VertSolve Same
open Fl hiding nan

/-- An equation of state without thermobaricity: a function of salinity and temperature plus a function of pressure; NaN for NaN. -/
structure Separable (eos : Fl ℝ → Fl ℝ → Fl ℝ → Fl ℝ) (σ : ℝ → ℝ → ℝ) (f : ℝ → ℝ) : Prop where
  val : ∀ s t p, eos (fin s) (fin t) (fin p) = fin (σ s t + f p)
  nan : ∀ p, eos Fl.nan Fl.nan p = Fl.nan

/-- The references of the two kinds of surface: any reference pressure (or none given), any reference salinity and temperature (or one or both not given). -/
def Legal : Ans → RefArg (Fl ℝ) → Prop
  | .potential, .none => True
  | .potential, .float r => ∃ x, r = fin x
  | .anomaly, .none => True
  | .anomaly, .pair a b => ∀ x y, a = some x → b = some y → ∃ s t, x = fin s ∧ y = fin t
  | _, _ => False

/-- The isovalue of the surface on which `σ` is `v`. -/
def IsoOf (σ : ℝ → ℝ → ℝ) (f : ℝ → ℝ) (v : ℝ) : Ans → RefArg (Fl ℝ) → Fl ℝ → Prop
  | .potential, .float r, w => ∃ x, r = fin x ∧ w = fin (v + f x)
  | .anomaly, .pair (some a) (some b), w => ∃ x y, a = fin x ∧ b = fin y ∧ w = fin (v - σ x y)
  | _, _, _ => False

/-- no data, or a good cast -/
def Fine (c : Cast (Fl ℝ)) : Prop := ¬ Has c ∨ ∃ k K a s t, GoodCast c k K a s t

variable {eos : Fl ℝ → Fl ℝ → Fl ℝ → Fl ℝ} {σ : ℝ → ℝ → ℝ} {f : ℝ → ℝ} {kind : PPKind}

/-- The function of pressure whose root is sought on a cast does not depend on the kind of surface or the reference. -/
noncomputable def resid (σ : ℝ → ℝ → ℝ) (v : ℝ) (e : Fl ℝ → Fl ℝ × Fl ℝ) (p : Fl ℝ) : Fl ℝ :=
  match e p with
  | (fin s, fin t) => fin (σ s t - v)
  | _ => Fl.nan

/-- values of the interpolants: numbers where the pressure is within the data, else NaN -/
theorem good_values (kind : PPKind) {c : Cast (Fl ℝ)} {k K : ℕ} {a s t : ℕ → ℝ} (G : GoodCast c k K a s t) : ∃ g, evalN kind c = some g ∧
    (∀ p, pinST kind c p = .ok (g p)) ∧
    (∀ p, g p = (Fl.nan, Fl.nan) ∨ ∃ x s t, p = fin x ∧ g p = (fin s, fin t)) ∧ ∀ x, a k ≤ x → x ≤ a (K - 1) → ∃ s t, g (fin x) = (fin s, fin t) := by
  obtain ⟨g, i1, -, -, -, i5, -, -, -, i9⟩ := Good_read kind G
  obtain ⟨Sp, Tp, gS, gT, h1, h2, h3, h4, -⟩ := G.curves kind (smin := -∑ i ∈ Finset.range K, |s i|) fun i _ hi => by
    have h1 := Finset.single_le_sum (f := fun i => |s i|) (fun j _ => abs_nonneg _) (Finset.mem_range.2 hi)
    have h2 := neg_abs_le (s i)

    linarith
  have hg : ∀ x, ppval1NonanTwo x (c.P.slice k K) Sp Tp 0 = g x := by
    intro x
    unfold evalN trim at i5
    rw [G.S.vr.2] at i5
    dsimp only at i5
    rw [h1, h2] at i5
    exact congrFun (Option.some.inj i5) x
  have hin : ∀ x, a k ≤ x → x ≤ a (K - 1) → ∃ s t, g (fin x) = (fin s, fin t) := fun x hx hx' =>
    ⟨_, _, by rw [← hg, (h3 x hx hx').1]⟩
  refine ⟨g, i5, i9, fun p => ?_, hin⟩
  have hnan : p = Fl.nan ∨ p = Fl.ninf ∨ p = Fl.pinf → g p = (Fl.nan, Fl.nan) := by
    intro hp
    have e1 := (i1 p).1
    have e2 := (i1 p).2
    rw [Col_nan kind G.S hp] at e1
    rw [Col_nan kind G.T hp] at e2
    exact Prod.ext (Option.some.inj e1).symm (Option.some.inj e2).symm
  cases p with
  | nan => exact Or.inl (hnan (Or.inl rfl))
  | ninf => exact Or.inl (hnan (Or.inr (Or.inl rfl)))
  | pinf => exact Or.inl (hnan (Or.inr (Or.inr rfl)))
  | fin x =>
    by_cases h : x < a k ∨ a (K - 1) < x
    · left; rw [← hg]; exact h4 x h
    · rw [not_or, not_lt, not_lt] at h
      obtain ⟨s, t, h⟩ := hin x h.1 h.2
      exact Or.inr ⟨x, s, t, rfl, h⟩

/-- **C183** The solver finds the same surface, whichever kind of surface and whatever reference. -/
theorem solve_separable (E : Separable eos σ f) {casts : ℕ → Cast (Fl ℝ)} {N : ℕ} (hc : ∀ n < N, Fine (casts n)) (fuel : ℕ) (tol : Fl ℝ) {v : ℝ}
    {ty ty' : Ans} {ref ref' : RefArg (Fl ℝ)} {w w' : Fl ℝ} (h : IsoOf σ f v ty ref w) (h' : IsoOf σ f v ty' ref' w') :
    solve fuel tol kind eos ty ref w casts N = solve fuel tol kind eos ty' ref' w' casts N := by
  have key : ∀ (g : (Fl ℝ → Fl ℝ × Fl ℝ) → Fl ℝ → Fl ℝ) (zf : Arr (Fl ℝ) → PPC (Fl ℝ) → PPC (Fl ℝ) → Fl ℝ → Fl ℝ),
      (∀ P A B, zf P A B = g fun x => ppval1NonanTwo x P A B 0) →
      (∀ e : Fl ℝ → Fl ℝ × Fl ℝ, (∀ p, e p = (Fl.nan, Fl.nan) ∨ ∃ x s t, p = fin x ∧ e p = (fin s, fin t)) → g e = resid σ v e) →
      ∀ N, (∀ n < N, Fine (casts n)) → vertsolve fuel tol kind zf casts N = vertsolve fuel tol kind (fun P A B => resid σ v fun x => ppval1NonanTwo x P A B 0) casts N := by
    intro g zf hz hg N
    induction N with
    | zero => intro _; rfl
    | succ N ih =>
      intro hc
      unfold vertsolve
      rw [ih fun n hn => hc n (by omega), vertsolve1_eval _ _ g zf hz, vertsolve1_eval _ _ (resid σ v) _ fun _ _ _ => rfl]
      rcases hc N (by omega) with hn | ⟨k, K, a, s, t, G⟩
      · rw [if_neg hn, if_neg hn]
      · obtain ⟨e, e1, -, e2, -⟩ := good_values kind G
        rw [e1]
        simp only [hg e e2]
  have main : ∀ {ty : Ans} {ref : RefArg (Fl ℝ)} {w : Fl ℝ}, IsoOf σ f v ty ref w → solve fuel tol kind eos ty ref w casts N =
      ofOutcome (vertsolve fuel tol kind (fun P A B => resid σ v fun x => ppval1NonanTwo x P A B 0) casts N) := by
    intro ty ref w h
    unfold IsoOf at h
    split at h
    · obtain ⟨x, rfl, rfl⟩ := h
      refine congrArg ofOutcome (key (fun e p => eos (e p).1 (e p).2 (fin x) - fin (v + f x)) (fun P Sp Tp => zeroPotential eos P Sp Tp (fin x) (fin (v + f x)))
        (fun _ _ _ => rfl) (fun e he => ?_) N hc)
      funext p
      unfold resid
      rcases he p with h | ⟨y, s, t, rfl, h⟩
      · rw [h]; dsimp only; rw [E.nan]; rfl
      · rw [h]; dsimp only; rw [E.val]
        show fin _ = fin _
        congr 1; ring
    · obtain ⟨x, y, rfl, rfl, rfl⟩ := h
      refine congrArg ofOutcome (key (fun e p => eos (e p).1 (e p).2 p - eos (fin x) (fin y) p - fin (v - σ x y))
        (fun P Sp Tp => zeroAnomaly eos P Sp Tp (fin x, fin y) (fin (v - σ x y))) (fun _ _ _ => rfl) (fun e he => ?_) N hc)
      funext p
      unfold resid
      rcases he p with h | ⟨z, s, t, rfl, h⟩
      · rw [h]; dsimp only; rw [E.nan]; rfl
      · rw [h]; dsimp only; rw [E.val, E.val]
        show fin _ = fin _
        congr 1; ring
    · exact absurd h id
  rw [main h, main h']

theorem legal_check {ty : Ans} {ref : RefArg (Fl ℝ)} (h : Legal ty ref) {m : ℤ} {n N : ℕ} (hm : Lib.npIdx N m = some n) (q : Fl ℝ) :
    checkRef ty ref none (some m) (.float q) N = .ok () := by
  unfold Legal at h
  split at h <;> first | exact absurd h id | (unfold checkRef; simp [hm])

/-- the reference and isovalue that are chosen -/
theorem choose_separable (E : Separable eos σ f) {ty : Ans} {ref : RefArg (Fl ℝ)} (h : Legal ty ref) {c : Cast (Fl ℝ)} {q s t : ℝ}
    (hp : pinST kind c (fin q) = .ok (fin s, fin t)) : ∃ r w, choose kind eos ty ref none (some (c, fin q)) = .ok (r, w) ∧ IsoOf σ f (σ s t) ty r w := by
  unfold choose
  dsimp only
  rw [hp]
  unfold Legal at h
  split at h
  · exact ⟨_, _, rfl, q, rfl, E.val s t q⟩
  · obtain ⟨x, rfl⟩ := h
    exact ⟨_, _, rfl, x, rfl, E.val s t x⟩
  · refine ⟨_, _, rfl, s, t, rfl, rfl, ?_⟩
    dsimp only
    rw [E.val]
    show fin _ = fin _
    congr 1; ring
  · rename_i a b
    have hnone : ∃ w, eos (fin s) (fin t) (fin q) - eos (fin s) (fin t) (fin q) = w ∧ w = fin (σ s t - σ s t) := by
      refine ⟨_, rfl, ?_⟩
      rw [E.val]
      show fin _ = fin _
      congr 1; ring
    obtain ⟨w, hw, hw'⟩ := hnone
    cases a with
    | none => exact ⟨_, _, rfl, s, t, rfl, rfl, hw.trans hw'⟩
    | some a =>
      cases b with
      | none => exact ⟨_, _, rfl, s, t, rfl, rfl, hw.trans hw'⟩
      | some b =>
        obtain ⟨x, y, rfl, rfl⟩ := h a b rfl rfl
        refine ⟨_, _, rfl, x, y, rfl, rfl, ?_⟩
        dsimp only
        rw [E.val, E.val]
        show fin _ = fin _
        congr 1; ring
  · exact absurd h id

/-- **C183** Without thermobaricity the surface through a point does not depend on the kind of surface (potential density or anomaly) or on the reference
pressure, salinity and temperature: calls pinned at the same cast and pressure, within its data, return exactly the same surface. -/
theorem isopycnal_separable (E : Separable eos σ f) {casts : ℕ → Cast (Fl ℝ)} {N : ℕ} (hc : ∀ n < N, Fine (casts n)) (fuel : ℕ) (tol : Fl ℝ)
    {ty ty' : Ans} {ref ref' : RefArg (Fl ℝ)} (h : Legal ty ref) (h' : Legal ty' ref') {m : ℤ} {n : ℕ} (hm : Lib.npIdx N m = some n)
    {k K : ℕ} {a s t : ℕ → ℝ} (G : GoodCast (casts n) k K a s t) {q : ℝ} (hq : a k ≤ q) (hq' : q ≤ a (K - 1)) :
    (isopycnal fuel tol kind eos ty ref none (some m) (.float (fin q)) casts N).bind (fun r => .ok r.1) =
      (isopycnal fuel tol kind eos ty' ref' none (some m) (.float (fin q)) casts N).bind fun r => .ok r.1 := by
  obtain ⟨g, -, g1, -, g2⟩ := good_values kind G
  obtain ⟨s0, t0, hst⟩ := g2 q hq hq'
  have hp : pinST kind (casts n) (fin q) = .ok (fin s0, fin t0) := by rw [g1, hst]
  obtain ⟨r, w, c1, c2⟩ := choose_separable E h hp
  obtain ⟨r', w', c1', c2'⟩ := choose_separable E h' hp
  have hpin : pinOf casts (some n) (.float (fin q)) = some (casts n, fin q) := rfl
  have hb : (some m).bind (Lib.npIdx N) = some n := hm
  unfold isopycnal
  rw [legal_check h hm, legal_check h' hm]
  simp only [Res.bind, hb, hpin, c1, c1']
  rw [solve_separable E hc fuel tol c2 c2']
  cases solve fuel tol kind eos ty' r' w' casts N with
  | ok x => simp only [hp]
  | typeError => rfl
  | valueError => rfl
  | typingError => rfl
  | noReturn => rfl

/-- **C183** The same for calls of `potential_surf` and `anomaly_surf` with arrays. -/
theorem isoSurf_separable (E : Separable eos σ f) {d : Lib.Dim} {dims : Option (List String)} {coord : String → Option (List ℚ)} {S T : Lib.Nd (Fl ℝ)}
    {P : Lib.PArg (Fl ℝ)} {v : ℕ} {pr : List ℕ → ℕ → Fl ℝ} (A : Lib.Args d dims S T P v pr)
    (hc : ∀ m, Lib.Valid (S.shape.eraseIdx v) m → Fine (Lib.castAt S T pr v m)) (fuel : ℕ) (tol : Fl ℝ) (diags edges : Bool)
    {ty ty' : Ans} {ref ref' : RefArg (Fl ℝ)} (h : Legal ty ref) (h' : Legal ty' ref') {pc : Lib.PinCast} {l : List ℤ} {m0 : List ℕ}
    (hpc : Lib.processPinCast coord pc = .ok l) (hl : Denotes (S.shape.eraseIdx v) l m0)
    {k K : ℕ} {a s t : ℕ → ℝ} (G : GoodCast (Lib.castAt S T pr v m0) k K a s t) {q : ℝ} (hq : a k ≤ q) (hq' : q ≤ a (K - 1)) :
    (isoSurf fuel tol kind eos ty d diags edges dims coord S T P ref none (.cast pc) (.float (fin q))).bind (fun r => .ok (r.1, r.2.1)) =
      (isoSurf fuel tol kind eos ty' d diags edges dims coord S T P ref' none (.cast pc) (.float (fin q))).bind fun r => .ok (r.1, r.2.1) := by
  obtain ⟨STP, e⟩ := Omega.args_casts A
  obtain ⟨a1, a2⟩ := A.casts e
  have hh : STP.1.shape.dropLast = S.shape.eraseIdx v := by rw [a1, List.dropLast_concat]
  have hsel : select coord (.cast pc) = .ok fun hs nk => some (selTuple hs nk l) := by unfold select; dsimp only; rw [hpc]
  have hone : ∀ nk, selTuple (S.shape.eraseIdx v) nk l = .one (Lib.ravel (S.shape.eraseIdx v) m0) := by
    intro nk
    unfold selTuple
    rw [if_pos hl.1, tupleIdx_of_denotes hl]
  have hv : Lib.Valid (S.shape.eraseIdx v) m0 := hl.2.1
  have key := isopycnal_separable (kind := kind) E (casts := Lib.castsOf STP.1 STP.2.1 STP.2.2) (N := (S.shape.eraseIdx v).prod) (fun n hn => by
      obtain ⟨u1, u2⟩ := Lib.valid_unravel hn
      have := hc _ u1
      rw [← a2 _ u1, u2] at this
      exact this) fuel tol h h' (m := (Lib.ravel (S.shape.eraseIdx v) m0 : ℕ)) (n := Lib.ravel (S.shape.eraseIdx v) m0)
      (by unfold Lib.npIdx; have := Lib.ravel_lt hv; rw [if_pos (Int.natCast_nonneg _), if_pos (Nat.cast_lt.2 this), Int.toNat_natCast]) (by rw [a2 _ hv]; exact G) hq hq'
  unfold isoSurf
  rw [e, hsel]
  simp only [ofLib, Res.bind, hh, hone]
  cases hde : (diags && !edges) with
  | true => rfl
  | false =>
    simp only [Bool.false_eq_true, if_false]
    generalize isopycnal fuel tol kind eos ty ref none _ (.float (fin q)) _ _ = x at key ⊢
    generalize isopycnal fuel tol kind eos ty' ref' none _ (.float (fin q)) _ _ = y at key ⊢
    cases x <;> cases y <;> simp only [Res.bind, Res.ok.injEq, reduceCtorEq] at key ⊢
    rw [key]

/-! ## Examples -/

/-- `eos` linear in salinity and temperature, with compressibility -/
noncomputable def sepEos (s t p : Fl ℝ) : Fl ℝ := s - t + p * fin (1 / 200)

theorem sepEos_separable : Separable sepEos (fun s t => s - t) fun p => p * (1 / 200) := ⟨fun _ _ _ => rfl, fun _ => rfl⟩

/-- Surfaces of potential density referenced to 0 and to 2000, and anomaly surfaces for the reference 35, 4 and for one taken from the pinning cast, on any number of
copies of an example cast. -/
example (kind : PPKind) (fuel : ℕ) (tol : Fl ℝ) (ref : RefArg (Fl ℝ)) (ty : Ans) (h : (ty, ref) ∈ [(Ans.potential, .none), (Ans.potential, .float (fin 2000)),
      (Ans.anomaly, .none), (Ans.anomaly, .pair (some (fin 35)) (some (fin 4))), (Ans.anomaly, .pair (some (fin 35)) none)]) :
    (isopycnal fuel tol kind sepEos ty ref none (some 3) (.float (fin 2)) (fun _ => exCast) 7).bind (fun r => .ok r.1) =
      (isopycnal fuel tol kind sepEos .potential (.float (fin 0)) none (some 3) (.float (fin 2)) (fun _ => exCast) 7).bind fun r => .ok r.1 := by
  refine isopycnal_separable (n := 3) sepEos_separable (fun _ _ => Or.inr ⟨_, _, _, _, _, exGood⟩) fuel tol ?_ (ty' := .potential) (ref' := .float (fin 0)) ⟨0, rfl⟩ (by decide) exGood (by norm_num) (by norm_num)
  simp only [List.mem_cons, Prod.mk.injEq, List.not_mem_nil, or_false] at h
  rcases h with ⟨rfl, rfl⟩ | ⟨rfl, rfl⟩ | ⟨rfl, rfl⟩ | ⟨rfl, rfl⟩ | ⟨rfl, rfl⟩
  · trivial
  · exact ⟨2000, rfl⟩
  · trivial
  · rintro x y ⟨⟩ ⟨⟩; exact ⟨_, _, rfl, rfl⟩
  · rintro x y ⟨⟩ ⟨⟩

end Isopycnal
