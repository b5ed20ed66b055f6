import Verif.Props.OmegaLocalApi

/-!
# Links to land do not matter (C191)

Links of the grid that touch a cast with fewer than two consecutive data may be left out or added, without any effect on the surface of
`omega_surf`: a grid may be periodic or not across a land barrier.  Any arithmetic in which NaN behaves as it does in floating point.
-/

set_option linter.unusedSectionVars false

namespace Bfs
open FloatLike
variable {F : Type*} [FloatLike F]

/-- Two graphs with the same links inside `C`, in the same order. -/
def SameLinksIn (C : ℕ → Bool) (G G' : Csr) : Prop := ∀ m, C m = true → (G'.nbrs m).filter C = (G.nbrs m).filter C

variable {C : ℕ → Bool} {G G' : Csr} {O : Ocean F}

/-- What is left of the two queues without land. -/
def red (C : ℕ → Bool) (x : List ℕ × List ℕ) : List ℕ × List ℕ := (x.1, x.2.filter C)

theorem visit_red {f : ℕ → Bool} (hf : ∀ n, C n = false → f n = false) (x : List ℕ × List ℕ) (n : ℕ) :
    red C (visitL f x n) = if C n = true then visitL f (red C x) n else red C x := by
  unfold visitL red
  cases hc : C n with
  | false =>
    rw [hf n hc]
    by_cases h : n ∈ x.2 <;> simp [h, hc]
  | true =>
    by_cases h1 : f n = true
    · by_cases h2 : n ∈ x.1 <;> simp [h1, h2]
    · have h1 : f n = false := by simpa using h1
      by_cases h2 : n ∈ x.2 <;> simp [h1, h2, hc]

theorem visitFold_red {f : ℕ → Bool} (hf : ∀ n, C n = false → f n = false) (l : List ℕ) (x : List ℕ × List ℕ) :
    red C (l.foldl (visitL f) x) = (l.filter C).foldl (visitL f) (red C x) := by
  induction l generalizing x with
  | nil => rfl
  | cons n l ih =>
    rw [List.foldl_cons, ih, visit_red hf, List.filter_cons]
    split_ifs <;> rfl

theorem visitFold_good {f : ℕ → Bool} (l : List ℕ) (x : List ℕ × List ℕ) (hx : ∀ v ∈ x.1, f v = true) : ∀ v ∈ (l.foldl (visitL f) x).1, f v = true := by
  induction l generalizing x with
  | nil => exact hx
  | cons n l ih =>
    refine ih _ ?_
    unfold visitL
    split_ifs with h1
    · exact hx
    · intro v hv
      rcases List.mem_append.1 hv with h | h
      · exact hx v h
      · rw [List.mem_singleton.1 h]; exact h1
    · exact hx
    · exact hx

theorem loop_red (H : SameLinksIn C G G') {f : ℕ → Bool} (hf : ∀ n, C n = false → f n = false) (fuel : ℕ) :
    ∀ (hd : ℕ) (x x' : List ℕ × List ℕ), red C x' = red C x → (∀ v ∈ x.1, f v = true) →
      (loopL G' f fuel hd x').map (red C) = (loopL G f fuel hd x).map (red C) := by
  induction fuel with
  | zero => intro hd x x' _ _; rfl
  | succ fuel ih =>
    intro hd x x' e hx
    have e1 : x'.1 = x.1 := (Prod.mk.inj e).1
    obtain ⟨a, b⟩ := x
    obtain ⟨a', b'⟩ := x'
    obtain rfl : a' = a := e1
    unfold loopL
    dsimp only
    by_cases h : hd < a'.length
    · rw [dif_pos h, dif_pos h]
      have hm : C a'[hd] = true := by
        cases hc : C a'[hd] with
        | true => rfl
        | false => have := hx _ (List.getElem_mem h); rw [hf _ hc] at this; cases this
      refine ih _ _ _ ?_ (visitFold_good _ _ hx)
      rw [visitFold_red hf, visitFold_red hf, H _ hm, e]
    · rw [dif_neg h, dif_neg h]
      simp only [Option.map_some]
      rw [e]

theorem search_red (H : SameLinksIn C G G') {f : ℕ → Bool} (hf : ∀ n, C n = false → f n = false) (root fuel : ℕ) :
    (searchL G' root f fuel).map (red C) = (searchL G root f fuel).map (red C) := by
  unfold searchL
  refine loop_red H hf fuel 0 _ _ rfl ?_
  intro v hv
  dsimp only at hv
  split_ifs at hv with h
  · rw [List.mem_singleton.1 hv]; exact h
  · cases hv

/-- The surface is dry outside `C`. -/
def DryOut (C : ℕ → Bool) (stp : ℕ → F × F × F) : Prop := ∀ n, C n = false → wet stp n = false

theorem gather_red {stp : ℕ → F × F × F} (hd : DryOut C stp) (m : ℕ) (l : List ℕ) : gather O stp m l = gather O stp m (l.filter C) := by
  unfold gather
  generalize ((lit 0 : F), 0) = acc
  induction l generalizing acc with
  | nil => rfl
  | cons n l ih =>
    rw [List.foldl_cons, List.filter_cons, ih]
    cases hc : C n with
    | true => simp only [if_true, List.foldl_cons]
    | false =>
      have h : isFinite (stp n).2.2 = false := hd n hc
      simp [h]

/-- The state of the wetting search without land. -/
def redQ (C : ℕ → Bool) (x : QSt F) : QSt F := ⟨x.R.filter C, x.stp, x.newly⟩

theorem push_red {f : ℕ → Bool} (l R : List ℕ) : (l.foldl (pushL f) R).filter C = (l.filter C).foldl (pushL f) (R.filter C) := by
  induction l generalizing R with
  | nil => rfl
  | cons n l ih =>
    rw [List.foldl_cons, ih, List.filter_cons]
    cases hc : C n with
    | true =>
      simp only [if_true, List.foldl_cons]
      congr 1
      unfold pushL
      by_cases h1 : f n = true
      · simp [h1]
      · have h1 : f n = false := by simpa using h1
        by_cases h2 : n ∈ R <;> simp [h1, h2, hc]
    | false =>
      simp only [Bool.false_eq_true, if_false]
      congr 1
      unfold pushL
      split_ifs <;> simp [hc]

theorem push_prefix (f : ℕ → Bool) (l R : List ℕ) : R <+: l.foldl (pushL f) R := by
  induction l generalizing R with
  | nil => exact List.prefix_rfl
  | cons n l ih =>
    refine List.IsPrefix.trans ?_ (ih _)
    unfold pushL
    split_ifs
    · exact List.prefix_rfl
    · exact List.prefix_rfl
    · exact List.prefix_append _ _

theorem wetOne_land {f : ℕ → Bool} {m : ℕ} (hm : O.data m = false) (x : QSt F) : wetOneL G O f x m = x := by
  unfold wetOneL; rw [hm]; simp

theorem wetOne_dry (hD : ∀ n, C n = false → O.data n = false) {f : ℕ → Bool} {x : QSt F} (hx : DryOut C x.stp) (m : ℕ) :
    DryOut C (wetOneL G O f x m).stp := by
  unfold wetOneL
  dsimp only
  split_ifs with h1 h2
  · intro n hn
    have : n ≠ m := by rintro rfl; rw [hD n hn] at h1; cases h1
    show isFinite (Function.update x.stp m _ n).2.2 = false
    rw [Function.update_of_ne this]; exact hx n hn
  · exact hx
  · exact hx

theorem wetOne_red (H : SameLinksIn C G G') {f : ℕ → Bool} {x x' : QSt F} (hx : DryOut C x.stp) (e : redQ C x' = redQ C x) {m : ℕ} (hm : C m = true) :
    redQ C (wetOneL G' O f x' m) = redQ C (wetOneL G O f x m) := by
  obtain ⟨R, stp, k⟩ := x
  obtain ⟨R', stp', k'⟩ := x'
  unfold redQ at e
  simp only [QSt.mk.injEq] at e
  obtain ⟨e1, rfl, rfl⟩ := e
  unfold wetOneL
  dsimp only
  rw [gather_red hx m (G'.nbrs m), gather_red hx m (G.nbrs m), H m hm]
  split_ifs
  · unfold redQ
    dsimp only
    rw [push_red, push_red, H m hm, e1]
  · unfold redQ; simp [e1]
  · unfold redQ; simp [e1]

theorem wetFold_land (hD : ∀ n, C n = false → O.data n = false) {f : ℕ → Bool} (l : List ℕ) (x : QSt F) :
    l.foldl (wetOneL G O f) x = (l.filter C).foldl (wetOneL G O f) x := by
  induction l generalizing x with
  | nil => rfl
  | cons n l ih =>
    rw [List.foldl_cons, List.filter_cons, ih]
    cases hc : C n with
    | true => simp
    | false => rw [wetOne_land (hD n hc)]; simp

theorem wetFold_red (H : SameLinksIn C G G') (hD : ∀ n, C n = false → O.data n = false) {f : ℕ → Bool} (l : List ℕ) (hl : ∀ n ∈ l, C n = true)
    {x x' : QSt F} (hx : DryOut C x.stp) (e : redQ C x' = redQ C x) :
    redQ C (l.foldl (wetOneL G' O f) x') = redQ C (l.foldl (wetOneL G O f) x) ∧ DryOut C (l.foldl (wetOneL G O f) x).stp := by
  induction l generalizing x x' with
  | nil => exact ⟨e, hx⟩
  | cons n l ih =>
    exact ih (fun v hv => hl v (List.mem_cons_of_mem _ hv)) (wetOne_dry hD hx n) (wetOne_red H hx e (hl n List.mem_cons_self))

theorem wetFold_prefix {f : ℕ → Bool} (l : List ℕ) (x : QSt F) : x.R <+: (l.foldl (wetOneL G O f) x).R := by
  induction l generalizing x with
  | nil => exact List.prefix_rfl
  | cons n l ih =>
    refine List.IsPrefix.trans ?_ (ih _)
    unfold wetOneL
    dsimp only
    split_ifs
    · exact push_prefix _ _ _
    · exact List.prefix_rfl
    · exact List.prefix_rfl

/-- Nothing but land is left in the queue: nothing happens. -/
theorem wetLoop_land (hD : ∀ n, C n = false → O.data n = false) {f : ℕ → Bool} (reps done : ℕ) (x : QSt F) (h : (x.R.drop done).filter C = []) :
    wetLoopL G O f reps done x = x := by
  cases reps with
  | zero => rfl
  | succ reps =>
    unfold wetLoopL
    split_ifs
    · rw [wetFold_land hD, h]
      show wetLoopL G O f reps x.R.length x = x
      cases reps with
      | zero => rfl
      | succ reps => unfold wetLoopL; rw [if_neg (lt_irrefl _)]
    · rfl

theorem wetLoop_red (H : SameLinksIn C G G') (hD : ∀ n, C n = false → O.data n = false) {f : ℕ → Bool} (reps : ℕ) :
    ∀ (done done' : ℕ) (x x' : QSt F), DryOut C x.stp → redQ C x' = redQ C x → (x'.R.drop done').filter C = (x.R.drop done).filter C →
      redQ C (wetLoopL G' O f reps done' x') = redQ C (wetLoopL G O f reps done x) ∧ DryOut C (wetLoopL G O f reps done x).stp := by
  induction reps with
  | zero => intro done done' x x' hx e _; exact ⟨e, hx⟩
  | succ reps ih =>
    intro done done' x x' hx e hq
    by_cases h0 : (x.R.drop done).filter C = []
    · rw [wetLoop_land hD _ _ _ h0, wetLoop_land hD _ _ _ (hq.trans h0)]
      exact ⟨e, hx⟩
    have key : ∀ (y : QSt F) (d : ℕ), (y.R.drop d).filter C ≠ [] → d < y.R.length := by
      intro y d hh
      by_contra hc
      rw [List.drop_eq_nil_of_le (by omega)] at hh
      exact hh rfl
    unfold wetLoopL
    rw [if_pos (key x done h0), if_pos (key x' done' (by rw [hq]; exact h0))]
    obtain ⟨i1, i2⟩ := wetFold_red (O := O) (f := f) H hD ((x.R.drop done).filter C) (fun n hn => (List.mem_filter.1 hn).2) hx e
    have p1 := wetFold_prefix (G := G) (O := O) (f := f) (x.R.drop done) x
    have p2 := wetFold_prefix (G := G') (O := O) (f := f) (x'.R.drop done') x'
    rw [← wetFold_land (G := G) hD] at i1 i2
    rw [← hq, ← wetFold_land (G := G') hD] at i1
    refine ih _ _ _ _ i2 i1 ?_
    obtain ⟨a, ha⟩ := p1
    obtain ⟨b, hb⟩ := p2
    have e1 : x'.R.filter C = x.R.filter C := congrArg (fun z : QSt F => z.R) e
    have e2 : ((x'.R.drop done').foldl (wetOneL G' O f) x').R.filter C = ((x.R.drop done).foldl (wetOneL G O f) x).R.filter C := congrArg (fun z : QSt F => z.R) i1
    rw [← ha, ← hb, List.drop_left, List.drop_left]
    rw [← ha, ← hb, List.filter_append, List.filter_append, e1] at e2
    exact List.append_cancel_left e2

/-- **C191** Wetting at the perimeter does the same on two graphs that differ in links to land only. -/
theorem wetPerim_land (hnan : isFinite (nan : F) = false) (H : SameLinksIn C G G') (hD : ∀ n, C n = false → O.data n = false) {N root : ℕ}
    (hG : InRange G N) (hG' : InRange G' N) (hr : root < N) {stp : ℕ → F × F × F} (hs : DryOut C stp) (garbage : ℕ → ℕ) (nrep fuel : ℕ) :
    (wetPerim G' O N root stp garbage nrep fuel).map (fun r => (r.stp, r.newly)) = (wetPerim G O N root stp garbage nrep fuel).map (fun r => (r.stp, r.newly)) ∧
      ∀ r, wetPerim G O N root stp garbage nrep fuel = some r → DryOut C r.stp := by
  have e := search_red H (f := wet stp) hs root fuel
  have hL : (wetPerimL G' O root stp nrep fuel).map (redQ C) = (wetPerimL G O root stp nrep fuel).map (redQ C) ∧
      ∀ y, wetPerimL G O root stp nrep fuel = some y → DryOut C y.stp := by
    unfold wetPerimL
    cases h1 : searchL G root (wet stp) fuel with
    | none =>
      cases h2 : searchL G' root (wet stp) fuel with
      | none => exact ⟨rfl, fun y hy => by cases hy⟩
      | some x' => rw [h1, h2] at e; cases e
    | some x =>
      cases h2 : searchL G' root (wet stp) fuel with
      | none => rw [h1, h2] at e; cases e
      | some x' =>
        rw [h1, h2] at e
        have e : red C x' = red C x := Option.some.inj e
        have e1 : x'.1 = x.1 := (Prod.mk.inj e).1
        have e2 : x'.2.filter C = x.2.filter C := (Prod.mk.inj e).2
        have hcut : DryOut C (cutP x.1 stp) := by
          intro n hn
          unfold wet cutP
          split_ifs
          · exact hs n hn
          · exact hnan
        obtain ⟨i1, i2⟩ := wetLoop_red (O := O) (f := wet stp) H hD nrep 0 0 ⟨x.2, cutP x.1 stp, 0⟩ ⟨x'.2, cutP x'.1 stp, 0⟩ hcut
          (by unfold redQ; dsimp only; rw [e1, e2]) (by simpa using e2)
        dsimp only
        refine ⟨?_, fun y hy => by cases hy; exact i2⟩
        simp only [Option.map_some]
        rw [i1]
  obtain ⟨hL, hdry⟩ := hL
  rcases wetPerim_refines (O := O) (stp := stp) hG hr garbage nrep fuel with ⟨h1, h2⟩ | ⟨a, y, L, h1, h2, A⟩ <;>
    rcases wetPerim_refines (O := O) (stp := stp) hG' hr garbage nrep fuel with ⟨h3, h4⟩ | ⟨a', y', L', h3, h4, A'⟩
  · rw [h1, h3]; exact ⟨rfl, fun r hr => by cases hr⟩
  · rw [h2, h4] at hL; cases hL
  · rw [h2, h4] at hL; cases hL
  · rw [h2, h4] at hL
    have hL : redQ C y' = redQ C y := Option.some.inj hL
    have e1 : y'.stp = y.stp := (QSt.mk.inj hL).2.1
    have e2 : y'.newly = y.newly := (QSt.mk.inj hL).2.2
    rw [h1, h3]
    refine ⟨?_, ?_⟩
    · simp only [Option.map_some]
      rw [A.stp, A'.stp, A.newly, A'.newly, e1, e2]
    · intro r hr
      cases hr
      rw [A.stp]
      exact hdry y h2

end Bfs

namespace Omega
open FloatLike Fzero Interp Traj VertSolve Bfs
variable {F : Type*} [FloatLike F]

/-- A cast with fewer than two consecutive data: land, or a single bottle. -/
def Few (x : Cast F) : Bool :=
  decide ((validRange2 x.S x.P).2 ≤ (validRange2 x.S x.P).1 + 1) && decide ((validRange2 x.P x.S).2 ≤ (validRange2 x.P x.S).1 + 1)

/-- A cast without any finite salinity is land, whatever its pressures. -/
theorem few_of_nan {x : Cast F} (h : ∀ i, isFinite (x.S.get i) = false) : Few x = true := by
  have key : ∀ X Y : Arr F, (∀ i, (isFinite (X.get i) && isFinite (Y.get i)) = false) → (validRange2 X Y).2 ≤ (validRange2 X Y).1 + 1 := by
    intro X Y hXY
    unfold validRange2
    dsimp only
    rw [firstFrom_eq (r := X.size) le_rfl (fun i _ _ => hXY i) (fun hh => absurd hh (lt_irrefl _))]
    exact le_trans (firstFrom_le _ _ _) (Nat.le_succ _)
  unfold Few
  rw [decide_eq_true (key _ _ fun i => by rw [h i]; rfl), decide_eq_true (key _ _ fun i => by rw [h i, Bool.and_false])]
  rfl

variable {C : ℕ → Bool} {c : Cfg F} {G' : Csr}
  {solver' : (ℕ → F) → (ℕ → F) → (ℕ → F) → List ℕ → ℕ → OmegaMat.Res (ℕ → F)}

/-- The call on another grid. -/
def Cfg.onGrid (c : Cfg F) (G' : Csr) (solver' : (ℕ → F) → (ℕ → F) → (ℕ → F) → List ℕ → ℕ → OmegaMat.Res (ℕ → F)) : Cfg F :=
  { c with G := G', solver := solver' }

/-- Two grids that differ in links to casts outside `C` only, and these casts are land. -/
structure LandOut (C : ℕ → Bool) (c : Cfg F) (G' : Csr) (solver' : (ℕ → F) → (ℕ → F) → (ℕ → F) → List ℕ → ℕ → OmegaMat.Res (ℕ → F)) : Prop where
  pin : C c.pin = true
  land : ∀ n, C n = false → Few (c.casts n) = true
  links : SameLinksIn C c.G G'
  solver : OmegaMat.Confined C c.solver solver'

theorem LandOut.data (H : LandOut C c G' solver') {n : ℕ} (hn : C n = false) : c.ocean.data n = false := by
  have h := H.land n hn
  unfold Few at h
  simp only [Bool.and_eq_true, decide_eq_true_eq] at h
  show decide _ = false
  exact decide_eq_false (by omega)

theorem LandOut.interp (H : LandOut C c G' solver') {n : ℕ} (hn : C n = false) (p : F) : interpTwo c p n = some (nan, nan) := by
  have h := H.land n hn
  unfold Few at h
  simp only [Bool.and_eq_true, decide_eq_true_eq] at h
  have ho : outside (c.casts n).P (validRange2 (c.casts n).P (c.casts n).S).1 (validRange2 (c.casts n).P (c.casts n).S).2 p = true := by
    unfold outside
    rw [decide_eq_true (by omega)]
    rfl
  unfold interpTwo ppinterp1Two
  dsimp only
  rw [ho]
  cases c.kind <;> rfl

theorem wetting_land (L : NanLaws F) (H : LandOut C c G' solver') (K : Ok c) (K' : InRange G' c.N) {stp : Surf F} (hs : DryOut C stp) :
    wetting (c.onGrid G' solver') stp = wetting c stp ∧ ∀ r, wetting c stp = .ok r → DryOut C r.1 := by
  obtain ⟨h1, h2⟩ := wetPerim_land L.fin H.links (fun n hn => H.data hn) K.graph K' K.pin hs c.garbage c.nrep c.fuel
  unfold wetting
  constructor
  · show (ofOption (wetPerim G' c.ocean c.N c.pin stp c.garbage c.nrep c.fuel)).bind _ = _
    revert h1
    generalize wetPerim c.G c.ocean c.N c.pin stp c.garbage c.nrep c.fuel = x
    generalize wetPerim G' c.ocean c.N c.pin stp c.garbage c.nrep c.fuel = y
    intro h1
    match x, y, h1 with
    | none, none, _ => rfl
    | some x, some y, h1 =>
      have h : (y.stp, y.newly) = (x.stp, x.newly) := Option.some.inj h1
      show Res.ok (y.stp, y.newly) = Res.ok (x.stp, x.newly)
      rw [h]
  · intro r hr
    obtain ⟨q, h3, h4⟩ := bind_ok hr
    cases h4
    exact h2 q (ofOption_ok h3)

theorem reach_land (H : LandOut C c G' solver') {good : ℕ → Bool} (hg : ∀ n, C n = false → good n = false) (n : ℕ) :
    Reach G' good c.pin n ↔ Reach c.G good c.pin n := by
  have hin : ∀ n, good n = true → C n = true := by
    intro n hn
    cases hc : C n with
    | true => rfl
    | false => rw [hg n hc] at hn; cases hn
  have hmem : ∀ m n, C m = true → C n = true → (n ∈ G'.nbrs m ↔ n ∈ c.G.nbrs m) := by
    intro m n hm hn
    have := H.links m hm
    constructor
    · intro h
      have : n ∈ (G'.nbrs m).filter C := List.mem_filter.2 ⟨h, hn⟩
      rw [H.links m hm] at this
      exact (List.mem_filter.1 this).1
    · intro h
      have : n ∈ (c.G.nbrs m).filter C := List.mem_filter.2 ⟨h, hn⟩
      rw [← H.links m hm] at this
      exact (List.mem_filter.1 this).1
  constructor
  · rintro ⟨k, w⟩
    refine ⟨k, (?_ : C n = true ∧ Walk c.G good c.pin k n).2⟩
    induction w with
    | root h => exact ⟨H.pin, .root h⟩
    | step _ hn hgood ih => exact ⟨hin _ hgood, .step ih.2 ((hmem _ _ ih.1 (hin _ hgood)).1 hn) hgood⟩
  · rintro ⟨k, w⟩
    refine ⟨k, (?_ : C n = true ∧ Walk G' good c.pin k n).2⟩
    induction w with
    | root h => exact ⟨H.pin, .root h⟩
    | step _ hn hgood ih => exact ⟨hin _ hgood, .step ih.2 ((hmem _ _ ih.1 (hin _ hgood)).2 hn) hgood⟩

theorem region_land (L : NanLaws F) (H : LandOut C c G' solver') (K : Ok c) (K' : InRange G' c.N) {iter : ℕ} {stp : Surf F} (hs : DryOut C stp) :
    region (c.onGrid G' solver') iter stp = region c iter stp ∧
      ∀ r, region c iter stp = .ok r → DryOut C r.1 ∧ r.2.1.Nodup ∧ ∀ n ∈ r.2.1, wet r.1 n = true := by
  unfold region
  by_cases hw : c.startWet ≤ iter ∧ iter ≤ c.stopWet
  · rw [if_pos hw, if_pos (show (c.onGrid G' solver').startWet ≤ iter ∧ iter ≤ (c.onGrid G' solver').stopWet from hw)]
    obtain ⟨h1, h2⟩ := wetting_land L H K K' hs
    rw [h1]
    refine ⟨rfl, fun r hr => ?_⟩
    obtain ⟨q, h3, h4⟩ := bind_ok hr
    cases h4
    exact ⟨h2 q h3, List.nodup_range.filter _, fun n hn => (List.mem_filter.1 hn).2⟩
  · rw [if_neg hw, if_neg (show ¬ ((c.onGrid G' solver').startWet ≤ iter ∧ iter ≤ (c.onGrid G' solver').stopWet) from hw)]
    obtain ⟨q1, a1, a2, -, a3, -⟩ := bfs_component c.G c.N c.pin (wet stp) K.graph K.pin c.fuel K.fuel
    obtain ⟨q2, b1, b2, -, b3, -⟩ := bfs_component G' c.N c.pin (wet stp) K' K.pin c.fuel K.fuel
    have a1 : Bfs.bfs c.G c.pin (fun n => isFinite (stp n).2.2) c.fuel = some q1 := a1
    have b1 : Bfs.bfs G' c.pin (fun n => isFinite (stp n).2.2) c.fuel = some q2 := b1
    have e : q2.q.insertionSort (· ≤ ·) = q1.q.insertionSort (· ≤ ·) := by
      refine sorted_ext ((List.perm_insertionSort _ _).nodup_iff.2 b2) ((List.perm_insertionSort _ _).nodup_iff.2 a2) (List.pairwise_insertionSort _ _)
        (List.pairwise_insertionSort _ _) ?_
      intro n
      rw [List.mem_insertionSort, List.mem_insertionSort, a3, b3]
      exact reach_land H hs n
    constructor
    · show (ofOption (Bfs.bfs G' c.pin (fun n => isFinite (stp n).2.2) c.fuel)).bind _ = _
      rw [a1, b1]
      show Res.ok (stp, q2.q.insertionSort (· ≤ ·), 0) = Res.ok (stp, q1.q.insertionSort (· ≤ ·), 0)
      rw [e]
    · intro r hr
      rw [a1] at hr
      cases hr
      refine ⟨hs, (List.perm_insertionSort _ _).nodup_iff.2 a2, fun n hn => ?_⟩
      obtain ⟨k, w⟩ := (a3 n).1 ((List.mem_insertionSort _).1 hn)
      cases w with
      | root h => exact h
      | step _ _ h => exact h

theorem removeML_dry (L : NanLaws F) {iter : ℕ} {stp : Surf F} (hs : DryOut C stp) : DryOut C (removeML c iter stp) := by
  intro n hn
  unfold removeML
  by_cases h : 1 < iter
  · rw [if_pos h]
    unfold wet
    dsimp only
    split_ifs
    · exact L.fin
    · exact hs n hn
  · rw [if_neg h]
    exact hs n hn

/-- **C191** One pass. -/
theorem step_land (L : NanLaws F) (H : LandOut C c G' solver') (K : Ok c) (K' : InRange G' c.N) {pinP : F} {iter : ℕ} {stp : Surf F} (hs : DryOut C stp) :
    step (c.onGrid G' solver') pinP iter stp = step c pinP iter stp ∧ ∀ r, step c pinP iter stp = .ok r → DryOut C r.new := by
  obtain ⟨h1, h2⟩ := region_land L H K K' (iter := iter) (removeML_dry (c := c) (iter := iter) L hs)
  have hml : removeML (c.onGrid G' solver') iter stp = removeML c iter stp := rfl
  have hin : ∀ r, region c iter (removeML c iter stp) = .ok r → ∀ n ∈ r.2.1, C n = true := by
    intro r hr n hn
    obtain ⟨k1, -, k3⟩ := h2 r hr
    cases hc : C n with
    | true => rfl
    | false => have := k3 n hn; rw [k1 n hc] at this; cases this
  constructor
  · unfold step
    rw [hml, h1]
    cases hr : region c iter (removeML c iter stp) with
    | ok r =>
      show (ofMat (solver' _ _ _ r.2.1 c.pin)).bind _ = (ofMat (c.solver _ _ _ r.2.1 c.pin)).bind _
      rw [H.solver.same _ _ _ _ _ _ _ _ (h2 r hr).2.1 (hin r hr) (fun n _ => ⟨rfl, rfl, rfl⟩)]
      rfl
    | _ => rfl
  · intro r hr
    unfold step at hr
    obtain ⟨⟨stp1, qu, nw⟩, h3, hr⟩ := bind_ok hr
    obtain ⟨phi, h4, hr⟩ := bind_ok hr
    obtain ⟨stp2, h5, hr⟩ := bind_ok hr
    cases hr
    have h4 := ofMat_ok h4
    have h5 := ofOutcome_ok h5
    dsimp only at h4 h5 ⊢
    obtain ⟨k1, k2, -⟩ := h2 _ h3
    have hi := hin _ h3
    dsimp only at k1 k2 hi
    obtain ⟨j1, -, -, j4, j5, -⟩ := region_spec L.fin K h3
    have hpin : c.pin ∈ qu := by
      rcases Bool.eq_false_or_eq_true (wet (removeML c iter stp) c.pin) with hh | hh
      · exact j4 hh
      · rw [show qu = [] from j5 hh, H.solver.empty] at h4; cases h4
    intro n hn
    have hne : n ≠ c.pin := by rintro rfl; rw [H.pin] at hn; cases hn
    have hphi : phi n = nan := H.solver.out _ _ _ _ _ _ h4 hpin k2 n (fun hh => by rw [hi n hh] at hn; cases hn)
    obtain ⟨v1, v2⟩ := (vertsolveOmega_pointwise _ _ _ _ _ _ _ _ _).1 h5
    show isFinite (Function.update stp2 c.pin _ n).2.2 = false
    rw [Function.update_of_ne hne]
    by_cases hN : n < c.N
    · have h6 := v1 n hN
      have h7 : omegaSolve1 c.fuel c.tol c.kind c.eos (phi n) (stp1 n) (c.casts n) = .ret (nan, nan, nan) := by
        unfold omegaSolve1
        rw [hphi, L.zero, L.fin]
        simp
      rw [h7] at h6
      injection h6 with h6
      rw [← h6]; exact L.fin
    · rw [v2 n (by omega)]; exact k1 n hn

theorem loop_land (L : NanLaws F) (H : LandOut C c G' solver') (K : Ok c) (K' : InRange G' c.N) {pinP : F} :
    ∀ (left iter : ℕ) (s : State F), DryOut C s.stp → loop (c.onGrid G' solver') pinP left iter s = loop c pinP left iter s := by
  intro left
  induction left with
  | zero => intro iter s _; rfl
  | succ left ih =>
    intro iter s hs
    obtain ⟨h1, h2⟩ := step_land L H K K' (pinP := pinP) (iter := iter) hs
    unfold loop
    rw [h1]
    cases hr : step c pinP iter s.stp with
    | ok r =>
      show (if converged c iter r (dpRMS c s.rms r) then Res.ok (after c iter s r) else loop (c.onGrid G' solver') pinP left (iter + 1) (after c iter s r)) =
        (if converged c iter r (dpRMS c s.rms r) then Res.ok (after c iter s r) else loop c pinP left (iter + 1) (after c iter s r))
      rw [ih _ (after c iter s r) (h2 r hr)]
    | _ => rfl

theorem init_land (L : NanLaws F) (hN : isNaN (nan : F) = true) (H : LandOut C c G' solver') (K : Ok c) (K' : InRange G' c.N) (p0 : PInit F) :
    init (c.onGrid G' solver') p0 = init c p0 ∧ ∀ stp, init c p0 = .ok stp → DryOut C stp := by
  cases p0 with
  | scalar p =>
    have hd : ∀ st : F × F, DryOut C (Function.update (fun _ => ((nan, nan, nan) : F × F × F)) c.pin (st.1, st.2, p)) := by
      intro st n hn
      have hne : n ≠ c.pin := by rintro rfl; rw [H.pin] at hn; cases hn
      unfold wet
      rw [Function.update_of_ne hne]; exact L.fin
    constructor
    · unfold init initRaw
      dsimp only
      show (Res.bind (Res.bind (ofOption (interpTwo c p c.pin)) _) _) = _
      cases hi : interpTwo c p c.pin with
      | none => rfl
      | some st =>
        show ((wetting (c.onGrid G' solver') (Function.update (fun _ => (nan, nan, nan)) c.pin (st.1, st.2, p))).bind _).bind _ = _
        rw [(wetting_land L H K K' (hd st)).1]
        rfl
    · intro stp h
      unfold init initRaw at h
      dsimp only at h
      obtain ⟨raw, h1, h2⟩ := bind_ok h
      obtain ⟨st, h3, h1⟩ := bind_ok h1
      obtain ⟨q, h4, h1⟩ := bind_ok h1
      cases h1
      split_ifs at h2
      cases h2
      intro n hn
      have := (wetting_land L H K K' (hd st)).2 q h4 n hn
      unfold wet at this ⊢
      dsimp only
      split_ifs
      · exact L.fin
      · exact this
  | array p =>
    constructor
    · rfl
    · intro stp h
      unfold init initRaw at h
      dsimp only at h
      obtain ⟨raw, h1, h2⟩ := bind_ok h
      split_ifs at h1
      cases h1
      split_ifs at h2
      cases h2
      intro n hn
      have e := H.interp hn (p n)
      unfold wet
      by_cases hnN : n < c.N
      · simp [hnN, e, hN, L.fin]
      · simp [hnN, hN, L.fin]

/-- **C191** Links to land do not matter: the iteration does exactly the same, with the same exceptions. -/
theorem omega_land (L : NanLaws F) (hN : isNaN (nan : F) = true) (H : LandOut C c G' solver') (K : Ok c) (K' : InRange G' c.N) (p0 : PInit F) :
    omega (c.onGrid G' solver') p0 = omega c p0 := by
  obtain ⟨h1, h2⟩ := init_land L hN H K K' p0
  unfold omega
  rw [h1]
  cases hi : init c p0 with
  | ok stp =>
    show Res.bind (loop (c.onGrid G' solver') (pinPOf c p0) c.iterMax 1 ⟨stp, lit 0, if c.diags then [diag0 c stp] else [], 0⟩) _ =
      Res.bind (loop c (pinPOf c p0) c.iterMax 1 ⟨stp, lit 0, if c.diags then [diag0 c stp] else [], 0⟩) _
    rw [loop_land L H K K' _ _ _ (h2 stp hi)]
    rfl
  | _ => rfl

end Omega

namespace Graph

theorem otherEnds_inside {C : ℕ → Bool} {m : ℕ} (hm : C m = true) (e : Edges) :
    (otherEnds m e).filter C = otherEnds m (e.filter (OmegaMat.inside C)) := by
  induction e with
  | nil => rfl
  | cons x e ih =>
    obtain ⟨a, b⟩ := x
    have key : (OmegaMat.inside C (a, b) = true ∧ otherEnds m ((a, b) :: e) = otherEnds m ((a, b) :: e)) ∨ OmegaMat.inside C (a, b) = false := by
      cases OmegaMat.inside C (a, b) <;> simp
    unfold OmegaMat.inside at key
    rw [List.filter_cons]
    by_cases h1 : a = m <;> by_cases h2 : b = m
    · subst h1; subst h2
      simp [otherEnds, OmegaMat.inside, hm, ih]
    · subst h1
      cases hb : C b <;> simp [otherEnds, OmegaMat.inside, hm, ih, h2, hb]
    · subst h2
      cases ha : C a <;> simp [otherEnds, OmegaMat.inside, hm, ih, h1, ha]
    · cases hi : OmegaMat.inside C (a, b) <;> simp [otherEnds, ih, h1, h2]

end Graph

namespace Omega
open FloatLike Lib Bfs
variable {F : Type*} [FloatLike F]

/-- The grid of a list of links, each with its distance and the length of the face between the casts. -/
def gridL (E : List ((ℕ × ℕ) × F × F)) : GridDict F := ⟨E.map fun x => x.1, some (E.map fun x => x.2.1), some (E.map fun x => x.2.2)⟩

/-- Both casts of the link have two consecutive data. -/
def atSea (hs : List ℕ) (cast : List ℕ → Cast F) (x : (ℕ × ℕ) × F × F) : Bool := !Few (cast (unravel hs x.1.1)) && !Few (cast (unravel hs x.1.2))

/-- **C191.** Two calls of `omega_surf` with the same arguments but for the grid, and the links that do not touch land are the same, with the same lengths and in the
same order.  The results are the same to the last bit, and so are exceptions.  Any arithmetic in which NaN behaves like NaN, both formulations, any wetting,
an initial pressure or surface, whatever the matrix solvers do. -/
theorem omegaSurf_land_links (L : NanLaws F) (hN : isNaN (nan : F) = true) {o : Opts F} {dims : Option (List String)} {coord : String → Option (List ℚ)}
    {S T : Nd F} {P : PArg F} {v : ℕ} {pr : List ℕ → ℕ → F} (A : Args o.vertDim dims S T P v pr) {E E' : List ((ℕ × ℕ) × F × F)}
    (hE : ∀ x ∈ E, x.1.1 < (S.shape.eraseIdx v).prod ∧ x.1.2 < (S.shape.eraseIdx v).prod)
    (hE' : ∀ x ∈ E', x.1.1 < (S.shape.eraseIdx v).prod ∧ x.1.2 < (S.shape.eraseIdx v).prod)
    (hfuel : (S.shape.eraseIdx v).prod < o.fuel) {pc : PinCast} {m0 : List ℕ} (hpc : processPinCast coord pc = .ok (m0.map fun i : ℕ => (i : ℤ)))
    (hm0 : Few (castAt S T pr v m0) = false)
    (h : E'.filter (atSea (S.shape.eraseIdx v) (castAt S T pr v)) = E.filter (atSea (S.shape.eraseIdx v) (castAt S T pr v))) (p0 : PArgInit F) :
    omegaSurf o dims coord S T P (gridL E') pc p0 = omegaSurf o dims coord S T P (gridL E) pc p0 := by
  unfold omegaSurf
  rw [hpc]
  cases hP : processCasts dims S T P o.vertDim with
  | ok STP =>
    obtain ⟨a1, a2⟩ := A.casts hP
    have hhs : STP.1.shape.dropLast = S.shape.eraseIdx v := by rw [a1, List.dropLast_concat]
    obtain ⟨hs, hhs'⟩ : ∃ hs, hs = S.shape.eraseIdx v := ⟨_, rfl⟩
    rw [← hhs'] at hE hE' hfuel h a2 hhs
    simp only [ofLib, FRes.bind, hhs]
    by_cases h0 : hs = []
    · rw [if_pos h0, if_pos h0]
    rw [if_neg h0, if_neg h0]
    cases hpin : ravelMultiIndex hs (m0.map fun i : ℕ => (i : ℤ)) with
    | ok pin =>
      obtain ⟨m1, hm1, hv, rfl⟩ := ravelMultiIndex_ok.1 hpin
      obtain rfl : m0 = m1 := by
        refine List.map_injective_iff.2 (fun a b hab => ?_) hm1
        exact_mod_cast hab
      let C : ℕ → Bool := fun n => decide (n < hs.prod → Few (castAt S T pr v (unravel hs n)) = false)
      have hC : ∀ n, C n = false → n < hs.prod ∧ Few (castAt S T pr v (unravel hs n)) = true := by
        intro n hn
        have := of_decide_eq_false hn
        push Not at this
        exact ⟨this.1, by simpa using this.2⟩
      have hCin : ∀ n, n < hs.prod → C n = !Few (castAt S T pr v (unravel hs n)) := by
        intro n hn
        show decide (n < hs.prod → _) = _
        cases hf : Few (castAt S T pr v (unravel hs n)) <;> simp [hn]
      have hsea : ∀ E : List ((ℕ × ℕ) × F × F), (∀ x ∈ E, x.1.1 < hs.prod ∧ x.1.2 < hs.prod) →
          E.filter (fun x => OmegaMat.inside C x.1) = E.filter (atSea hs (castAt S T pr v)) := by
        intro E hE
        apply List.filter_congr
        intro x hx
        unfold OmegaMat.inside atSea
        rw [hCin _ (hE x hx).1, hCin _ (hE x hx).2]
      have hkey : E'.filter (fun x => OmegaMat.inside C x.1) = E.filter (fun x => OmegaMat.inside C x.1) := by rw [hsea _ hE', hsea _ hE, h]
      have hr : ∀ E : List ((ℕ × ℕ) × F × F), (∀ x ∈ E, x.1.1 < hs.prod ∧ x.1.2 < hs.prod) →
          ∀ x ∈ (gridL E).edges, x.1 < hs.prod ∧ x.2 < hs.prod := by
        intro E hE x hx
        obtain ⟨y, hy, rfl⟩ := List.mem_map.1 hx
        exact hE y hy
      obtain ⟨G, g1, -, -, g2⟩ := Graph.edgesToCsr_spec (gridL E).edges hs.prod o.garbage (hr E hE)
      obtain ⟨G', g1', -, -, g2'⟩ := Graph.edgesToCsr_spec (gridL E').edges hs.prod o.garbage (hr E' hE')
      have gi := (Graph.edgesToCsr_mem _ _ _ (hr E hE) G g1).2
      have gi' := (Graph.edgesToCsr_mem _ _ _ (hr E' hE') G' g1').2
      have hlinks : SameLinksIn C G G' := by
        intro m hm
        rw [g2, g2', Graph.otherEnds_inside hm, Graph.otherEnds_inside hm]
        congr 1
        show (E'.map fun x => x.1).filter _ = (E.map fun x => x.1).filter _
        rw [List.filter_map, List.filter_map]
        exact congrArg (List.map fun x => x.1) hkey
      have hratio : ∀ E : List ((ℕ × ℕ) × F × F), distRatio (gridL E) = .ok (E.map fun x => x.2.2 / x.2.1) := by
        intro E
        unfold distRatio gridL
        simp only [List.zipWith_map]
        congr 1
        rw [List.zipWith_self]
      have hzip : ∀ (E : List ((ℕ × ℕ) × F × F)) (f : F × F → F),
          ((gridL E).edges.zip (E.map fun x => f x.2)).filter (fun x => OmegaMat.inside C x.1) =
            (E.filter (fun x => OmegaMat.inside C x.1)).map fun x => (x.1, f x.2) := by
        intro E f
        show ((E.map fun x => x.1).zip (E.map fun x => f x.2)).filter _ = _
        rw [List.zip_map', List.filter_map]
        rfl
      have hsol : ∀ sv, solverOf o (gridL E).edges (E.map fun x => x.2.2 / x.2.1) = .ok sv →
          ∃ sv', solverOf o (gridL E').edges (E'.map fun x => x.2.2 / x.2.1) = .ok sv' ∧ OmegaMat.Confined C sv sv' := by
        intro sv hsv
        unfold solverOf at hsv ⊢
        split_ifs at hsv ⊢
        · cases hsv
          refine ⟨_, rfl, OmegaMat.poisson_confined _ _ (?_ : _ = _)⟩
          rw [hzip E' (fun x => x.2 / x.1), hzip E (fun x => x.2 / x.1), hkey]
        · cases hsv
          refine ⟨_, rfl, OmegaMat.gradient_confined _ _ (?_ : _ = _)⟩
          rw [List.map_map, List.map_map]
          rw [show (o.sqrt ∘ fun x : (ℕ × ℕ) × F × F => x.2.2 / x.2.1) = fun x => (fun y : F × F => o.sqrt (y.2 / y.1)) x.2 from rfl]
          rw [hzip E' (fun y => o.sqrt (y.2 / y.1)), hzip E (fun y => o.sqrt (y.2 / y.1)), hkey]
      have hbad : solverOf o (gridL E).edges (E.map fun x => x.2.2 / x.2.1) = .valueError →
          solverOf o (gridL E').edges (E'.map fun x => x.2.2 / x.2.1) = .valueError := by
        intro hh
        unfold solverOf at hh ⊢
        split_ifs at hh ⊢
        rfl
      simp only [hratio, g1, g1', ofGraph]
      by_cases hf : ∃ sv, solverOf o (gridL E).edges (E.map fun x => x.2.2 / x.2.1) = .ok sv
      · obtain ⟨sv, hsv⟩ := hf
        obtain ⟨sv', hsv', hconf⟩ := hsol sv hsv
        rw [hsv, hsv']
        dsimp only
        cases checkInit hs p0 with
        | ok q =>
          dsimp only
          have H : LandOut C (cfgOf o hs STP.1 STP.2.1 STP.2.2 G (ravel hs m0) sv) G' sv' := by
            refine ⟨?_, ?_, hlinks, hconf⟩
            · show C (ravel hs m0) = true
              rw [hCin _ (ravel_lt hv), unravel_ravel hv, hm0]; rfl
            · intro n hn
              obtain ⟨h1, h2⟩ := hC n hn
              obtain ⟨u1, u2⟩ := valid_unravel h1
              show Few (castsOf STP.1 STP.2.1 STP.2.2 n) = true
              rw [← u2, a2 _ u1]; exact h2
          have := omega_land L hN H ⟨gi, ravel_lt hv, hfuel⟩ gi' q
          rw [show cfgOf o hs STP.1 STP.2.1 STP.2.2 G' (ravel hs m0) sv' = (cfgOf o hs STP.1 STP.2.1 STP.2.2 G (ravel hs m0) sv).onGrid G' sv' from rfl, this]
        | _ => rfl
      · have hve : solverOf o (gridL E).edges (E.map fun x => x.2.2 / x.2.1) = .valueError := by
          unfold solverOf at hf ⊢
          split_ifs at hf ⊢
          · exact absurd ⟨_, rfl⟩ hf
          · exact absurd ⟨_, rfl⟩ hf
          · rfl
        rw [hve, hbad hve]
    | _ => rfl
  | _ => rfl

end Omega
