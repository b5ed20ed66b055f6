import Verif.Props.Flat

/-! # Omega surfaces where the water at one pressure is the same everywhere (C158) -/

set_option linter.unusedSectionVars false

namespace OmegaMat
open FloatLike
variable {α : Type*} [Field α] [LinearOrder α] [IsStrictOrderedRing α] {rnd : α → α}

/-- The water at all casts of the region is `(σ, τ, p)`. -/
def LevelOn (σ τ p : α) (m : List ℕ) (s t q : ℕ → Rfl rnd) : Prop :=
  ∀ n ∈ m, s n = Rfl.fin σ ∧ t n = Rfl.fin τ ∧ q n = Rfl.fin p

/-- The derivatives of the equation of state are numbers at the mean of two bottles `(σ, τ, p)`. -/
def EosAt (rnd : α → α) (eosST : Ntp.EosST (Rfl rnd)) (σ τ p : α) : Prop :=
  ∃ a b, eosST (lit (1 / 2) * (Rfl.fin σ + Rfl.fin σ)) (lit (1 / 2) * (Rfl.fin τ + Rfl.fin τ)) (lit (1 / 2) * (Rfl.fin p + Rfl.fin p)) =
    (Rfl.fin a, Rfl.fin b)

theorem epsErr_level (R : BinRound rnd) {eosST : Ntp.EosST (Rfl rnd)} {σ τ p : α} (E : EosAt rnd eosST σ τ p) {s t q : ℕ → Rfl rnd}
    {m : List ℕ} (h : LevelOn σ τ p m s t q) {x : ℕ × ℕ} (h1 : x.1 ∈ m) (h2 : x.2 ∈ m) :
    Ntp.epsErr eosST s t q x / lit 1 = Rfl.fin 0 := by
  obtain ⟨a, b, hab⟩ := E
  unfold Ntp.epsErr
  rw [(h _ h1).1, (h _ h1).2.1, (h _ h1).2.2, (h _ h2).1, (h _ h2).2.1, (h _ h2).2.2]
  rw [hab]
  simp only [Rfl.fin_sub, sub_self, R.zero, Rfl.fin_mul, mul_zero, Rfl.fin_add, add_zero]
  rw [Rfl.lit_eq, Rat.cast_one, R.one, Rfl.fin_div _ _ one_ne_zero, zero_div, R.zero]

/-- All edges inside the region have error zero. -/
theorem helper_level (R : BinRound rnd) {eosST : Ntp.EosST (Rfl rnd)} {σ τ p : α} (E : EosAt rnd eosST σ τ p) {s t q : ℕ → Rfl rnd}
    {m : List ℕ} (hm : m.Nodup) (h : LevelOn σ τ p m s t q) (edges : List (ℕ × ℕ)) (ratio : Ratio (Rfl rnd))
    (hr : match ratio with | .scalar d => isFinite d = true | .arr l => ∀ d ∈ l, isFinite d = true) :
    ∀ r ∈ helper eosST s t q edges ratio m, r.e = Rfl.fin 0 := by
  have hin : ∀ x, 0 ≤ remap m x → x ∈ m := by
    intro x hx
    rw [remap_eq hm] at hx
    by_contra hn
    rw [if_neg hn] at hx
    omega
  have hz : ∀ d : Rfl rnd, isFinite d = true → (Rfl.fin 0 : Rfl rnd) * d = Rfl.fin 0 := by
    intro d hd
    cases d with
    | fin d => show (Rfl.fin 0 : Rfl rnd) * Rfl.fin d = _; rw [Rfl.fin_mul, zero_mul, R.zero]
    | nan => cases hd
    | ninf => cases hd
    | pinf => cases hd
  unfold helper
  intro r hmem
  cases ratio with
  | scalar d =>
    dsimp only at hmem hr
    obtain ⟨x, hx, rfl⟩ := List.mem_map.1 hmem
    obtain ⟨-, hg⟩ := List.mem_filter.1 hx
    rw [Bool.and_eq_true, decide_eq_true_eq, decide_eq_true_eq] at hg
    dsimp only
    rw [epsErr_level R E h (hin _ hg.1) (hin _ hg.2), hz d hr]
    simp
  | arr l =>
    dsimp only at hmem hr
    obtain ⟨x, hx, rfl⟩ := List.mem_map.1 hmem
    obtain ⟨hzip, hg⟩ := List.mem_filter.1 hx
    rw [Bool.and_eq_true, decide_eq_true_eq, decide_eq_true_eq] at hg
    dsimp only
    rw [epsErr_level R E h (hin _ hg.1) (hin _ hg.2), hz _ (hr _ (List.of_mem_zip hzip).2)]

theorem sum_level (R : BinRound rnd) (l : List (Rfl rnd)) (h : ∀ x ∈ l, x = Rfl.fin 0) :
    l.foldl (· + ·) (Rfl.fin 0 : Rfl rnd) = Rfl.fin 0 := by
  induction l with
  | nil => rfl
  | cons x l ih =>
    rw [List.foldl_cons, h x (by simp), Rfl.fin_add, add_zero, R.zero]
    exact ih fun y hy => h y (by simp [hy])

/-- A solver of linear equations that finds zero for a zero right-hand side. -/
def ZeroSolve (spsolve : ℕ → (ℕ → ℕ → Rfl rnd) → (ℕ → Rfl rnd) → ℕ → Rfl rnd) : Prop :=
  ∀ N L D, (∀ i, D i = Rfl.fin 0) → ∀ i < N, spsolve N L D i = Rfl.fin 0

/-- A solver of least squares problems that finds zero for a zero right-hand side. -/
def ZeroLsqr (lsqr : ℕ → ℕ → (ℕ → ℕ → Rfl rnd) → (ℕ → Rfl rnd) → ℕ → Rfl rnd) : Prop :=
  ∀ M N L D, (∀ i, D i = Rfl.fin 0) → ∀ i < N, lsqr M N L D i = Rfl.fin 0

/-- The correction is zero on the region and NaN elsewhere. -/
def ZeroOn (m : List ℕ) (φ : ℕ → Rfl rnd) : Prop := ∀ n, φ n = if n ∈ m then Rfl.fin 0 else Rfl.qnan

variable {eosST : Ntp.EosST (Rfl rnd)} {σ τ p : α} {s t q : ℕ → Rfl rnd} {m : List ℕ} {mref : ℕ} {edges : List (ℕ × ℕ)}
  {ratio : Ratio (Rfl rnd)} {φ : ℕ → Rfl rnd}

theorem lit_zero (R : BinRound rnd) : (lit 0 : Rfl rnd) = Rfl.fin 0 := by rw [Rfl.lit_eq, Rat.cast_zero, R.zero]

theorem single_zero (R : BinRound rnd) {x : ℕ} (hm : m.length ≤ 1) (hx : x ∈ m) : ZeroOn m (Function.update (fun _ => (nan : Rfl rnd)) x (lit 0)) := by
  match m, hm, hx with
  | [y], _, hx =>
    rw [List.mem_singleton] at hx
    subst hx
    intro n
    by_cases h : n = x
    · rw [if_pos (by simp [h]), h, Function.update_self, lit_zero R]
    · rw [if_neg (by simp [h]), Function.update_of_ne h]; rfl

/-- **C158** The correction of the Poisson formulation on a level region is zero. -/
theorem poisson_level (R : BinRound rnd) (E : EosAt rnd eosST σ τ p) {spsolve} (hz : ZeroSolve (rnd := rnd) spsolve) (hm : m.Nodup)
    (hmref : mref ∈ m) (h : LevelOn σ τ p m s t q)
    (hr : match ratio with | .scalar d => isFinite d = true | .arr l => ∀ d ∈ l, isFinite d = true)
    (hs : poisson spsolve eosST s t q edges ratio m mref = .ok φ) : ZeroOn m φ := by
  unfold poisson at hs
  split_ifs at hs with hlen
  · cases m with
    | nil => cases hmref
    | cons x l =>
      cases hs
      exact single_zero R hlen (by simp)
  · have hrows := helper_level R E hm h edges ratio hr
    have key : ∀ (rows : List (Row (Rfl rnd))) (N ref : ℕ), (∀ r ∈ rows, r.e = Rfl.fin 0) → ∀ D L, poissonSystem rows N ref = .ok (D, L) →
        ∀ i, D i = Rfl.fin 0 := by
      intro rows N ref hrows D L hsys i
      unfold poissonSystem at hsys
      split at hsys
      · rename_i ea eb wa wb h1 h2 h3 h4
        cases hsys
        have hagg : ∀ (f : Row (Rfl rnd) → ℤ) b, Lib.aggsum (rows.map fun x => (f x, x.e)) N = .ok b → ∀ i, b i = Rfl.fin 0 := by
          intro f b hb i
          have hall : ∀ x ∈ rows.map fun x => (f x, x.e), x.1 < (N : ℤ) := by
            by_contra hn
            unfold Lib.aggsum at hb
            rw [if_neg (by simpa using hn)] at hb
            cases hb
          obtain ⟨b', hb', hsum⟩ := Lib.aggsum_spec _ _ hall
          rw [hb] at hb'
          cases hb'
          rw [hsum i, lit_zero R]
          apply sum_level R
          intro x hx
          obtain ⟨y, hy, rfl⟩ := List.mem_map.1 hx
          obtain ⟨hy, -⟩ := List.mem_filter.1 hy
          obtain ⟨r, hr, rfl⟩ := List.mem_map.1 hy
          exact hrows r hr
        dsimp only
        rw [hagg _ _ h1, hagg _ _ h2, Rfl.fin_sub, sub_zero, R.zero]
      · cases hsys
    split at hs
    · rename_i D L hsys
      cases hs
      have hD := key _ _ _ hrows D L hsys
      intro n
      by_cases hn : n = mref
      · rw [hn, Function.update_self, if_pos hmref, lit_zero R]
      · rw [Function.update_of_ne hn, scatter_eq hm]
        split_ifs with hmem
        · exact hz _ _ _ hD _ (List.idxOf_lt_length_of_mem hmem)
        · rfl
    · cases hs

/-- **C158** The correction of the gradient formulation on a level region is zero. -/
theorem gradient_level (R : BinRound rnd) (E : EosAt rnd eosST σ τ p) {lsqr} (hz : ZeroLsqr (rnd := rnd) lsqr) (hm : m.Nodup)
    (hmref : mref ∈ m) (h : LevelOn σ τ p m s t q)
    (hr : match ratio with | .scalar d => isFinite d = true | .arr l => ∀ d ∈ l, isFinite d = true)
    (hs : gradient lsqr eosST s t q edges ratio m mref = .ok φ) : ZeroOn m φ := by
  unfold gradient at hs
  split_ifs at hs with hlen
  · cases m with
    | nil => cases hmref
    | cons x l =>
      cases hs
      exact single_zero R hlen (by simp)
  · have hrows := helper_level R E hm h edges ratio hr
    cases hs
    have hD : ∀ i, (gradientSystem (helper eosST s t q edges ratio m) (refOf m mref)).1 i = Rfl.fin 0 := by
      intro i
      unfold gradientSystem
      dsimp only
      rw [List.getD_eq_getElem?_getD]
      cases hi : ((helper eosST s t q edges ratio m).map fun x => -x.e)[i]? with
      | none => exact lit_zero R
      | some y =>
        obtain ⟨r, hr, rfl⟩ := List.mem_map.1 (List.mem_of_getElem? hi)
        rw [Option.getD_some, hrows r hr, Rfl.fin_neg, neg_zero]
    have href : refOf m mref < m.length := by
      unfold refOf
      rw [remap_eq hm, if_pos hmref]
      have := List.idxOf_lt_length_of_mem hmref
      rw [if_neg (by omega)]
      simpa using this
    intro n
    rw [scatter_eq hm]
    split_ifs with hmem
    · rw [hz _ _ _ _ hD _ (List.idxOf_lt_length_of_mem hmem), hz _ _ _ _ hD _ href, Rfl.fin_sub, sub_zero, R.zero]
    · rfl

end OmegaMat

namespace Omega
open FloatLike Fzero Interp Traj VertSolve Bfs OmegaMat
variable {α : Type*} [Field α] [LinearOrder α] [IsStrictOrderedRing α] {rnd : α → α}

/-- An ocean in which every cast with two data has the water `(σ, τ)` at the pressure `p` with lighter water above, or no neutral link with
that water; where the computed mean of copies of `p` is `p`, and the matrix solver returns zero for a surface without errors. -/
structure FlatWorld (c : Cfg (Rfl rnd)) (σ τ p : α) : Prop where
  rounding : BinRound rnd
  ok : Ok c
  tol : ∃ x : α, c.tol = Rfl.fin x
  casts : ∀ m < c.N, TwoData (c.casts m) → (∃ e A B, FlatCast rnd c.kind c.eos e σ τ p A B (c.casts m)) ∨
    ∃ s t, ntpBottleToCast c.fuel c.tol c.eos c.kind (Rfl.fin σ) (Rfl.fin τ) (Rfl.fin p) (c.casts m) = .ret (s, t, Rfl.qnan)
  mean : ∀ m < c.N, ∀ ns, ns.Sublist (c.G.nbrs m) → ns ≠ [] → meanR rnd (fun _ => p) ns = p
  solver : ∀ s t q m, m.Nodup → c.pin ∈ m → LevelOn σ τ p m s t q → ∃ φ, c.solver s t q m c.pin = .ok φ ∧ ZeroOn m φ

/-- Every bottle of the surface is `(σ, τ, p)` or dry. -/
def Level (N : ℕ) (σ τ p : α) (stp : Surf (Rfl rnd)) : Prop :=
  ∀ n < N, isFinite (stp n).2.2 = false ∨ stp n = (Rfl.fin σ, Rfl.fin τ, Rfl.fin p)

variable {c : Cfg (Rfl rnd)} {σ τ p : α}

theorem Level.wet {N : ℕ} {stp : Surf (Rfl rnd)} (h : Level N σ τ p stp) {n : ℕ} (hn : n < N) (hw : Bfs.wet stp n = true) :
    stp n = (Rfl.fin σ, Rfl.fin τ, Rfl.fin p) := by
  rcases h n hn with h | h
  · unfold Bfs.wet at hw; rw [h] at hw; cases hw
  · exact h

/-- **C158** Wetting a level surface gives a level surface. -/
theorem wetting_level (W : FlatWorld c σ τ p) {stp : Surf (Rfl rnd)} (hl : Level c.N σ τ p stp) :
    ∃ r, wetting c stp = .ok r ∧ Level c.N σ τ p r.1 ∧ ∀ v, Reach c.G (wet stp) c.pin v → r.1 v = stp v := by
  have R := W.rounding
  obtain ⟨tol, htol⟩ := W.tol
  obtain ⟨r, V, h1, S⟩ := wetPerim_spec (F := Rfl rnd) rfl c.G c.ocean c.N c.pin stp W.ok.graph W.ok.pin c.garbage c.nrep c.fuel W.ok.fuel
  have hf := W.ok.fuel
  obtain ⟨f, hf'⟩ : ∃ f, c.fuel = f + 1 := ⟨c.fuel - 1, by omega⟩
  have hreach : ∀ m, Reach c.G (wet stp) c.pin m → r.stp m = (Rfl.fin σ, Rfl.fin τ, Rfl.fin p) := by
    intro m hm
    rw [S.kept m hm]
    refine hl.wet (reach_range W.ok hm) ?_
    obtain ⟨k, w⟩ := hm
    exact w.good
  have key : ∀ (i v : ℕ), V[i]? = some v → r.stp v = (Rfl.fin σ, Rfl.fin τ, Rfl.fin p) := by
    intro i
    induction i using Nat.strong_induction_on with
    | _ i ih =>
      intro v hv
      have hvN := (S.was_dry v (List.mem_of_getElem? hv)).2
      obtain ⟨hd, ns, n1, n2, n3, p', hp', hst⟩ := S.links i v hv
      have h2d : TwoData (c.casts v) := (ofCasts_data ..).1 hd
      have hns : ∀ n ∈ ns, r.stp n = (Rfl.fin σ, Rfl.fin τ, Rfl.fin p) := by
        intro n hn
        rcases (n3 n hn).1 with h | h
        · exact hreach n h
        · obtain ⟨j, hj, e1⟩ := List.mem_take_iff_getElem.1 h
          exact ih j (by omega) n (by rw [← e1]; exact List.getElem?_eq_getElem _)
      have hlink : ∀ n ∈ ns, c.ocean.ntpP (r.stp n) v =
          (valueOr (nan, nan, nan) (ntpBottleToCast c.fuel c.tol c.eos c.kind (Rfl.fin σ) (Rfl.fin τ) (Rfl.fin p) (c.casts v))).2.2 := by
        intro n hn
        unfold Cfg.ocean
        rw [ntpP_eq _ _ _ _ _ _ _ _ h2d, hns n hn]
        rfl
      rcases W.casts v hvN h2d with ⟨e, A, B, H⟩ | ⟨s, t, h⟩
      · have hq : ∀ n ∈ ns, c.ocean.ntpP (r.stp n) v = Rfl.fin p := by
          intro n hn
          rw [hlink n hn, hf', htol, ntp_flat R H tol f]
          rfl
        have hmean : p' = Rfl.fin p := by
          rw [hp', lit_zero R, foldl_finR (g := fun _ => p) ns 0 hq, Rfl.lit_eq, Rfl.fin_div]
          · have := W.mean v hvN ns n1 n2
            unfold meanR sumR at this
            rw [Rat.cast_natCast, this]
          · have : (ns.length : α) ≠ 0 := by simpa using n2
            simpa [R.eq_zero_iff] using this
        obtain ⟨k, K, a, s, t, G, rfl, rfl⟩ := H.data
        obtain ⟨s', t', i1, i2, i3⟩ := (ofCasts_stR (f := c.fuel) (tol := tol) (eos := c.eos) (kind := c.kind) (pml := c.pml) R.toStdRound G (p := p)).1 H.ge H.le
        have eS : s' = σ := Rfl.fin_inj.mp (Option.some.inj (i2.symm.trans H.same.1))
        have eT : t' = τ := Rfl.fin_inj.mp (Option.some.inj (i3.symm.trans H.same.2))
        rw [hst, hmean]
        unfold Cfg.ocean
        rw [htol, i1, eS, eT]
      · exfalso
        obtain ⟨n, hn⟩ := List.exists_mem_of_ne_nil ns n2
        have := (n3 n hn).2.1
        rw [hlink n hn, h] at this
        cases this
  refine ⟨(r.stp, r.newly), by unfold wetting; rw [h1]; rfl, ?_, S.kept⟩
  intro m hm
  by_cases hr : Reach c.G (wet stp) c.pin m
  · exact Or.inr (hreach m hr)
  · by_cases hV : m ∈ V
    · obtain ⟨i, hi⟩ := List.getElem?_of_mem hV
      exact Or.inr (key i m hi)
    · left
      show isFinite (r.stp m).2.2 = false
      rw [S.cut m hr hV]; rfl

/-- The wet casts whose mixed layer ends above `p`. -/
def below (c : Cfg (Rfl rnd)) (p : α) (stp : Surf (Rfl rnd)) (n : ℕ) : Bool := wet stp n && !lt (Rfl.fin p) (c.pml n)

theorem reach_mono_flat {G : Csr} {g g' : ℕ → Bool} {r n : ℕ} (h : Reach G g r n) (hg : ∀ m, Reach G g r m → g' m = true) : Reach G g' r n := by
  obtain ⟨k, w⟩ := h
  induction w with
  | root h => exact ⟨0, .root (hg _ ⟨0, .root h⟩)⟩
  | step w hn hgd ih =>
    obtain ⟨k', w'⟩ := ih
    exact ⟨k' + 1, .step w' hn (hg _ ⟨_, .step w hn hgd⟩)⟩

/-- What a pass does to a level surface: the correction is zero on the region; what is connected with the pinning cast stays. -/
theorem step_level (W : FlatWorld c σ τ p) (iter : ℕ) {stp : Surf (Rfl rnd)} (hl : Level c.N σ τ p stp)
    (hpin : stp c.pin = (Rfl.fin σ, Rfl.fin τ, Rfl.fin p)) (hml : lt (Rfl.fin p) (c.pml c.pin) = false) :
    ∃ r, step c (Rfl.fin p) iter stp = .ok r ∧ Level c.N σ τ p r.new ∧ r.new c.pin = (Rfl.fin σ, Rfl.fin τ, Rfl.fin p) ∧
      c.pin ∈ r.qu ∧ r.qu.Nodup ∧ (∀ n ∈ r.qu, n < c.N) ∧ ZeroOn r.qu r.phi ∧
      (∀ n, Reach c.G (below c p stp) c.pin n → r.new n = (Rfl.fin σ, Rfl.fin τ, Rfl.fin p)) ∧
      ∀ n < c.N, r.new n = if n ∈ r.qu then r.old n else (Rfl.qnan, Rfl.qnan, Rfl.qnan) := by
  have R := W.rounding
  have hnan : isFinite (nan : Rfl rnd) = false := rfl
  have hpin' : removeML c iter stp c.pin = (Rfl.fin σ, Rfl.fin τ, Rfl.fin p) := removeML_pin hpin hml
  have hwet : wet (removeML c iter stp) c.pin = true := by unfold wet; rw [hpin']; rfl
  have hl' : Level c.N σ τ p (removeML c iter stp) := by
    intro n hn
    unfold removeML
    split_ifs
    · dsimp only
      split_ifs
      · exact Or.inl rfl
      · exact hl n hn
    · exact hl n hn
  have hkeep : ∀ n, Reach c.G (below c p stp) c.pin n → Reach c.G (wet (removeML c iter stp)) c.pin n := by
    intro n hn
    refine reach_mono_flat hn fun m hm => ?_
    have hb : below c p stp m = true := by obtain ⟨k, w⟩ := hm; exact w.good
    unfold below at hb
    rw [Bool.and_eq_true, Bool.not_eq_true'] at hb
    have hm := hl.wet (reach_range W.ok hm) hb.1
    unfold wet removeML
    split_ifs
    · dsimp only
      rw [hm, if_neg (by rw [hb.2]; simp)]
      rfl
    · rw [hm]; rfl
  have hreg : ∃ old qu nw, region c iter (removeML c iter stp) = .ok (old, qu, nw) ∧ Level c.N σ τ p old := by
    by_cases hw : c.startWet ≤ iter ∧ iter ≤ c.stopWet
    · obtain ⟨r, h1, h2, -⟩ := wetting_level W hl'
      exact ⟨r.1, _, _, by unfold region; rw [if_pos hw, h1]; rfl, h2⟩
    · obtain ⟨q, h3, -⟩ := bfs_component c.G c.N c.pin (wet (removeML c iter stp)) W.ok.graph W.ok.pin c.fuel W.ok.fuel
      refine ⟨removeML c iter stp, q.q.insertionSort (· ≤ ·), 0, ?_, hl'⟩
      unfold region
      rw [if_neg hw]
      have : Bfs.bfs c.G c.pin (fun n => isFinite (removeML c iter stp n).2.2) c.fuel = some q := h3
      rw [this]; rfl
  obtain ⟨old, qu, nw, hreg, hold⟩ := hreg
  obtain ⟨i1, -, i3, i4, -, i6⟩ := region_spec hnan W.ok hreg
  have hqu : ∀ n ∈ qu, old n = (Rfl.fin σ, Rfl.fin τ, Rfl.fin p) := fun n hn => hold.wet (i3 n hn).1 (i3 n hn).2
  obtain ⟨φ, f1, f2⟩ := W.solver (fun m => (old m).1) (fun m => (old m).2.1) (fun m => (old m).2.2) qu i1 (i4 hwet)
    (fun n hn => by dsimp only; rw [hqu n hn]; exact ⟨rfl, rfl, rfl⟩)
  have hv : vertsolveOmega c.fuel c.tol c.kind c.eos φ c.casts old c.N =
      .ret fun m => if m < c.N then (if m ∈ qu then old m else (Rfl.qnan, Rfl.qnan, Rfl.qnan)) else old m := by
    rw [vertsolveOmega_pointwise]
    refine ⟨fun m hm => ?_, fun m hm => ?_⟩
    · rw [if_pos hm, f2 m]
      split_ifs
      · exact omega_zero _ _ _ _ _ _ _ (by simp [R.zero])
      · exact omega_nan _ _ _ _ _ _ _ rfl (Or.inl rfl)
    · rw [if_neg (by omega)]
  have e1 : ∀ m < c.N, Function.update (fun m => if m < c.N then (if m ∈ qu then old m else (Rfl.qnan, Rfl.qnan, Rfl.qnan)) else old m) c.pin
      ((if c.pin < c.N then (if c.pin ∈ qu then old c.pin else (Rfl.qnan, Rfl.qnan, Rfl.qnan)) else old c.pin).1,
        (if c.pin < c.N then (if c.pin ∈ qu then old c.pin else (Rfl.qnan, Rfl.qnan, Rfl.qnan)) else old c.pin).2.1, Rfl.fin p) m =
      if m ∈ qu then old m else (Rfl.qnan, Rfl.qnan, Rfl.qnan) := by
    intro m hm
    by_cases h : m = c.pin
    · subst h
      rw [Function.update_self, if_pos W.ok.pin, if_pos (i4 hwet), hqu _ (i4 hwet)]
    · rw [Function.update_of_ne h, if_pos hm]
  refine ⟨⟨old, _, qu, φ, nw⟩, by unfold step; rw [hreg]; dsimp only [Res.bind]; rw [f1]; dsimp only [ofMat, Res.bind]; rw [hv]; rfl,
    ?_, ?_, i4 hwet, i1, fun n hn => (i3 n hn).1, f2, ?_, ?_⟩
  · intro m hm
    dsimp only
    rw [e1 m hm]
    split_ifs with h
    · exact Or.inr (hqu m h)
    · exact Or.inl rfl
  · dsimp only
    rw [e1 _ W.ok.pin, if_pos (i4 hwet), hqu _ (i4 hwet)]
  · intro n hn
    have h := (i6 n (hkeep n hn)).2
    dsimp only
    rw [e1 n (i3 n h).1, if_pos h, hqu n h]
  · intro n hn
    exact e1 n hn

/-- The surface is level, passes through the pinning bottle, and the casts of `K` are on it. -/
def HoldsFlat (c : Cfg (Rfl rnd)) (σ τ p : α) (stp0 stp : Surf (Rfl rnd)) : Prop :=
  Level c.N σ τ p stp ∧ stp c.pin = (Rfl.fin σ, Rfl.fin τ, Rfl.fin p) ∧
    ∀ n, Reach c.G (below c p stp0) c.pin n → stp n = (Rfl.fin σ, Rfl.fin τ, Rfl.fin p)

theorem HoldsFlat.next {stp0 stp : Surf (Rfl rnd)} (h : HoldsFlat c σ τ p stp0 stp) {n : ℕ} (hn : Reach c.G (below c p stp0) c.pin n) :
    Reach c.G (below c p stp) c.pin n := by
  refine reach_mono_flat hn fun m hm => ?_
  have hb : below c p stp0 m = true := by obtain ⟨k, w⟩ := hm; exact w.good
  unfold below wet at hb ⊢
  rw [Bool.and_eq_true] at hb
  rw [h.2.2 m hm, hb.2]
  rfl

theorem loop_level (W : FlatWorld c σ τ p) (hml : lt (Rfl.fin p) (c.pml c.pin) = false) (stp0 : Surf (Rfl rnd)) :
    ∀ (left k : ℕ) (s : State (Rfl rnd)), HoldsFlat c σ τ p stp0 s.stp →
      ∃ s', loop c (Rfl.fin p) left (k + 1) s = .ok s' ∧ HoldsFlat c σ τ p stp0 s'.stp ∧ (left = 0 ∧ s' = s ∨ k < s'.last) := by
  intro left
  induction left with
  | zero => intro k s h; exact ⟨s, rfl, h, Or.inl ⟨rfl, rfl⟩⟩
  | succ left ih =>
    intro k s h
    obtain ⟨r, h1, h2, h3, -, -, -, -, h5, -⟩ := step_level W (k + 1) h.1 h.2.1 hml
    have hr : HoldsFlat c σ τ p stp0 r.new := ⟨h2, h3, fun n hn => h5 n (h.next hn)⟩
    unfold loop
    rw [h1]
    show ∃ s', (if converged c (k + 1) r (dpRMS c s.rms r) = true then _ else _) = _ ∧ _
    split_ifs
    · exact ⟨_, rfl, hr, Or.inr (by show k < k + 1; omega)⟩
    · obtain ⟨s', g1, g2, g3⟩ := ih (k + 1) (after c (k + 1) s r) hr
      refine ⟨s', g1, g2, Or.inr ?_⟩
      rcases g3 with ⟨_, rfl⟩ | g3
      · show k < k + 1; omega
      · omega

/-- `p_init` is the pressure `p`, or an array of it (casts may be left out), at which every cast has `σ` and `τ` or nothing. -/
def FlatInit (c : Cfg (Rfl rnd)) (σ τ p : α) : PInit (Rfl rnd) → Prop
  | .scalar q => q = Rfl.fin p
  | .array q => q c.pin = Rfl.fin p ∧ ∀ n < c.N,
      (q n = Rfl.fin p ∧ interpTwo c (Rfl.fin p) n = some (Rfl.fin σ, Rfl.fin τ)) ∨ ∃ t, interpTwo c (q n) n = some (Rfl.qnan, t)

/-- **C158** The initial surface is level. -/
theorem init_level (W : FlatWorld c σ τ p) {P : PInit (Rfl rnd)} (hP : FlatInit c σ τ p P)
    (hpin : interpTwo c (Rfl.fin p) c.pin = some (Rfl.fin σ, Rfl.fin τ)) :
    ∃ stp0, init c P = .ok stp0 ∧ Level c.N σ τ p stp0 ∧ stp0 c.pin = (Rfl.fin σ, Rfl.fin τ, Rfl.fin p) ∧ pinPOf c P = Rfl.fin p := by
  cases P with
  | scalar q =>
    obtain rfl : q = Rfl.fin p := hP
    obtain ⟨one, hone⟩ : ∃ x : Surf (Rfl rnd), x = Function.update (fun _ => (nan, nan, nan)) c.pin (Rfl.fin σ, Rfl.fin τ, Rfl.fin p) := ⟨_, rfl⟩
    have hpin1 : one c.pin = (Rfl.fin σ, Rfl.fin τ, Rfl.fin p) := by rw [hone, Function.update_self]
    have hl1 : Level c.N σ τ p one := by
      intro m _
      by_cases h : m = c.pin
      · rw [h]; exact Or.inr hpin1
      · rw [hone, Function.update_of_ne h]; exact Or.inl rfl
    obtain ⟨r, w1, w2, w3⟩ := wetting_level W hl1
    have hw : wet one c.pin = true := by unfold wet; rw [hpin1]; rfl
    have hpin2 : r.1 c.pin = (Rfl.fin σ, Rfl.fin τ, Rfl.fin p) := by rw [w3 c.pin ⟨0, .root hw⟩, hpin1]
    have hraw : initRaw c (.scalar (Rfl.fin p)) = .ok r.1 := by
      unfold initRaw
      dsimp only
      rw [hpin]
      show (wetting c (Function.update (fun _ => (nan, nan, nan)) c.pin (Rfl.fin σ, Rfl.fin τ, Rfl.fin p))).bind _ = _
      rw [← hone, w1]; rfl
    refine ⟨fun m => if isNaN (r.1 m).1 then ((r.1 m).1, (r.1 m).2.1, nan) else r.1 m, ?_, ?_, ?_, rfl⟩
    · unfold init
      rw [hraw]
      show (if isNaN (r.1 c.pin).1 = true then _ else _) = _
      rw [if_neg (by rw [hpin2]; simp)]
    · intro m hm
      dsimp only
      split_ifs
      · exact Or.inl rfl
      · exact w2 m hm
    · dsimp only
      rw [hpin2, if_neg (by simp)]
  | array q =>
    obtain ⟨hq, hq'⟩ := hP
    have hraw : initRaw c (.array q) = .ok fun m => if m < c.N then ((((interpTwo c (q m) m).getD (nan, nan)).1), ((interpTwo c (q m) m).getD (nan, nan)).2, q m)
          else (nan, nan, nan) := by
      unfold initRaw
      dsimp only
      rw [if_pos]
      intro m hm
      rcases hq' m hm with ⟨h, h'⟩ | ⟨t, h⟩
      · rw [h, h']; rfl
      · rw [h]; rfl
    refine ⟨_, by
      unfold init
      rw [hraw]
      show (if isNaN (if c.pin < c.N then _ else _ : Rfl rnd × Rfl rnd × Rfl rnd).1 = true then _ else _) = _
      rw [if_neg]
      rw [if_pos W.ok.pin, hq, hpin]
      simp, ?_, ?_, hq⟩
    · intro m hm
      simp only [if_pos hm]
      rcases hq' m hm with ⟨h, h'⟩ | ⟨t, h⟩
      · rw [h, h']; right; simp
      · rw [h]; left; rfl
    · simp only [if_pos W.ok.pin, hq, hpin]
      simp

/-- **C158** A run of `omega_surf` from a level surface in an ocean where the water at that pressure is the same everywhere: it returns, the result is the same
level surface (each cast holds exactly the initial bottle or is dry), and no cast is lost that is connected with the pinning cast below the mixed layer. -/
theorem omega_flat_partial (W : FlatWorld c σ τ p) {P : PInit (Rfl rnd)} (hP : FlatInit c σ τ p P)
    (hpin : interpTwo c (Rfl.fin p) c.pin = some (Rfl.fin σ, Rfl.fin τ)) (hml : lt (Rfl.fin p) (c.pml c.pin) = false)
    (hd : c.diags = true → 1 ≤ c.iterMax) :
    ∃ s stp0, omega c P = .ok s ∧ init c P = .ok stp0 ∧ Level c.N σ τ p stp0 ∧ Level c.N σ τ p s.stp ∧
      s.stp c.pin = (Rfl.fin σ, Rfl.fin τ, Rfl.fin p) ∧
      ∀ n, Reach c.G (fun n => isFinite (stp0 n).2.2 && !lt (Rfl.fin p) (c.pml n)) c.pin n → s.stp n = (Rfl.fin σ, Rfl.fin τ, Rfl.fin p) := by
  obtain ⟨stp0, h0, h1, h2, h3⟩ := init_level W hP hpin
  have hH : HoldsFlat c σ τ p stp0 stp0 := ⟨h1, h2, fun n hn => h1.wet (reach_range W.ok hn) (by
    obtain ⟨k, w⟩ := hn
    have := w.good
    unfold below at this
    rw [Bool.and_eq_true] at this
    exact this.1)⟩
  obtain ⟨s', g1, g2, g3⟩ := loop_level W hml stp0 c.iterMax 0 ⟨stp0, lit 0, if c.diags then [diag0 c stp0] else [], 0⟩ hH
  refine ⟨s', stp0, ?_, h0, h1, g2.1, g2.2.1, g2.2.2⟩
  unfold omega
  rw [h0]
  show (loop c (pinPOf c P) c.iterMax (0 + 1) _).bind _ = _
  rw [h3, g1]
  show (if (c.diags && decide (s'.last = 0)) = true then _ else _) = _
  rw [if_neg]
  intro hh
  rw [Bool.and_eq_true, decide_eq_true_eq] at hh
  have := hd hh.1
  rcases g3 with ⟨h, _⟩ | h <;> omega

theorem mean_same_few (R : BinRound rnd) (hp : rnd p = p) {ns : List ℕ} (h0 : ns ≠ []) (h : ns.length ≤ 2) : meanR rnd (fun _ => p) ns = p := by
  obtain ⟨h1, h2⟩ := mean_few R hp hp (g := fun _ => p) h0 h fun _ _ => ⟨le_rfl, le_rfl⟩
  exact le_antisymm h2 h1

theorem mean_same_four (R : BinRound rnd) (hf : ∀ x, rnd x = x → rnd (rnd (2 * x + x) + x) = 4 * x) (hp : rnd p = p) {ns : List ℕ}
    (h : ns.length = 4) : meanR rnd (fun _ => p) ns = p := by
  obtain ⟨h1, h2⟩ := mean_four R hf hp hp (g := fun _ => p) h fun _ _ => ⟨le_rfl, le_rfl⟩
  exact le_antisymm h2 h1

/-- The ratios of the grid are numbers. -/
def FiniteRatio : Ratio (Rfl rnd) → Prop
  | .scalar d => isFinite d = true
  | .arr l => ∀ d ∈ l, isFinite d = true

/-- The Poisson formulation does not correct a level surface. -/
theorem poisson_flat (R : BinRound rnd) {eosST : Ntp.EosST (Rfl rnd)} (E : EosAt rnd eosST σ τ p) {spsolve} (hz : ZeroSolve (rnd := rnd) spsolve)
    {edges : List (ℕ × ℕ)} {ratio : Ratio (Rfl rnd)} (hr : FiniteRatio ratio) {s t q : ℕ → Rfl rnd} {m : List ℕ} {pin : ℕ} (hm : m.Nodup) (hpin : pin ∈ m)
    (h : LevelOn σ τ p m s t q) : ∃ φ, poisson spsolve eosST s t q edges ratio m pin = .ok φ ∧ ZeroOn m φ := by
  obtain ⟨φ, hφ⟩ := poisson_total spsolve eosST edges ratio s t q m pin (List.ne_nil_of_mem hpin) hm
  refine ⟨φ, hφ, poisson_level R E hz hm hpin h ?_ hφ⟩
  cases ratio <;> exact hr

/-- The gradient formulation does not correct a level surface. -/
theorem gradient_flat (R : BinRound rnd) {eosST : Ntp.EosST (Rfl rnd)} (E : EosAt rnd eosST σ τ p) {lsqr} (hz : ZeroLsqr (rnd := rnd) lsqr)
    {edges : List (ℕ × ℕ)} {ratio : Ratio (Rfl rnd)} (hr : FiniteRatio ratio) {s t q : ℕ → Rfl rnd} {m : List ℕ} {pin : ℕ} (hm : m.Nodup) (hpin : pin ∈ m)
    (h : LevelOn σ τ p m s t q) : ∃ φ, gradient lsqr eosST s t q edges ratio m pin = .ok φ ∧ ZeroOn m φ := by
  obtain ⟨φ, hφ⟩ := gradient_total lsqr eosST edges ratio s t q m pin (List.ne_nil_of_mem hpin) hm
  refine ⟨φ, hφ, gradient_level R E hz hm hpin h ?_ hφ⟩
  cases ratio <;> exact hr

/-- The mean size of the correction of a level surface is zero. -/
theorem phiMAV_level (R : BinRound rnd) {r : Iter (Rfl rnd)} (hq : c.pin ∈ r.qu) (hN : c.pin < c.N) (hz : ZeroOn r.qu r.phi) : phiMAV c r = Rfl.fin 0 := by
  unfold phiMAV nanmean
  have hall : ∀ x ∈ ((List.range c.N).map fun n => FloatLike.abs (r.phi n)).filter (fun x => !isNaN x), x = Rfl.fin 0 := by
    intro x hx
    obtain ⟨hx, hx'⟩ := List.mem_filter.1 hx
    obtain ⟨n, -, rfl⟩ := List.mem_map.1 hx
    rw [hz n] at hx' ⊢
    split_ifs at hx' ⊢
    · rw [Rfl.abs_fin, abs_zero]
    · cases hx'
  have hmem : Rfl.fin 0 ∈ ((List.range c.N).map fun n => FloatLike.abs (r.phi n)).filter (fun x => !isNaN x) := by
    refine List.mem_filter.2 ⟨List.mem_map.2 ⟨c.pin, List.mem_range.2 hN, ?_⟩, rfl⟩
    rw [hz, if_pos hq, Rfl.abs_fin, abs_zero]
  generalize ((List.range c.N).map fun n => FloatLike.abs (r.phi n)).filter (fun x => !isNaN x) = l at hall hmem
  have hne : l.length ≠ 0 := by
    intro h
    rw [List.length_eq_zero_iff.1 h] at hmem
    cases hmem
  dsimp only
  rw [if_neg hne]
  unfold Ntp.sum
  rw [lit_zero R, sum_level R l hall, Rfl.lit_eq, Rfl.fin_div, zero_div, R.zero]
  rw [Rat.cast_natCast]
  intro h
  exact hne (by exact_mod_cast R.eq_zero_iff.1 h)

theorem loop_flat_stops (W : FlatWorld c σ τ p) (hml : lt (Rfl.fin p) (c.pml c.pin) = false) (htol : lt (Rfl.fin 0) c.tolPhi = true) :
    ∀ (left k : ℕ) (s : State (Rfl rnd)), Level c.N σ τ p s.stp → s.stp c.pin = (Rfl.fin σ, Rfl.fin τ, Rfl.fin p) →
      ∀ s', loop c (Rfl.fin p) (left + 1) (k + 1) s = .ok s' → s'.last = min (k + 1 + left) (max (k + 1) c.iterMin) := by
  intro left
  induction left with
  | zero =>
    intro k s h hp s' hs
    obtain ⟨r, h1, -⟩ := step_level W (k + 1) h hp hml
    unfold loop at hs
    rw [h1] at hs
    change (if converged c (k + 1) r (dpRMS c s.rms r) = true then _ else _) = _ at hs
    have : s'.last = k + 1 := by
      split_ifs at hs
      · cases hs; rfl
      · cases hs; rfl
    rw [this]
    omega
  | succ left ih =>
    intro k s h hp s' hs
    obtain ⟨r, h1, h2, h3, h4, -, h6, h7, -⟩ := step_level W (k + 1) h hp hml
    have hphi := phiMAV_level W.rounding h4 W.ok.pin h7
    have hconv : converged c (k + 1) r (dpRMS c s.rms r) = decide (c.iterMin ≤ k + 1) := by
      unfold converged
      rw [hphi, htol, Bool.true_or, Bool.true_and]
    unfold loop at hs
    rw [h1] at hs
    change (if converged c (k + 1) r (dpRMS c s.rms r) = true then _ else _) = _ at hs
    rw [hconv] at hs
    split_ifs at hs with hi
    · cases hs
      rw [decide_eq_true_eq] at hi
      show k + 1 = _
      omega
    · rw [decide_eq_true_eq] at hi
      have := ih (k + 1) (after c (k + 1) s r) h2 h3 s' hs
      rw [this]
      omega

/-- **C158** With a positive tolerance for the mean correction the run stops as soon as it may. -/
theorem omega_flat_stops (W : FlatWorld c σ τ p) {P : PInit (Rfl rnd)} (hP : FlatInit c σ τ p P)
    (hpin : interpTwo c (Rfl.fin p) c.pin = some (Rfl.fin σ, Rfl.fin τ)) (hml : lt (Rfl.fin p) (c.pml c.pin) = false)
    (htol : lt (Rfl.fin 0) c.tolPhi = true) {s : State (Rfl rnd)} (hs : omega c P = .ok s) : s.last = min c.iterMax (max 1 c.iterMin) := by
  obtain ⟨stp0, h0, h1, h2, h3⟩ := init_level W hP hpin
  unfold omega at hs
  rw [h0] at hs
  change (loop c (pinPOf c P) c.iterMax (0 + 1) _).bind _ = _ at hs
  rw [h3] at hs
  cases hl : loop c (Rfl.fin p) c.iterMax (0 + 1) ⟨stp0, lit 0, if c.diags then [diag0 c stp0] else [], 0⟩ with
  | ok s' =>
    rw [hl] at hs
    change (if (c.diags && decide (s'.last = 0)) = true then _ else _) = _ at hs
    have : s' = s := by
      split_ifs at hs
      cases hs; rfl
    subst this
    cases hm : c.iterMax with
    | zero =>
      rw [hm] at hl
      unfold loop at hl
      cases hl
      simp
    | succ m =>
      rw [hm] at hl
      have := loop_flat_stops W hml htol m 0 _ h1 h2 _ hl
      rw [this]
      omega
  | indexError => rw [hl] at hs; cases hs
  | runtimeError => rw [hl] at hs; cases hs
  | unbound => rw [hl] at hs; cases hs
  | noReturn => rw [hl] at hs; cases hs

/-! ## An example: two equal casts and land, any rounding of double precision accuracy -/

theorem exFlatWorld {rnd : ℝ → ℝ} (R : BinRound rnd) {spsolve} (hz : ZeroSolve (rnd := rnd) spsolve) : ∃ σ τ,
    FlatWorld (floatCfg rnd spsolve) σ τ 1 ∧ interpTwo (floatCfg rnd spsolve) (Rfl.fin 1) 0 = some (Rfl.fin σ, Rfl.fin τ) := by
  obtain ⟨σ, τ, H⟩ := exFlat R
  have hv : validRange2 (exCastR rnd).P (exCastR rnd).S = validRange2 (exCastR rnd).P (exCastR rnd).T := by
    rw [exGoodR.S.vr.1, exGoodR.T.vr.1]
  refine ⟨σ, τ, ⟨R, (floatWorld R spsolve).ok, ⟨_, rfl⟩, ?_, ?_, ?_⟩, (ppinterp1Two_eq hv _ _ _ _).2 H.same⟩
  · intro m hm h2d
    left
    have hm : m < 3 := hm
    by_cases h : m = 2
    · exfalso
      subst h
      have := (ofCasts_data 0 (Rfl.fin 0) (floatCfg rnd spsolve).eos .linear (floatCfg rnd spsolve).casts (fun _ => Rfl.qnan) 2).2 h2d
      simp only [Ocean.ofCasts, decide_eq_true_iff] at this
      have hl : LandR ((floatCfg rnd spsolve).casts 2) := ⟨Nat.le_of_ble_eq_true rfl, Nat.le_of_ble_eq_true rfl⟩
      have := hl.1
      omega
    · refine ⟨fun s t _ => rnd (s - t), 0, 4, ?_⟩
      show FlatCast rnd .linear _ _ σ τ 1 0 4 (if m = 2 then _ else _)
      rw [if_neg h]
      exact H
  · intro m hm ns hns h0
    have hm : m < 3 := hm
    refine mean_same_few R R.one h0 (hns.length_le.trans ?_)
    show (exLine.nbrs m).length ≤ 2
    interval_cases m <;> decide
  · intro s t q m hm hpin h
    exact poisson_flat R (eosST := fun _ _ _ => (Rfl.fin 1, Rfl.fin (-1))) (ratio := .scalar (Rfl.fin 1)) ⟨1, -1, rfl⟩ hz rfl hm hpin h

/-- The run from the pressure 1, with a solver that finds zero: bottles are at exactly 1 with the initial salinity and temperature. -/
example {rnd : ℝ → ℝ} (R : BinRound rnd) : ∃ σ τ s, omega (floatCfg rnd fun _ _ _ _ => Rfl.fin 0) (.scalar (Rfl.fin 1)) = .ok s ∧
    s.stp 0 = (Rfl.fin σ, Rfl.fin τ, Rfl.fin 1) ∧ Level 3 σ τ 1 s.stp := by
  obtain ⟨σ, τ, W, h⟩ := exFlatWorld R (spsolve := fun _ _ _ _ => Rfl.fin 0) fun _ _ _ _ _ _ => rfl
  obtain ⟨s, _, h1, _, _, h2, h3, _⟩ := omega_flat_partial W (P := .scalar (Rfl.fin 1)) rfl h rfl fun _ => by show 1 ≤ 10; norm_num
  exact ⟨σ, τ, s, h1, h3, h2⟩

/-- The gradient formulation with a solver that returns zero for zero. -/
example {rnd : ℝ → ℝ} (R : BinRound rnd) : ∃ φ, gradient (fun _ _ _ D _ => D 0) (fun _ _ _ => (Rfl.fin 2, Rfl.fin (-1)))
    (fun _ => Rfl.fin 35) (fun _ => Rfl.fin 4) (fun _ => (Rfl.fin 7 : Rfl rnd)) [(0, 1), (1, 2)] (.arr [Rfl.fin 1, Rfl.fin 3]) [0, 1, 2] 1 = .ok φ ∧
    ZeroOn [0, 1, 2] φ :=
  gradient_flat R (σ := 35) (τ := 4) (p := 7) ⟨2, -1, rfl⟩ (fun _ _ _ D h i _ => h 0) (by intro d hd; fin_cases hd <;> rfl) (by decide) (by decide)
    fun _ _ => ⟨rfl, rfl, rfl⟩

end Omega
