import Verif.Props.Traj

/-!
# Vertical solvers of the surface codes (C39, C40)
-/

set_option linter.unusedSectionVars false

namespace VertSolve
open FloatLike Fzero Interp Traj
open Fl hiding nan

variable {c : Cast (Fl ℝ)} {k K : ℕ} {a s t : ℕ → ℝ} {eos : Fl ℝ → Fl ℝ → Fl ℝ → Fl ℝ} {e : ℝ → ℝ → ℝ → ℝ} {smin : ℝ}

/-- The vertical solve on one cast, for a residual that is finite and continuous along the cast. -/
theorem vertsolve1_core (kind : PPKind) (G : GoodCast c k K a s t) (hs : ∀ i, k ≤ i → i < K → smin ≤ s i)
    {zf : Arr (Fl ℝ) → PPC (Fl ℝ) → PPC (Fl ℝ) → Fl ℝ → Fl ℝ} {res : ℝ → ℝ → ℝ → ℝ} {tol x0 : ℝ} (htol : 0 < tol)
    (hz : ∀ P Sp Tp x s' t', ppval1NonanTwo (fin x) P Sp Tp 0 = (fin s', fin t') → smin ≤ s' →
      zf P Sp Tp (fin x) = fin (res s' t' x))
    (hc : ContinuousOn (fun y : ℝ × ℝ × ℝ => res y.1 y.2.1 y.2.2) {y | smin ≤ y.1})
    (n : ℕ) (hn : 2 * (a (K - 1) - a k) / tol ≤ n) :
    ∃ (Sp Tp : PPC (Fl ℝ)) (gS gT : ℝ → ℝ),
      ppcFn kind (c.P.slice k K) (c.S.slice k K) = some Sp ∧ ppcFn kind (c.P.slice k K) (c.T.slice k K) = some Tp ∧
      (c.P.slice k K).get 0 = fin (a k) ∧ (c.P.slice k K).get ((c.P.slice k K).size - 1) = fin (a (K - 1)) ∧
      (∀ x, a k ≤ x → x ≤ a (K - 1) → interpAt kind (fin x) c.P c.S = some (fin (gS x)) ∧
        interpAt kind (fin x) c.P c.T = some (fin (gT x))) ∧
      ((guessToBounds (n + 13) (zf (c.P.slice k K) Sp Tp) (fin x0) (fin (a k)) (fin (a (K - 1))) = .ret (Fl.nan, Fl.nan) ∧
        0 < res (gS (a k)) (gT (a k)) (a k) * res (gS (a (K - 1))) (gT (a (K - 1))) (a (K - 1))) ∨
      ∃ lb ub p z, guessToBounds (n + 13) (zf (c.P.slice k K) Sp Tp) (fin x0) (fin (a k)) (fin (a (K - 1))) = .ret (fin lb, fin ub) ∧
        brent (n + 13) (zf (c.P.slice k K) Sp Tp) (fin lb) (fin ub) (fin tol) = .ret (fin p) ∧
        ppval1NonanTwo (fin p) (c.P.slice k K) Sp Tp 0 = (fin (gS p), fin (gT p)) ∧
        a k ≤ p ∧ p ≤ a (K - 1) ∧ a k ≤ z ∧ z ≤ a (K - 1) ∧
        res (gS z) (gT z) z = 0 ∧ |z - p| ≤ 2 * (2 * (1 / 2 ^ 52) * |p| + tol)) := by
  obtain ⟨Sp, Tp, gS, gT, h1, h2, h3, h4, h5, h6⟩ := G.curves kind hs
  have htwo := G.S.two
  have hAB := G.S.a_le
  have hP1 : (c.P.slice k K).get ((c.P.slice k K).size - 1) = fin (a (K - 1)) := by
    show c.P.get (k + (K - k - 1)) = _
    rw [show k + (K - k - 1) = K - 1 by omega]
    exact G.S.hX (K - 1) (by omega) (by omega)
  refine ⟨Sp, Tp, gS, gT, h1, h2, G.S.hX k (le_refl _) (by omega), hP1,
    fun x hx hx' => ⟨(h3 x hx hx').2.1, (h3 x hx hx').2.2.1⟩, ?_⟩
  have hf : FiniteOn (zf (c.P.slice k K) Sp Tp) (fun x => res (gS x) (gT x) x) (a k) (a (K - 1)) := by
    intro x hx hx'
    exact hz _ _ _ _ _ _ (h3 x hx hx').1 (h3 x hx hx').2.2.2
  have hg : ContinuousOn (fun x => res (gS x) (gT x) x) (Set.Icc (a k) (a (K - 1))) :=
    hc.comp (h5.prodMk (h6.prodMk continuousOn_id)) (fun x hx => (h3 x hx.1 hx.2).2.2.2)
  rcases search_solve (x := x0) n hAB hf hg htol hn with h | ⟨lb, ub, r, z, hb, hr, r1, r2, z1, z2, hz, hd⟩
  · exact Or.inl h
  · exact Or.inr ⟨lb, ub, r, z, hb, hr, (h3 r r1 r2).1, r1, r2, z1, z2, hz, hd⟩

/-- Specification of the result `r` on a cast with data: all NaN when the residuals at both ends have the same strict
sign, or a point `p` of the data range, with `s` and `t` the interpolants at `p`, near an exact zero `z` of the residual. -/
def Solved (kind : PPKind) (c : Cast (Fl ℝ)) (A B : ℝ) (res : ℝ → ℝ → ℝ → ℝ) (tol : ℝ) (r : Fl ℝ × Fl ℝ × Fl ℝ) : Prop :=
  ∃ gS gT : ℝ → ℝ,
    (∀ x, A ≤ x → x ≤ B → interpAt kind (fin x) c.P c.S = some (fin (gS x)) ∧ interpAt kind (fin x) c.P c.T = some (fin (gT x))) ∧
    ((r = (Fl.nan, Fl.nan, Fl.nan) ∧ 0 < res (gS A) (gT A) A * res (gS B) (gT B) B) ∨
      ∃ p z, r = (fin (gS p), fin (gT p), fin p) ∧ A ≤ p ∧ p ≤ B ∧ A ≤ z ∧ z ≤ B ∧ res (gS z) (gT z) z = 0 ∧
        |z - p| ≤ 2 * (2 * (1 / 2 ^ 52) * |p| + tol))

theorem vertsolve1_solved (kind : PPKind) (G : GoodCast c k K a s t) (hs : ∀ i, k ≤ i → i < K → smin ≤ s i)
    {zf : Arr (Fl ℝ) → PPC (Fl ℝ) → PPC (Fl ℝ) → Fl ℝ → Fl ℝ} {res : ℝ → ℝ → ℝ → ℝ} {tol : ℝ} (htol : 0 < tol)
    (hz : ∀ P Sp Tp x s' t', ppval1NonanTwo (fin x) P Sp Tp 0 = (fin s', fin t') → smin ≤ s' →
      zf P Sp Tp (fin x) = fin (res s' t' x))
    (hc : ContinuousOn (fun y : ℝ × ℝ × ℝ => res y.1 y.2.1 y.2.2) {y | smin ≤ y.1})
    (n : ℕ) (hn : 2 * (a (K - 1) - a k) / tol ≤ n) :
    ∃ r, vertsolve1 (n + 13) (fin tol) kind zf c = .ret r ∧ Solved kind c (a k) (a (K - 1)) res tol r := by
  obtain ⟨Sp, Tp, gS, gT, h1, h2, hP0, hP1, hi, h⟩ := vertsolve1_core (x0 := (a k + a (K - 1)) * ((1/2 : ℚ) : ℝ)) kind G hs htol hz hc n hn
  have htwo := G.S.two
  have hG : vertsolve1 (n + 13) (fin tol) kind zf c =
      (guessToBounds (n + 13) (zf (c.P.slice k K) Sp Tp) (fin ((a k + a (K - 1)) * ((1/2 : ℚ) : ℝ))) (fin (a k)) (fin (a (K - 1)))).bind fun ab =>
        if isFinite ab.1 then
          (brent (n + 13) (zf (c.P.slice k K) Sp Tp) ab.1 ab.2 (fin tol)).bind fun p =>
            let st := ppval1NonanTwo p (c.P.slice k K) Sp Tp 0
            .ret (st.1, st.2, p)
        else .ret (nan, nan, nan) := by
    unfold vertsolve1
    simp only [G.S.vr.2, h1, h2, hP0, hP1, fin_add, fin_mul, lit_eq]
    rw [if_pos (by omega)]
  rw [hG]
  rcases h with ⟨h, h'⟩ | ⟨lb, ub, p, z, hb, hr, hv, p1, p2, z1, z2, hz, hd⟩
  · rw [h]
    exact ⟨_, rfl, gS, gT, hi, Or.inl ⟨rfl, h'⟩⟩
  · refine ⟨(fin (gS p), fin (gT p), fin p), ?_, gS, gT, hi, Or.inr ⟨p, z, rfl, p1, p2, z1, z2, hz, hd⟩⟩
    rw [hb]
    simp only [Outcome.bind, isFinite_fin, if_true, hr, hv]

/-- **C39** Potential density surface on one cast: the residual is `eos(s, t, ref_p) - isoval`. -/
theorem potential_spec (kind : PPKind) (E : EosOn eos e smin) (G : GoodCast c k K a s t) (hs : ∀ i, k ≤ i → i < K → smin ≤ s i)
    {tol refP isoval : ℝ} (htol : 0 < tol) (n : ℕ) (hn : 2 * (a (K - 1) - a k) / tol ≤ n) :
    ∃ r, vertsolve1 (n + 13) (fin tol) kind (fun P Sp Tp => zeroPotential eos P Sp Tp (fin refP) (fin isoval)) c = .ret r ∧
      Solved kind c (a k) (a (K - 1)) (fun s t _ => e s t refP - isoval) tol r := by
  refine vertsolve1_solved kind G hs htol ?_ ?_ n hn
  · intro P Sp Tp x s' t' h hs'
    unfold zeroPotential
    simp only [h]
    rw [E.val _ _ _ hs', fin_sub]
  · refine ContinuousOn.sub ?_ continuousOn_const
    exact E.cont.comp (f := fun y : ℝ × ℝ × ℝ => (y.1, y.2.1, refP)) (by fun_prop) (fun y hy => hy)

/-- **C39** Anomaly surface on one cast: the residual is `eos(s, t, p) - eos(ref_s, ref_t, p) - isoval`. -/
theorem anomaly_spec (kind : PPKind) (E : EosOn eos e smin) (G : GoodCast c k K a s t) (hs : ∀ i, k ≤ i → i < K → smin ≤ s i)
    {tol refS refT isoval : ℝ} (hr : smin ≤ refS) (htol : 0 < tol) (n : ℕ) (hn : 2 * (a (K - 1) - a k) / tol ≤ n) :
    ∃ r, vertsolve1 (n + 13) (fin tol) kind (fun P Sp Tp => zeroAnomaly eos P Sp Tp (fin refS, fin refT) (fin isoval)) c = .ret r ∧
      Solved kind c (a k) (a (K - 1)) (fun s t p => e s t p - e refS refT p - isoval) tol r := by
  refine vertsolve1_solved kind G hs htol ?_ ?_ n hn
  · intro P Sp Tp x s' t' h hs'
    unfold zeroAnomaly
    simp only [h]
    rw [E.val _ _ _ hs', E.val _ _ _ hr, fin_sub, fin_sub]
  · refine ContinuousOn.sub (ContinuousOn.sub E.cont ?_) continuousOn_const
    exact E.cont.comp (f := fun y : ℝ × ℝ × ℝ => (refS, refT, y.2.2)) (by fun_prop) (fun y hy => hr)

section generic
variable {F : Type*} [FloatLike F]

/-- **C39** A cast with under two valid sites gives NaN (any arithmetic). -/
theorem vertsolve1_few (fuel : ℕ) (tol : F) (kind : PPKind) (zf : Arr F → PPC F → PPC F → F → F) (c : Cast F)
    (h : (validRange2 c.S c.P).2 ≤ (validRange2 c.S c.P).1 + 1) : vertsolve1 fuel tol kind zf c = .ret (nan, nan, nan) := by
  unfold vertsolve1
  simp only
  rw [if_neg (by omega)]

/-- **C39** The solve over all casts is the solve on each cast, independently (any arithmetic): entry `n` of the result is the
one-cast result on cast `n`, entries not visited are NaN, and it returns exactly when every one-cast solve returns. -/
theorem vertsolve_pointwise (fuel : ℕ) (tol : F) (kind : PPKind) (zf : Arr F → PPC F → PPC F → F → F) (casts : ℕ → Cast F) (N : ℕ)
    (out : ℕ → F × F × F) :
    vertsolve fuel tol kind zf casts N = .ret out ↔
      (∀ n, n < N → vertsolve1 fuel tol kind zf (casts n) = .ret (out n)) ∧ ∀ n, N ≤ n → out n = (nan, nan, nan) := by
  induction N generalizing out with
  | zero =>
    constructor
    · intro h; cases h; exact ⟨fun n hn => absurd hn (Nat.not_lt_zero n), fun _ _ => rfl⟩
    · rintro ⟨_, h⟩
      show Outcome.ret _ = _
      congr 1
      funext n; exact (h n (Nat.zero_le n)).symm
  | succ N ih =>
    unfold vertsolve
    constructor
    · intro h
      obtain ⟨stp, h1, h2⟩ := bind_ret h
      obtain ⟨r, h3, h4⟩ := bind_ret h2
      cases h4
      obtain ⟨i1, i2⟩ := (ih stp).mp h1
      refine ⟨fun n hn => ?_, fun n hn => ?_⟩
      · by_cases hnN : n = N
        · subst hnN; rw [Function.update_self]; exact h3
        · rw [Function.update_of_ne hnN]; exact i1 n (by omega)
      · rw [Function.update_of_ne (by omega)]; exact i2 n (by omega)
    · rintro ⟨h1, h2⟩
      rw [(ih (Function.update out N (nan, nan, nan))).mpr ⟨?_, ?_⟩, h1 N (by omega)]
      · simp only [Outcome.bind, Function.update_idem, Function.update_eq_self]
      · intro n hn; rw [Function.update_of_ne (by omega)]; exact h1 n (by omega)
      · intro n hn
        by_cases hnN : n = N
        · subst hnN; rw [Function.update_self]
        · rw [Function.update_of_ne hnN]; exact h2 n (by omega)

/-- **C40** A zero correction leaves the cast's `s, t, p` unchanged (any arithmetic). -/
theorem omega_zero (fuel : ℕ) (tol : F) (kind : PPKind) (eos : F → F → F → F) (phi : F) (b : F × F × F) (c : Cast F)
    (h : feq phi (lit 0) = true) : omegaSolve1 fuel tol kind eos phi b c = .ret b := by
  unfold omegaSolve1
  rw [if_pos h]

/-- **C40** A correction that is not finite (e.g. NaN), or a cast with under two valid sites, gives NaN in all three. -/
theorem omega_nan (fuel : ℕ) (tol : F) (kind : PPKind) (eos : F → F → F → F) (phi : F) (b : F × F × F) (c : Cast F)
    (h0 : feq phi (lit 0) = false)
    (h : isFinite phi = false ∨ (validRange2 c.S c.P).2 ≤ (validRange2 c.S c.P).1 + 1) :
    omegaSolve1 fuel tol kind eos phi b c = .ret (nan, nan, nan) := by
  unfold omegaSolve1
  rw [if_neg (by rw [h0]; simp)]
  simp only
  rw [if_neg]
  rintro ⟨h1, h2⟩
  rcases h with h | h
  · rw [h] at h2; cases h2
  · omega

/-- **C40** The update over all casts acts on each cast independently (any arithmetic). -/
theorem vertsolveOmega_pointwise (fuel : ℕ) (tol : F) (kind : PPKind) (eos : F → F → F → F) (phi : ℕ → F) (casts : ℕ → Cast F)
    (stp : ℕ → F × F × F) (N : ℕ) (out : ℕ → F × F × F) :
    vertsolveOmega fuel tol kind eos phi casts stp N = .ret out ↔
      (∀ n, n < N → omegaSolve1 fuel tol kind eos (phi n) (stp n) (casts n) = .ret (out n)) ∧ ∀ n, N ≤ n → out n = stp n := by
  induction N generalizing out with
  | zero =>
    constructor
    · intro h; cases h; exact ⟨fun n hn => absurd hn (Nat.not_lt_zero n), fun _ _ => rfl⟩
    · rintro ⟨_, h⟩
      show Outcome.ret _ = _
      congr 1
      funext n; exact (h n (Nat.zero_le n)).symm
  | succ N ih =>
    unfold vertsolveOmega
    constructor
    · intro h
      obtain ⟨stp', h1, h2⟩ := bind_ret h
      obtain ⟨r, h3, h4⟩ := bind_ret h2
      cases h4
      obtain ⟨i1, i2⟩ := (ih stp').mp h1
      refine ⟨fun n hn => ?_, fun n hn => ?_⟩
      · by_cases hnN : n = N
        · subst hnN; rw [Function.update_self, ← i2 n (le_refl _)]; exact h3
        · rw [Function.update_of_ne hnN]; exact i1 n (by omega)
      · rw [Function.update_of_ne (by omega)]; exact i2 n (by omega)
    · rintro ⟨h1, h2⟩
      rw [(ih (Function.update out N (stp N))).mpr ⟨?_, ?_⟩]
      · simp only [Outcome.bind, Function.update_self, h1 N (by omega), Function.update_idem, Function.update_eq_self]
      · intro n hn; rw [Function.update_of_ne (by omega)]; exact h1 n (by omega)
      · intro n hn
        by_cases hnN : n = N
        · subst hnN; rw [Function.update_self]
        · rw [Function.update_of_ne hnN]; exact h2 n (by omega)

end generic

/-- **C40** A nonzero finite correction `phi` on a cast with data: either all NaN, or the surface moves to a point where the
potential density referenced to the old pressure `p0` has changed by `phi`, to solver accuracy. -/
theorem omega_spec (kind : PPKind) (E : EosOn eos e smin) (G : GoodCast c k K a s t) (hs : ∀ i, k ≤ i → i < K → smin ≤ s i)
    {tol phi s0 t0 p0 : ℝ} (hphi : phi ≠ 0) (hs0 : smin ≤ s0) (htol : 0 < tol) (n : ℕ) (hn : 2 * (a (K - 1) - a k) / tol ≤ n) :
    ∃ r, omegaSolve1 (n + 13) (fin tol) kind eos (fin phi) (fin s0, fin t0, fin p0) c = .ret r ∧
      Solved kind c (a k) (a (K - 1)) (fun s t _ => e s t p0 - (e s0 t0 p0 + phi)) tol r := by
  have hz : ∀ P Sp Tp x s' t', ppval1NonanTwo (fin x) P Sp Tp 0 = (fin s', fin t') → smin ≤ s' →
      zeroPotential eos P Sp Tp (fin p0) (fin (e s0 t0 p0 + phi)) (fin x) = fin (e s' t' p0 - (e s0 t0 p0 + phi)) := by
    intro P Sp Tp x s' t' h hs'
    unfold zeroPotential
    simp only [h]
    rw [E.val _ _ _ hs', fin_sub]
  have hc : ContinuousOn (fun y : ℝ × ℝ × ℝ => e y.1 y.2.1 p0 - (e s0 t0 p0 + phi)) {y | smin ≤ y.1} := by
    refine ContinuousOn.sub ?_ continuousOn_const
    exact E.cont.comp (f := fun y : ℝ × ℝ × ℝ => (y.1, y.2.1, p0)) (by fun_prop) (fun y hy => hy)
  obtain ⟨Sp, Tp, gS, gT, h1, h2, hP0, hP1, hi, h⟩ := vertsolve1_core (x0 := p0) kind G hs
    (zf := fun P Sp Tp => zeroPotential eos P Sp Tp (fin p0) (fin (e s0 t0 p0 + phi)))
    (res := fun s t _ => e s t p0 - (e s0 t0 p0 + phi)) htol hz hc n hn
  have htwo := G.S.two
  have hG : omegaSolve1 (n + 13) (fin tol) kind eos (fin phi) (fin s0, fin t0, fin p0) c =
      (guessToBounds (n + 13) (zeroPotential eos (c.P.slice k K) Sp Tp (fin p0) (fin (e s0 t0 p0 + phi))) (fin p0) (fin (a k)) (fin (a (K - 1)))).bind fun ab =>
        if isFinite ab.1 then
          (brent (n + 13) (zeroPotential eos (c.P.slice k K) Sp Tp (fin p0) (fin (e s0 t0 p0 + phi))) ab.1 ab.2 (fin tol)).bind fun p =>
            let st := ppval1NonanTwo p (c.P.slice k K) Sp Tp 0
            .ret (st.1, st.2, p)
        else .ret (nan, nan, nan) := by
    unfold omegaSolve1
    rw [if_neg (by simpa using hphi)]
    simp only [G.S.vr.2, h1, h2, hP0, hP1, E.val _ _ _ hs0, fin_add, isFinite_fin]
    rw [if_pos ⟨by omega, trivial⟩]
  rw [hG]
  rcases h with ⟨h, h'⟩ | ⟨lb, ub, p, z, hb, hr, hv, p1, p2, z1, z2, hz, hd⟩
  · rw [h]
    exact ⟨_, rfl, gS, gT, hi, Or.inl ⟨rfl, h'⟩⟩
  · refine ⟨(fin (gS p), fin (gT p), fin p), ?_, gS, gT, hi, Or.inr ⟨p, z, rfl, p1, p2, z1, z2, hz, hd⟩⟩
    rw [hb]
    simp only [Outcome.bind, isFinite_fin, if_true, hr, hv]

/-- The hypotheses of the theorems above are met by `exCast` with the equation of state `s - t`. -/
example : ∃ r, vertsolve1 (600 + 13) (fin (1/100)) .pchip (fun P Sp Tp => zeroPotential (fun s t _ => s - t) P Sp Tp (fin 0) (fin 31)) exCast = .ret r ∧
    Solved .pchip exCast 0 3 (fun s t _ => s - t - 31) (1/100) r := by
  obtain ⟨r, h1, h2⟩ := potential_spec .pchip exEos exGood (fun i _ _ => by split_ifs <;> norm_num) (refP := 0) (isoval := 31)
    (tol := 1/100) (by norm_num) 600 (by norm_num)
  exact ⟨r, h1, by simpa using h2⟩

end VertSolve
