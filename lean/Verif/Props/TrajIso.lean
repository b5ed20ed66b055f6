import Verif.Props.OmegaConverge

/-!
# Neutral trajectories and wetting without thermobaricity follow isopycnals (C149)

If the density is a function of salinity and temperature plus a function of pressure, a neutral trajectory stays on an isopycnal up to the accuracy of the solver, so it does
not depend on the way; around a closed path it returns to where it started.  The surface grown by wetting is an isopycnal.
-/

namespace VertSolve
open FloatLike Fzero Interp Traj
open Fl hiding nan

set_option linter.unusedSectionVars false

variable {eos : Fl ℝ → Fl ℝ → Fl ℝ → Fl ℝ} {e : ℝ → ℝ → ℝ → ℝ} {smin tol : ℝ} {n : ℕ} {kind : PPKind} {f : ℝ → ℝ → ℝ} {g : ℝ → ℝ} {U ε N : ℝ}

/-- Specification: density splits into a function of salinity and temperature and a function of pressure. -/
def Splits (e : ℝ → ℝ → ℝ → ℝ) (smin : ℝ) (f : ℝ → ℝ → ℝ) (g : ℝ → ℝ) : Prop := ∀ s t p, smin ≤ s → e s t p = f s t + g p

/-- Specification: a well formed cast along which `f` changes by at most `U` per unit of pressure, with solver accuracies of at most `ε`. -/
structure IsoCast (kind : PPKind) (f : ℝ → ℝ → ℝ) (smin tol : ℝ) (n : ℕ) (U ε : ℝ) (c : Cast (Fl ℝ)) : Prop where
  data : ∃ k K a s t, GoodCast c k K a s t ∧ (∀ i, k ≤ i → i < K → smin ≤ s i) ∧ 2 * (a (K - 1) - a k) / tol ≤ n
  acc : ∀ x z s t, At kind c z s t → |z - x| ≤ acc tol x → |z - x| ≤ ε
  lip : ∀ x x' s t s' t', At kind c x s t → At kind c x' s' t' → |f s' t' - f s t| ≤ U * |x' - x|

/-- Specification: the values of `f` at the two ends of the cast are on the two sides of the interval from `lo` to `hi`. -/
def Spans (kind : PPKind) (f : ℝ → ℝ → ℝ) (c : Cast (Fl ℝ)) (lo hi : ℝ) : Prop :=
  ∀ k K a s t, GoodCast c k K a s t → ∃ s t s' t', At kind c (a k) s t ∧ At kind c (a (K - 1)) s' t' ∧ (f s t ≤ lo ∧ hi ≤ f s' t' ∨ f s' t' ≤ lo ∧ hi ≤ f s t)

/-- Specification of a point on the isopycnal `f = v`, within `β`, of the cast. -/
def OnIso (kind : PPKind) (f : ℝ → ℝ → ℝ) (smin : ℝ) (c : Cast (Fl ℝ)) (v β : ℝ) (x : Fl ℝ × Fl ℝ × Fl ℝ) : Prop :=
  ∃ s t p : ℝ, x = (fin s, fin t, fin p) ∧ smin ≤ s ∧ At kind c p s t ∧ |f s t - v| ≤ β

/-- **C149** One link: NaN, or on the isopycnal of the bottle; not NaN if the cast spans it. -/
theorem link_iso (E : EosOn eos e smin) (hf : Splits e smin f g) (htol : 0 < tol) (hU : 0 ≤ U) {c : Cast (Fl ℝ)} (hc : IsoCast kind f smin tol n U ε c)
    {sB tB pB : ℝ} (hsB : smin ≤ sB) :
    ∃ r, ntpBottleToCast (n + 13) (fin tol) eos kind (fin sB) (fin tB) (fin pB) c = .ret r ∧
      (OnIso kind f smin c (f sB tB) (U * ε) r ∨ r = (Fl.nan, Fl.nan, Fl.nan) ∧ ∀ lo hi, lo ≤ f sB tB → f sB tB ≤ hi → ¬ Spans kind f c lo hi) := by
  obtain ⟨k, K, a, s, t, G, hs, hn⟩ := hc.data
  obtain ⟨gS, gT, hi, h⟩ := ntp_spec kind E G hs (sB := sB) (tB := tB) (pB := pB) hsB htol n hn
  have hAB := G.S.a_le
  have hsm : ∀ x, a k ≤ x → x ≤ a (K - 1) → smin ≤ gS x := fun x h1 h2 => at_smin kind G hs h1 h2 (hi x h1 h2)
  rcases h with ⟨h, hpos⟩ | ⟨p, z, h, p1, p2, z1, z2, hz, hd⟩
  · refine ⟨_, h, .inr ⟨rfl, fun lo hi' h1 h2 hsp => ?_⟩⟩
    obtain ⟨s1, t1, s2, t2, q1, q2, q3⟩ := hsp k K a s t G
    have e1 := (hi (a k) le_rfl hAB)
    have e2 := (hi (a (K - 1)) hAB le_rfl)
    have i1 : s1 = gS (a k) := Fl.fin.inj (Option.some.inj (q1.1.symm.trans e1.1))
    have i2 : t1 = gT (a k) := Fl.fin.inj (Option.some.inj (q1.2.symm.trans e1.2))
    have i3 : s2 = gS (a (K - 1)) := Fl.fin.inj (Option.some.inj (q2.1.symm.trans e2.1))
    have i4 : t2 = gT (a (K - 1)) := Fl.fin.inj (Option.some.inj (q2.2.symm.trans e2.2))
    rw [hf _ _ _ hsB, hf _ _ _ hsB, hf _ _ _ (hsm _ le_rfl hAB), hf _ _ _ (hsm _ hAB le_rfl), add_sub_add_right_eq_sub, add_sub_add_right_eq_sub, ← i1, ← i2, ← i3, ← i4] at hpos
    rcases q3 with ⟨u1, u2⟩ | ⟨u1, u2⟩
    · exact absurd hpos (not_lt.2 (mul_nonpos_of_nonneg_of_nonpos (by linarith) (by linarith)))
    · exact absurd hpos (not_lt.2 (mul_nonpos_of_nonpos_of_nonneg (by linarith) (by linarith)))
  · refine ⟨_, h, .inl ⟨gS p, gT p, p, rfl, hsm p p1 p2, hi p p1 p2, ?_⟩⟩
    rw [hf _ _ _ hsB, hf _ _ _ (hsm z z1 z2), add_left_inj] at hz
    rw [hz]
    refine (hc.lip z p _ _ _ _ (hi z z1 z2) (hi p p1 p2)).trans (mul_le_mul_of_nonneg_left ?_ hU)
    rw [abs_sub_comm]
    exact hc.acc p z _ _ (hi z z1 z2) hd

theorem OnIso.mono {c : Cast (Fl ℝ)} {v β v' β' : ℝ} {x : Fl ℝ × Fl ℝ × Fl ℝ} (h : OnIso kind f smin c v β x) (hv : |v - v'| + β ≤ β') : OnIso kind f smin c v' β' x := by
  obtain ⟨s, t, p, h1, h2, h3, h4⟩ := h
  refine ⟨s, t, p, h1, h2, h3, ?_⟩
  have := abs_add_le (f s t - v) (v - v')
  rw [sub_add_sub_cancel] at this
  linarith

/-- The casts after the first. -/
theorem trajLoop_iso (E : EosOn eos e smin) (hf : Splits e smin f g) (htol : 0 < tol) (hU : 0 ≤ U) (hε : 0 ≤ ε) (cs : List (Cast (Fl ℝ))) :
    (∀ c ∈ cs, IsoCast kind f smin tol n U ε c) → ∀ s t p : ℝ, smin ≤ s →
    ∃ out : List (Fl ℝ × Fl ℝ × Fl ℝ), trajLoop (n + 13) (fin tol) eos kind (fin s, fin t, fin p) cs = .ret out ∧ out.length = cs.length ∧
      (∀ (i : ℕ) c x, cs[i]? = some c → out[i]? = some x → x = (Fl.nan, Fl.nan, Fl.nan) ∨ OnIso kind f smin c (f s t) ((i + 1) * (U * ε)) x) ∧
      ((∀ (i : ℕ) c, cs[i]? = some c → Spans kind f c (f s t - i * (U * ε)) (f s t + i * (U * ε))) → ∀ (i : ℕ) x, out[i]? = some x → x ≠ (Fl.nan, Fl.nan, Fl.nan)) := by
  induction cs with
  | nil => intro _ s t p _; exact ⟨[], rfl, rfl, by simp, by simp⟩
  | cons c cs ih =>
    intro hcs s t p hs
    obtain ⟨r, hr, hor⟩ := link_iso E hf htol hU (hcs c (by simp)) (tB := t) (pB := p) hs
    have hUε : 0 ≤ U * ε := mul_nonneg hU hε
    rcases hor with ⟨s', t', p', rfl, g1, g2, g3⟩ | ⟨rfl, hno⟩
    · obtain ⟨out, h1, h2, h3, h4⟩ := ih (fun d hd => hcs d (by simp [hd])) s' t' p' g1
      refine ⟨(fin s', fin t', fin p') :: out, ?_, by simp [h2], ?_, ?_⟩
      · simp only [trajLoop, hr, Outcome.bind, isNaN_fin, h1]
        rfl
      · intro i d x hi hx
        cases i with
        | zero =>
          simp only [List.getElem?_cons_zero, Option.some.injEq] at hi hx
          subst hi hx
          exact .inr ⟨s', t', p', rfl, g1, g2, by simpa using g3⟩
        | succ i =>
          simp only [List.getElem?_cons_succ] at hi hx
          refine (h3 i d x hi hx).imp id fun h => h.mono ?_
          push_cast
          linarith
      · intro hsp i x hx
        cases i with
        | zero =>
          simp only [List.getElem?_cons_zero, Option.some.injEq] at hx
          subst hx
          intro h
          cases h
        | succ i =>
          simp only [List.getElem?_cons_succ] at hx
          refine h4 (fun j d hd => ?_) i x hx
          have := hsp (j + 1) d (by simpa using hd)
          intro k K a s1 t1 G
          obtain ⟨sa, ta, sb, tb, q1, q2, q3⟩ := this k K a s1 t1 G
          rw [abs_le] at g3
          push_cast at q3
          refine ⟨sa, ta, sb, tb, q1, q2, q3.imp (fun h => ⟨?_, ?_⟩) fun h => ⟨?_, ?_⟩⟩ <;> linarith [h.1, h.2, g3.1, g3.2]
    · refine ⟨(Fl.nan, Fl.nan, Fl.nan) :: cs.map fun _ => (Fl.nan, Fl.nan, Fl.nan), ?_, by simp, ?_, ?_⟩
      · simp only [trajLoop, hr, Outcome.bind]
        rfl
      · intro i d x _ hx
        left
        have hm := List.mem_of_getElem? hx
        simp only [List.mem_cons, List.mem_map] at hm
        rcases hm with h | ⟨_, -, h⟩
        · exact h
        · exact h.symm
      · intro hsp
        exact absurd (hsp 0 c rfl) (hno _ _ (by simp) (by simp))

/-- **C149** A neutral trajectory from the bottle at pressure `p0` of the first cast stays on its isopycnal: the density `f` at the `i`-th cast differs by at most `i` times the accuracy of the solver.
It reaches all casts that span the isopycnal, with a margin. -/
theorem trajectory_isopycnal (E : EosOn eos e smin) (hf : Splits e smin f g) (htol : 0 < tol) (hU : 0 ≤ U) (hε : 0 ≤ ε) {c : Cast (Fl ℝ)} {cs : List (Cast (Fl ℝ))}
    (hc : ∀ d ∈ c :: cs, IsoCast kind f smin tol n U ε d) {p0 s0 t0 : ℝ} (h0 : At kind c p0 s0 t0) :
    ∃ out : List (Fl ℝ × Fl ℝ × Fl ℝ), neutralTrajectory (n + 13) (fin tol) eos kind (fin p0) (c :: cs) = .ret out ∧ out.length = cs.length + 1 ∧
      out[0]? = some (fin s0, fin t0, fin p0) ∧
      (∀ (i : ℕ) d x, (c :: cs)[i]? = some d → out[i]? = some x → x = (Fl.nan, Fl.nan, Fl.nan) ∨ OnIso kind f smin d (f s0 t0) (i * (U * ε)) x) ∧
      ((∀ (i : ℕ) d, cs[i]? = some d → Spans kind f d (f s0 t0 - i * (U * ε)) (f s0 t0 + i * (U * ε))) → ∀ (i : ℕ) x, out[i]? = some x → x ≠ (Fl.nan, Fl.nan, Fl.nan)) := by
  obtain ⟨k, K, a, s, t, G, hs, -⟩ := (hc c (by simp)).data
  have hr := Omega.On.range G (show Omega.On kind c s0 t0 p0 from h0)
  obtain ⟨σ, τ, hat, hst⟩ := curves_at kind G hs hr.1 hr.2
  have e1 : σ = s0 := Fl.fin.inj (Option.some.inj (hat.1.symm.trans h0.1))
  have e2 : τ = t0 := Fl.fin.inj (Option.some.inj (hat.2.symm.trans h0.2))
  subst e1 e2
  have hsm := at_smin kind G hs hr.1 hr.2 h0
  obtain ⟨out, h1, h2, h3, h4⟩ := trajLoop_iso E hf htol hU hε cs (fun d hd => hc d (by simp [hd])) σ τ p0 hsm
  refine ⟨(fin σ, fin τ, fin p0) :: out, ?_, by simp [h2], rfl, ?_, ?_⟩
  · simp only [neutralTrajectory, hst, Outcome.bind, isNaN_fin, h1]
    rfl
  · intro i d x hi hx
    cases i with
    | zero =>
      simp only [List.getElem?_cons_zero, Option.some.injEq] at hi hx
      subst hi hx
      exact .inr ⟨σ, τ, p0, rfl, hsm, h0, by simp⟩
    | succ i =>
      simp only [List.getElem?_cons_succ] at hi hx
      exact (h3 i d x hi hx).imp id fun h => h.mono (by push_cast; simp)
  · intro hsp i x hx
    cases i with
    | zero =>
      simp only [List.getElem?_cons_zero, Option.some.injEq] at hx
      subst hx
      intro h
      cases h
    | succ i => exact h4 hsp i x (by simpa using hx)

/-- Specification: the cast is stratified: `f` changes by at least `N` per unit of pressure. -/
def Stratified (kind : PPKind) (f : ℝ → ℝ → ℝ) (N : ℝ) (c : Cast (Fl ℝ)) : Prop :=
  ∀ x x' s t s' t', At kind c x s t → At kind c x' s' t' → N * |x' - x| ≤ |f s' t' - f s t|

/-- **C149** The way does not matter: two neutral trajectories from the same bottle, through any casts and of any lengths, that visit a stratified cast, meet it at the same pressure up to the accuracy of the solver.  In particular (`i = 0`)
a trajectory that returns to the first cast returns to the bottle where it started. -/
theorem trajectory_path_independent (E : EosOn eos e smin) (hf : Splits e smin f g) (htol : 0 < tol) (hU : 0 ≤ U) (hε : 0 ≤ ε) (hN : 0 < N) {c : Cast (Fl ℝ)}
    {cs cs' : List (Cast (Fl ℝ))} (hc : ∀ d ∈ c :: cs, IsoCast kind f smin tol n U ε d) (hc' : ∀ d ∈ c :: cs', IsoCast kind f smin tol n U ε d)
    {p0 s0 t0 : ℝ} (h0 : At kind c p0 s0 t0) {out out' : List (Fl ℝ × Fl ℝ × Fl ℝ)} (ho : neutralTrajectory (n + 13) (fin tol) eos kind (fin p0) (c :: cs) = .ret out)
    (ho' : neutralTrajectory (n + 13) (fin tol) eos kind (fin p0) (c :: cs') = .ret out') {i j : ℕ} {d : Cast (Fl ℝ)} (hi : (c :: cs)[i]? = some d)
    (hj : (c :: cs')[j]? = some d) (hd : Stratified kind f N d) {x y x' y' : Fl ℝ} {p p' : ℝ} (hx : out[i]? = some (x, y, fin p)) (hx' : out'[j]? = some (x', y', fin p')) :
    N * |p - p'| ≤ (i + j) * (U * ε) := by
  obtain ⟨o, h1, -, -, h2, -⟩ := trajectory_isopycnal E hf htol hU hε hc h0
  obtain ⟨o', h1', -, -, h2', -⟩ := trajectory_isopycnal E hf htol hU hε hc' h0
  rw [ho] at h1
  rw [ho'] at h1'
  cases h1
  cases h1'
  rcases h2 i d _ hi hx with h | ⟨s, t, q, e1, -, e3, e4⟩
  · cases h
  rcases h2' j d _ hj hx' with h | ⟨s', t', q', e1', -, e3', e4'⟩
  · cases h
  cases e1
  cases e1'
  refine (hd _ _ _ _ _ _ e3' e3).trans ?_
  have := abs_add_le (f s t - f s0 t0) (f s0 t0 - f s' t')
  rw [sub_add_sub_cancel, abs_sub_comm (f s0 t0)] at this
  linarith

/-- The accuracy of a solution on a cast with pressures up to `R`. -/
theorem acc_bound {R z x : ℝ} (htol : 0 ≤ tol) (hz : |z| ≤ R) (h : |z - x| ≤ acc tol x) : |z - x| ≤ 4 * tol + R / 2 ^ 49 := by
  unfold acc at h
  have h1 : |x| ≤ |z| + |z - x| := by
    have := abs_sub_abs_le_abs_sub x z
    rw [abs_sub_comm] at this
    linarith
  have h2 := abs_nonneg (z - x)
  have h3 := abs_nonneg z
  norm_num at h ⊢
  linarith

end VertSolve

namespace Omega
open FloatLike Fzero Interp Traj VertSolve Bfs Lib
open Fl hiding nan

set_option linter.unusedSectionVars false

variable {c : Cfg (Fl ℝ)} {E : List ((ℕ × ℕ) × ℝ)} {eosST : Ntp.EosST (Fl ℝ)} {e : ℝ → ℝ → ℝ → ℝ} {smin tol : ℝ} {n : ℕ} {b : List ℕ → ℕ → ℝ}
  {f : ℝ → ℝ → ℝ} {g : ℝ → ℝ} {U ε : ℝ}

/-- Specification: a statically stable cast; `f` increases with pressure (`σ = 1`) or decreases (`σ = -1`), by at most `U` per unit of pressure; solver accuracies are at most `ε`. -/
structure StableCast (kind : PPKind) (f : ℝ → ℝ → ℝ) (tol U ε : ℝ) (c : Cast (Fl ℝ)) : Prop where
  mono : ∃ σ : ℝ, (σ = 1 ∨ σ = -1) ∧ ∀ x x' s t s' t', x ≤ x' → At kind c x s t → At kind c x' s' t' → 0 ≤ σ * (f s' t' - f s t) ∧ σ * (f s' t' - f s t) ≤ U * (x' - x)
  acc : ∀ x z s t, At kind c z s t → |z - x| ≤ acc tol x → |z - x| ≤ ε

theorem on_smin (W : World c E eosST e smin tol n b) {m : ℕ} (hm : m < c.N) {s t p : ℝ} (h : On c.kind (c.casts m) s t p) : smin ≤ s := by
  rcases W.casts m hm with hl | ⟨A, B, k, K, a, s', t', G, h1, -, -, -⟩
  · exact absurd hl (on_not_land h)
  · have := On.range G h
    exact at_smin _ G h1 this.1 this.2 h

/-- **C149** Wetting: if the region connected to the pinning cast is on an isopycnal within `β`, so are all casts wetted beside it, within `β` plus the accuracies of the solves. -/
theorem wetted_isopycnal (W : World c E eosST e smin tol n b) (hf : Splits e smin f g) (hU : 0 ≤ U) (hε : 0 ≤ ε) (hc : ∀ m < c.N, StableCast c.kind f tol U ε (c.casts m))
    {stp stp' : Surf (Fl ℝ)} {V : List ℕ} (hW : Wetted c e tol stp stp' V) {v β : ℝ}
    (hold : ∀ m, Reach c.G (wet stp) c.pin m → OnIso c.kind f smin (c.casts m) v β (stp m)) :
    ∀ (i m : ℕ), V[i]? = some m → OnIso c.kind f smin (c.casts m) v (β + (i + 1) * (U * ε)) (stp' m) := by
  have hUε : 0 ≤ U * ε := mul_nonneg hU hε
  intro i
  induction i using Nat.strong_induction_on with
  | _ i ih =>
    intro m hm
    have hmN : m < c.N := (hW.was_dry m (List.mem_of_getElem? hm)).2
    obtain ⟨s, t, p, e1, o1, o2, ns, q, hne, -, hp, hall⟩ := hW.linked i m hm
    have hon : On c.kind (c.casts m) s t p := ⟨o1, o2⟩
    have hns : ∀ k ∈ ns, ∃ z sz tz, At c.kind (c.casts m) z sz tz ∧ |f sz tz - v| ≤ β + i * (U * ε) ∧ |z - q k| ≤ ε := by
      intro k hk
      obtain ⟨h1, -, sB, tB, pB, z, sz, tz, h3, h4, h5, h6, h7⟩ := hall k hk
      have hz : At c.kind (c.casts m) z sz tz := ⟨h4, h5⟩
      have hB : OnIso c.kind f smin (c.casts k) v (β + i * (U * ε)) (stp' k) := by
        rcases h1 with h1 | h1
        · rw [hW.kept k h1]
          exact (hold k h1).mono (by have : (0 : ℝ) ≤ i * (U * ε) := by positivity
                                     simpa using this)
        · obtain ⟨j, hj, hjk⟩ := List.mem_iff_getElem.1 h1
          rw [List.length_take] at hj
          have hji : j < i := by omega
          rw [List.getElem_take] at hjk
          refine (ih j hji k (by rw [List.getElem?_eq_getElem (by omega), hjk])).mono ?_
          have : ((j : ℝ) + 1) ≤ i := by exact_mod_cast hji
          have := mul_le_mul_of_nonneg_right this hUε
          simpa using this
      obtain ⟨s', t', p', u1, u2, -, u4⟩ := hB
      rw [u1] at h3
      cases h3
      refine ⟨z, sz, tz, hz, ?_, (hc m hmN).acc _ z sz tz hz h7⟩
      rw [hf _ _ _ u2, hf _ _ _ (on_smin W hmN hz), add_left_inj] at h6
      rw [← h6]
      exact u4
    have hfs : ns.toFinset.Nonempty := List.toFinset_nonempty_iff _ |>.2 hne
    obtain ⟨lo, hlo, hmin⟩ := ns.toFinset.exists_min_image q hfs
    obtain ⟨hi, hhi, hmax⟩ := ns.toFinset.exists_max_image q hfs
    obtain ⟨m1, m2⟩ := mean_between hne (g := q) (A := q lo) (B := q hi) fun k hk => ⟨hmin k (List.mem_toFinset.2 hk), hmax k (List.mem_toFinset.2 hk)⟩
    rw [← hp] at m1 m2
    obtain ⟨z1, s1, t1, a1, a2, a3⟩ := hns lo (List.mem_toFinset.1 hlo)
    obtain ⟨z2, s2, t2, b1, b2, b3⟩ := hns hi (List.mem_toFinset.1 hhi)
    obtain ⟨σ, hσ, hmono⟩ := (hc m hmN).mono
    refine ⟨s, t, p, e1, on_smin W hmN hon, hon, ?_⟩
    rw [abs_le] at a2 a3 b2 b3 ⊢
    have k1 : -(U * ε) ≤ σ * (f s t - f s1 t1) := by
      rcases le_total z1 p with h | h
      · exact (neg_nonpos.2 hUε).trans (hmono z1 p _ _ _ _ h a1 hon).1
      · have h1 := (hmono p z1 _ _ _ _ h hon a1).2
        have h2 := mul_le_mul_of_nonneg_left (show z1 - p ≤ ε by linarith) hU
        linarith
    have k2 : σ * (f s t - f s2 t2) ≤ U * ε := by
      rcases le_total p z2 with h | h
      · have := (hmono p z2 _ _ _ _ h hon b1).1
        linarith
      · have h1 := (hmono z2 p _ _ _ _ h b1 hon).2
        have h2 := mul_le_mul_of_nonneg_left (show p - z2 ≤ ε by linarith) hU
        linarith
    rcases hσ with rfl | rfl <;> constructor <;> linarith [a2.1, a2.2, b2.1, b2.2]

/-- **C149** The initial surface of `omega_surf` grown by wetting from a bottle of the pinning cast is the isopycnal through that bottle: at all wet casts, `f` differs by at most the number of casts times
the accuracy of the solves. -/
theorem init_isopycnal (W : World c E eosST e smin tol n b) (hf : Splits e smin f g) (hU : 0 ≤ U) (hε : 0 ≤ ε) (hc : ∀ m < c.N, StableCast c.kind f tol U ε (c.casts m))
    {p0 : ℝ} (hin : ∃ A B, Sea (c.casts c.pin) smin tol n A B ∧ A ≤ p0 ∧ p0 ≤ B) :
    ∃ stp0 s0 t0, init c (.scalar (fin p0)) = .ok stp0 ∧ On c.kind (c.casts c.pin) s0 t0 p0 ∧ stp0 c.pin = (fin s0, fin t0, fin p0) ∧
      ∀ m < c.N, wet stp0 m = true → OnIso c.kind f smin (c.casts m) (f s0 t0) (c.N * (U * ε)) (stp0 m) := by
  have hUε : 0 ≤ U * ε := mul_nonneg hU hε
  obtain ⟨s0, t0, hi0, hs0, hon0⟩ := pin_interp hin
  obtain ⟨one, hone⟩ : ∃ x : Surf (Fl ℝ), x = Function.update (fun _ => (nan, nan, nan)) c.pin (fin s0, fin t0, fin p0) := ⟨_, rfl⟩
  have hpin1 : one c.pin = (fin s0, fin t0, fin p0) := by rw [hone, Function.update_self]
  have hfine1 : Fine c smin one := by
    intro m _
    by_cases h : m = c.pin
    · rw [h, hpin1]; exact Or.inl ⟨s0, t0, p0, rfl, hs0, hon0⟩
    · rw [hone, Function.update_of_ne h]; exact Or.inr rfl
  obtain ⟨r, V, w1, w2, w3, -⟩ := wetting_total W hfine1
  have hpin2 : r.1 c.pin = (fin s0, fin t0, fin p0) := by
    rw [w3.kept c.pin ⟨0, .root (by unfold wet; rw [hpin1]; rfl)⟩, hpin1]
  have hraw : initRaw c (.scalar (fin p0)) = .ok r.1 := by
    unfold initRaw
    dsimp only
    rw [hi0]
    show (wetting c (Function.update (fun _ => (nan, nan, nan)) c.pin (fin s0, fin t0, fin p0))).bind _ = _
    rw [← hone, w1]; rfl
  have h0 : init c (.scalar (fin p0)) = .ok (fun m => if isNaN (r.1 m).1 then ((r.1 m).1, (r.1 m).2.1, nan) else r.1 m) := by
    unfold init
    rw [hraw]
    show (if isNaN (r.1 c.pin).1 = true then _ else _) = _
    rw [if_neg (by rw [hpin2]; simp)]
  have hold : ∀ m, Reach c.G (wet one) c.pin m → OnIso c.kind f smin (c.casts m) (f s0 t0) 0 (one m) := by
    intro m hm
    have hw : wet one m = true := by obtain ⟨k, w⟩ := hm; exact w.good
    have : m = c.pin := by
      by_contra h
      unfold wet at hw
      rw [hone, Function.update_of_ne h] at hw
      cases hw
    rw [this, hpin1]
    exact ⟨s0, t0, p0, rfl, hs0, hon0, by simp⟩
  have hV := wetted_isopycnal W hf hU hε hc w3 hold
  have hlen : V.length ≤ c.N := by
    have := w3.nodup.subperm (l₂ := List.range c.N) fun v hv => List.mem_range.2 (w3.was_dry v hv).2
    simpa using this.length_le
  refine ⟨_, s0, t0, h0, hon0, by rw [hpin2]; rfl, fun m hm hw => ?_⟩
  have hiso : OnIso c.kind f smin (c.casts m) (f s0 t0) (c.N * (U * ε)) (r.1 m) := by
    by_cases hR : Reach c.G (wet one) c.pin m
    · rw [w3.kept m hR]
      exact (hold m hR).mono (by have : (0 : ℝ) ≤ c.N * (U * ε) := by positivity
                                 simpa using this)
    by_cases hmV : m ∈ V
    · obtain ⟨i, hi, rfl⟩ := List.mem_iff_getElem.1 hmV
      refine (hV i _ (List.getElem?_eq_getElem hi)).mono ?_
      have : ((i : ℝ) + 1) ≤ c.N := by exact_mod_cast (show i + 1 ≤ c.N by omega)
      have := mul_le_mul_of_nonneg_right this hUε
      simpa using this
    · exfalso
      have := w3.cut m hR hmV
      unfold wet at hw
      dsimp only at hw
      split_ifs at hw
      · cases hw
      · rw [this] at hw; cases hw
  obtain ⟨s, t, p, h1, h2⟩ := hiso
  rw [h1]
  exact ⟨s, t, p, rfl, h2⟩

/-! ## Examples -/

/-- Linear interpolation of `exCast`, density `s - t + p`: between the slopes 1 and 2. -/
theorem exStable : StableCast .linear (fun s t => s - t) (1 / 100) 2 (1 / 20) exCast := by
  refine ⟨⟨1, .inl rfl, ?_⟩, ?_⟩
  · intro x x' s t s' t' h h1 h2
    have r1 := On.range exGood (show On _ _ _ _ _ from h1)
    have r2 := On.range exGood (show On _ _ _ _ _ from h2)
    norm_num at r1 r2
    rw [exLinear r1.1 r1.2 h1, exLinear r2.1 r2.2 h2]
    constructor <;> split_ifs <;> linarith
  · intro x z s t h1 h
    have r1 := On.range exGood (show On _ _ _ _ _ from h1)
    norm_num at r1
    refine (acc_bound (R := 3) (by norm_num) (by rw [abs_of_nonneg r1.1]; exact r1.2) h).trans ?_
    norm_num

theorem exIso : IsoCast .linear (fun s t => s - t) 0 (1 / 100) 600 2 (1 / 20) exCast := by
  refine ⟨⟨1, 4, _, _, _, exGood, fun i _ _ => by split_ifs <;> norm_num, by norm_num⟩, exStable.acc, ?_⟩
  intro x x' s t s' t' h1 h2
  have r1 := On.range exGood (show On _ _ _ _ _ from h1)
  have r2 := On.range exGood (show On _ _ _ _ _ from h2)
  norm_num at r1 r2
  rw [exLinear r1.1 r1.2 h1, exLinear r2.1 r2.2 h2]
  rcases abs_cases (x' - x) with h | h <;> rw [h.1, abs_le] <;> split_ifs <;> constructor <;> linarith

/-- Density `s - t + p²`. -/
theorem exPEos : EosOn (fun s t p => s - t + p * p) (fun s t p => s - t + p ^ 2) 0 :=
  ⟨fun s t p _ => by simp [pow_two], by fun_prop⟩

/-- Any number of copies of the cast: a trajectory from the pressure 3/2. -/
example (N : ℕ) : ∃ out : List (Fl ℝ × Fl ℝ × Fl ℝ), ∃ s0 t0, neutralTrajectory (600 + 13) (fin (1 / 100)) (fun s t p => s - t + p * p) .linear (fin (3 / 2))
      (List.replicate (N + 1) exCast) = .ret out ∧
    ∀ (i : ℕ) x y p, out[i]? = some (x, y, fin p) → ∃ s t, x = fin s ∧ y = fin t ∧ |(s - t) - (s0 - t0)| ≤ i / 10 := by
  obtain ⟨σ, τ, hat, -⟩ := curves_at (x := 3 / 2) .linear exGood (smin := 0) (fun i _ _ => by split_ifs <;> norm_num) (by norm_num) (by norm_num)
  obtain ⟨out, h1, hlen, -, h2, -⟩ := trajectory_isopycnal (g := fun p => p ^ 2) (tol := 1 / 100) (U := 2) (ε := 1 / 20) (n := 600) (f := fun s t => s - t) (c := exCast) (cs := List.replicate N exCast) exPEos (fun _ _ _ _ => rfl) (by norm_num) (by norm_num) (by norm_num)
    (fun d hd => by
      rw [← List.replicate_succ] at hd
      rw [List.eq_of_mem_replicate hd]; exact exIso) hat
  refine ⟨out, σ, τ, h1, fun i x y p hx => ?_⟩
  have hi : i < N + 1 := by
    have := (List.getElem?_eq_some_iff.1 hx).1
    rwa [hlen, List.length_replicate] at this
  rcases h2 i exCast _ (by rw [← List.replicate_succ, List.getElem?_replicate, if_pos hi]) hx with h | ⟨s, t, q, h, -, -, h3⟩
  · cases h
  · cases h
    exact ⟨s, t, rfl, rfl, by convert h3 using 1; ring⟩

/-- Two trajectories through copies of the cast, of 3 and 6 casts: the pressures at their ends, if any. -/
example {out out' : List (Fl ℝ × Fl ℝ × Fl ℝ)}
    (h : neutralTrajectory (600 + 13) (fin (1 / 100)) (fun s t p => s - t + p * p) .linear (fin (3 / 2)) [exCast, exCast, exCast] = .ret out)
    (h' : neutralTrajectory (600 + 13) (fin (1 / 100)) (fun s t p => s - t + p * p) .linear (fin (3 / 2)) [exCast, exCast, exCast, exCast, exCast, exCast] = .ret out')
    {x y x' y' : Fl ℝ} {p p' : ℝ} (hx : out[2]? = some (x, y, fin p)) (hx' : out'[5]? = some (x', y', fin p')) : |p - p'| ≤ 7 / 10 := by
  obtain ⟨σ, τ, hat, -⟩ := curves_at (x := 3 / 2) .linear exGood (smin := 0) (fun i _ _ => by split_ifs <;> norm_num) (by norm_num) (by norm_num)
  have := trajectory_path_independent (g := fun p => p ^ 2) (tol := 1 / 100) (U := 2) (ε := 1 / 20) (N := 1) (n := 600) (f := fun s t => s - t) exPEos (fun _ _ _ _ => rfl)
    (by norm_num) (by norm_num) (by norm_num) (by norm_num) (fun d hd => by simp at hd; subst hd; exact exIso) (fun d hd => by simp at hd; subst hd; exact exIso) hat h h'
    (i := 2) (j := 5) rfl rfl (by
      intro x x' s t s' t' h1 h2
      have r1 := On.range exGood (show On _ _ _ _ _ from h1)
      have r2 := On.range exGood (show On _ _ _ _ _ from h2)
      norm_num at r1 r2
      dsimp only
      rw [exLinear r1.1 r1.2 h1, exLinear r2.1 r2.2 h2, one_mul]
      rcases le_total x x' with h | h
      · rw [abs_of_nonneg (sub_nonneg.2 h)]
        refine le_trans ?_ (le_abs_self _)
        split_ifs <;> linarith
      · rw [abs_of_nonpos (sub_nonpos.2 h)]
        refine le_trans ?_ (neg_le_abs _)
        split_ifs <;> linarith) hx hx'
  norm_num at this
  linarith

/-- The line of two casts and land, with wetting from the pressure 1 at cast 0. -/
example : ∃ (c : Cfg (Fl ℝ)) (stp0 : Surf (Fl ℝ)) (s0 t0 : ℝ), c.N = 3 ∧ init c (.scalar (fin 1)) = .ok stp0 ∧ stp0 c.pin = (fin s0, fin t0, fin 1) ∧
    ∀ m < c.N, wet stp0 m = true → OnIso c.kind (fun s t => s - t) 0 (c.casts m) (s0 - t0) (3 / 10) (stp0 m) := by
  obtain ⟨⟨spsolve, hs⟩, -⟩ := OmegaMat.exact_solvers_exist (α := ℝ)
  have P := OmegaMat.poisson_solver [((0, 1), 4), ((1, 2), 9)] (fun _ _ _ => ((fin 1 : Fl ℝ), (fin (-1) : Fl ℝ))) hs
  have W := exWorld (G := exLine) (pin := 0) (by norm_num) (by unfold InRange; decide)
    (by
      have h : ∀ a < 3, ∀ b ∈ exLine.nbrs a, (0, 1) = (a, b) ∨ (0, 1) = (b, a) ∨ (1, 2) = (a, b) ∨ (1, 2) = (b, a) := by decide
      intro a ha b hb
      rcases h a ha b hb with h | h | h | h
      · exact ⟨((0, 1), 4), by simp, .inl h⟩
      · exact ⟨((0, 1), 4), by simp, .inr h⟩
      · exact ⟨((1, 2), 9), by simp, .inl h⟩
      · exact ⟨((1, 2), 9), by simp, .inr h⟩) (by simp) exLine_sym P
  have W' : World { exCfg exLine _ 0 with kind := .linear, nrep := 100 } _ _ _ _ _ _ _ :=
    ⟨⟨W.ok.graph, W.ok.pin, W.ok.fuel⟩, W.tolEq, W.tolPos, W.fuel, W.eos, W.der, W.casts, W.edges, W.sym, W.weights, W.solver⟩
  obtain ⟨stp0, s0, t0, h1, -, h3, h4⟩ := init_isopycnal (f := fun s t => s - t) (g := fun _ => 0) (U := 2) (ε := 1 / 20) (p0 := 1) W' (fun _ _ _ _ => by simp) (by norm_num) (by norm_num)
    (by
      intro m _
      show StableCast .linear _ _ _ _ (if m = 2 then _ else _)
      split_ifs
      · have hl : ∀ x s t, ¬ At .linear (⟨Arr.ofList [Fl.nan, Fl.nan], Arr.ofList [Fl.nan, Fl.nan], Arr.ofList [fin 0, fin 1]⟩ : Cast (Fl ℝ)) x s t :=
          fun x s t h => on_not_land (show On _ _ s t x from h) (by constructor <;> decide)
        exact ⟨⟨1, .inl rfl, fun _ _ _ _ _ _ _ h => absurd h (hl _ _ _)⟩, fun _ _ _ _ h => absurd h (hl _ _ _)⟩
      · exact exStable)
    ⟨0, 3, ⟨1, 4, _, _, _, exGood, fun i _ _ => by split_ifs <;> norm_num, by norm_num, by norm_num, by norm_num⟩, by norm_num, by norm_num⟩
  refine ⟨_, stp0, s0, t0, rfl, h1, h3, fun m hm hw => ?_⟩
  refine (h4 m hm hw).mono ?_
  show |_| + ((3 : ℕ) : ℝ) * _ ≤ _
  norm_num

end Omega
