import Verif.Props.EosLip

/-!
# The library's equations of state in floating point: sensitivity, signs, vertical solves (C130)
-/

open FloatLike Fzero Interp Traj VertSolve
variable {rnd : ℝ → ℝ}

/-- The oceanographic range, as a box: salinity 0 to 42, temperature `t0` to 40, pressure 0 to 10000. -/
def oceanBox (t0 : ℝ) : Box := ⟨0, 42, t0, 40, 0, 10000⟩

/-- Specification of accurate vertical solves with the computed equation of state `eos`, whose exact values are `E`, on a box of
salinities, temperatures and pressures: for every cast with data in the box, with the four solvers of the library.  The solver
returns, and the returned point is within solver tolerance of a point where the exact residual is at most
`2 η + Ls eS + Lt eT + w`, where `eS`, `eT` bound the errors of the interpolated salinities and temperatures. -/
structure SolvesWith (rnd : ℝ → ℝ) (b : Box) (eos : Rfl rnd → Rfl rnd → Rfl rnd → Rfl rnd) (E : ℝ → ℝ → ℝ → ℝ) (η Ls Lt w : ℝ) : Prop where
  ntp : ∀ {c : Cast (Rfl rnd)} {k K : ℕ} {a s t : ℕ → ℝ} {eS eT : ℝ} (kind : PPKind) (_ : CastBox b c k K a s t eS eT)
    {sB tB pB tol : ℝ} (_ : b.In sB tB pB) (_ : rnd pB = pB) (_ : 0 < tol) (n : ℕ) (_ : 5 / 2 * (a (K - 1) - a k) / tol ≤ n),
    ∃ r, ntpBottleToCast (n + 13) (Rfl.fin tol) eos kind (Rfl.fin sB) (Rfl.fin tB) (Rfl.fin pB) c = .ret r ∧
      Accurate kind c (a k) (a (K - 1)) (fun s t p => E sB tB ((pB + p) / 2) - E s t ((pB + p) / 2)) eS eT
        (2 * η + Ls * eS + Lt * eT + w) tol r
  potential : ∀ {c : Cast (Rfl rnd)} {k K : ℕ} {a s t : ℕ → ℝ} {eS eT : ℝ} (kind : PPKind) (_ : CastBox b c k K a s t eS eT)
    {tol refP isoval : ℝ} (_ : b.p0 ≤ refP ∧ refP ≤ b.p1) (_ : 0 < tol) (n : ℕ) (_ : 5 / 2 * (a (K - 1) - a k) / tol ≤ n),
    ∃ r, vertsolve1 (n + 13) (Rfl.fin tol) kind (fun P Sp Tp => zeroPotential eos P Sp Tp (Rfl.fin refP) (Rfl.fin isoval)) c = .ret r ∧
      Accurate kind c (a k) (a (K - 1)) (fun s t _ => E s t refP - isoval) eS eT (η + Ls * eS + Lt * eT) tol r
  anomaly : ∀ {c : Cast (Rfl rnd)} {k K : ℕ} {a s t : ℕ → ℝ} {eS eT : ℝ} (kind : PPKind) (_ : CastBox b c k K a s t eS eT)
    {tol refS refT isoval : ℝ} (_ : b.s0 ≤ refS ∧ refS ≤ b.s1) (_ : b.t0 ≤ refT ∧ refT ≤ b.t1) (_ : 0 < tol) (n : ℕ)
    (_ : 5 / 2 * (a (K - 1) - a k) / tol ≤ n),
    ∃ r, vertsolve1 (n + 13) (Rfl.fin tol) kind
        (fun P Sp Tp => zeroAnomaly eos P Sp Tp (Rfl.fin refS, Rfl.fin refT) (Rfl.fin isoval)) c = .ret r ∧
      Accurate kind c (a k) (a (K - 1)) (fun s t p => E s t p - E refS refT p - isoval) eS eT
        (2 * η + Ls * eS + Lt * eT + w) tol r
  omega : ∀ {c : Cast (Rfl rnd)} {k K : ℕ} {a s t : ℕ → ℝ} {eS eT : ℝ} (kind : PPKind) (_ : CastBox b c k K a s t eS eT)
    {tol phi s0 t0 p0 : ℝ} (_ : phi ≠ 0) (_ : b.In s0 t0 p0) (_ : rnd p0 = p0) (_ : 0 < tol) (n : ℕ)
    (_ : 5 / 2 * (a (K - 1) - a k) / tol ≤ n),
    ∃ r, omegaSolve1 (n + 13) (Rfl.fin tol) kind eos (Rfl.fin phi) (Rfl.fin s0, Rfl.fin t0, Rfl.fin p0) c = .ret r ∧
      Accurate kind c (a k) (a (K - 1)) (fun s t _ => E s t p0 - (E s0 t0 p0 + phi)) eS eT
        (2 * η + Ls * eS + Lt * eT + w + |phi| / 2 ^ 53) tol r

theorem Traj.Accurate.mono {kind : PPKind} {c : Cast (Rfl rnd)} {A B : ℝ} {res : ℝ → ℝ → ℝ → ℝ} {eS eT δ δ' tol : ℝ}
    {r : Rfl rnd × Rfl rnd × Rfl rnd} (h : Accurate kind c A B res eS eT δ tol r) (hδ : δ ≤ δ') :
    Accurate kind c A B res eS eT δ' tol r := by
  obtain ⟨gS, gT, hg, h⟩ := h
  refine ⟨gS, gT, hg, ?_⟩
  rcases h with ⟨hr, h⟩ | ⟨s, t, p, z, hr, h1, h2, h3, h4, h5, h6, h7, h8⟩
  · refine Or.inl ⟨hr, h.imp (fun h => ⟨?_, ?_⟩) fun h => ⟨?_, ?_⟩⟩ <;> linarith [h.1, h.2]
  · exact Or.inr ⟨s, t, p, z, hr, h1, h2, h3, h4, h5, h6, h7.trans hδ, h8⟩

theorem Traj.EosBox.solves (R : BinRound rnd) {b : Box} {eos : Rfl rnd → Rfl rnd → Rfl rnd → Rfl rnd} {e E : ℝ → ℝ → ℝ → ℝ}
    {η Ls Lt Lp M w : ℝ} (H : EosBox rnd b eos e E η Ls Lt Lp) (hp : rnd b.p0 = b.p0 ∧ rnd b.p1 = b.p1)
    (hE : ∀ s t p, b.In s t p → |E s t p| ≤ M) (hw1 : 2 * Lp * (max |b.p0| |b.p1| / 2 ^ 53) ≤ w) (hw2 : 2 * (M + η) / 2 ^ 53 ≤ w) :
    SolvesWith rnd b eos E η Ls Lt w where
  ntp {c k K a s t eS eT} kind C {sB tB pB tol} hB hpB htol n hn := by
    obtain ⟨r, hr, hA⟩ := ntp_accurate R kind H C hB hp hpB htol n hn
    exact ⟨r, hr, hA.mono (by linarith)⟩
  potential {c k K a s t eS eT} kind C {tol refP isoval} hrp htol n hn := potential_accurate R kind H C hrp htol n hn
  anomaly {c k K a s t eS eT} kind C {tol refS refT isoval} hs ht htol n hn := by
    have hin : ∀ p, b.p0 ≤ p → p ≤ b.p1 → b.In refS refT p := fun p h1 h2 => ⟨hs.1, hs.2, ht.1, ht.2, h1, h2⟩
    have hW : ∀ s t p, b.In s t p → |e s t p - e refS refT p| ≤ 2 * (M + η) := fun s t p h => by
      have h' := hin p h.2.2.2.2.1 h.2.2.2.2.2
      have a1 := abs_le.mp (H.close _ _ _ h)
      have a2 := abs_le.mp (H.close _ _ _ h')
      have a3 := abs_le.mp (hE _ _ _ h)
      have a4 := abs_le.mp (hE _ _ _ h')
      rw [abs_le]
      constructor <;> linarith [a1.1, a1.2, a2.1, a2.2, a3.1, a3.2, a4.1, a4.2]
    obtain ⟨r, hr, hA⟩ := anomaly_accurate R kind H C (isoval := isoval) hin hW htol n hn
    exact ⟨r, hr, hA.mono (by linarith)⟩
  omega {c k K a s t eS eT} kind C {tol phi s0 t0 p0} hphi h0 hp0 htol n hn := by
    have hη : 0 ≤ η := (abs_nonneg _).trans (H.close _ _ _ h0)
    have hM : 0 ≤ M := (abs_nonneg _).trans (hE _ _ _ h0)
    have hW : |e s0 t0 p0 + phi| ≤ 2 * (M + η) + |phi| := by
      have a1 := abs_add_le (e s0 t0 p0 - E s0 t0 p0) (E s0 t0 p0)
      have a2 := abs_add_le (e s0 t0 p0) phi
      rw [sub_add_cancel] at a1
      have := H.close _ _ _ h0
      have := hE _ _ _ h0
      linarith
    obtain ⟨r, hr, hA⟩ := omega_accurate R kind H C hphi h0 hp0 hW htol n hn
    refine ⟨r, hr, hA.mono ?_⟩
    rw [add_div]
    linarith

namespace Jmd95

theorem inOcean {s t p : ℝ} (h : (oceanBox (-2)).In s t p) : Ocean s t p :=
  ⟨h.1, h.2.1, h.2.2.1, h.2.2.2.1, h.2.2.2.2.1, h.2.2.2.2.2⟩

/-- **C130** On the oceanographic range, in exact arithmetic, jmd95 changes by at most 0.89 per unit of salinity, 1.25 per degree and
0.0091 per dbar; in floating point by 2e-12 more. -/
theorem jmd95_sensitivity (R : StdRound rnd) {s t p s' t' p' : ℝ} (h : Ocean s t p) (h' : Ocean s' t' p') : ∃ ρ ρ' w w' : ℝ,
    rho (Fl.fin s) (.fin t) (.fin p) = some (.fin ρ) ∧ rho (Fl.fin s') (.fin t') (.fin p') = some (.fin ρ') ∧
    |ρ - ρ'| ≤ 0.89 * |s - s'| + 1.25 * |t - t'| + 0.0091 * |p - p'| ∧
    rho (Rfl.fin s : Rfl rnd) (Rfl.fin t) (Rfl.fin p) = some (Rfl.fin w) ∧
    rho (Rfl.fin s' : Rfl rnd) (Rfl.fin t') (Rfl.fin p') = some (Rfl.fin w') ∧
    |w - w'| ≤ 0.89 * |s - s'| + 1.25 * |t - t'| + 0.0091 * |p - p'| + 2e-12 := by
  obtain ⟨w, ρ, _, _, _, _, _, _, h1, h2, h3, _⟩ := jmd95_rounded R h
  obtain ⟨w', ρ', _, _, _, _, _, _, h1', h2', h3', _⟩ := jmd95_rounded R h'
  have e : ρ = density s t p := by simpa [rho_eq h.s0 h.ne.1 h.ne.2] using h2.symm
  have e' : ρ' = density s' t' p' := by simpa [rho_eq h'.s0 h'.ne.1 h'.ne.2] using h2'.symm
  have hl : |ρ - ρ'| ≤ _ := e ▸ e' ▸ h.lip h'
  refine ⟨ρ, ρ', w, w', h2, h2', hl, h1, h1', ?_⟩
  have := abs_le.mp hl
  have := abs_le.mp h3
  have := abs_le.mp h3'
  rw [abs_le]
  norm_num at *
  constructor <;> linarith

/-- **C130** On the oceanographic range the derivatives returned by jmd95 in floating point have the physical signs: the haline
derivative is positive and the derivative in pressure is positive. -/
theorem jmd95_signs (R : StdRound rnd) {s t p : ℝ} (h : Ocean s t p) : ∃ a b c : ℝ,
    rhoST (Rfl.fin s : Rfl rnd) (Rfl.fin t) (Rfl.fin p) = some (Rfl.fin a, Rfl.fin b) ∧ 0.44 ≤ a ∧ a ≤ 0.9 ∧ -1.26 ≤ b ∧ b ≤ 0.21 ∧
    rhoP (Rfl.fin s : Rfl rnd) (Rfl.fin t) (Rfl.fin p) = some (Rfl.fin c) ∧ 0.0018 ≤ c ∧ c ≤ 0.0092 := by
  obtain ⟨_, _, a, a', b, b', c, c', _, _, _, h1, h2, h3, h4, h5, h6, h7⟩ := jmd95_rounded R h
  have e : a' = dS s t p ∧ b' = dT s t p := by simpa [rhoST_val h.s0 h.ne.2] using h2.symm
  have e' : c' = dP s t p := by simpa [rhoP_val h.s0 h.ne.2] using h6.symm
  obtain ⟨rfl, rfl⟩ := e
  subst e'
  obtain ⟨⟨d1, d2⟩, ⟨d3, d4⟩, d5, d6⟩ := h.derivs
  rw [abs_le] at h3 h4 h7
  norm_num at *
  exact ⟨a, b, h1, by linarith, by linarith, by linarith, by linarith, c, h5, by linarith, by linarith⟩

/-- jmd95 as a function, NaN where it would raise `ZeroDivisionError` (which it does not on the oceanographic range). -/
noncomputable def eosR (rnd : ℝ → ℝ) (s t p : Rfl rnd) : Rfl rnd := (rho s t p).getD Rfl.qnan

theorem box (R : StdRound rnd) : ∃ e, EosBox rnd (oceanBox (-2)) (eosR rnd) e density 1e-12 0.89 1.25 0.0091 := by
  have H : ∀ s t p, ∃ w, (oceanBox (-2)).In s t p → rho (Rfl.fin s : Rfl rnd) (Rfl.fin t) (Rfl.fin p) = some (Rfl.fin w) ∧
      |w - density s t p| ≤ 1e-12 := by
    intro s t p
    by_cases h : (oceanBox (-2)).In s t p
    · have h' := inOcean h
      obtain ⟨w, ρ, _, _, _, _, _, _, h1, h2, h3, _⟩ := jmd95_rounded R h'
      have e : ρ = density s t p := by simpa [rho_eq h'.s0 h'.ne.1 h'.ne.2] using h2.symm
      exact ⟨w, fun _ => ⟨h1, e ▸ h3⟩⟩
    · exact ⟨0, fun h' => absurd h' h⟩
  choose e he using H
  exact ⟨e, fun s t p h => by rw [eosR, (he s t p h).1]; rfl, fun s t p h => (he s t p h).2,
    fun s t p s' t' p' h h' => (inOcean h).lip (inOcean h'), by norm_num, by norm_num, by norm_num⟩

/-- **C130** Vertical solves in floating point with jmd95: the exact density residual at the returned point is, up to solver tolerance
and interpolation errors, at most 3e-12 kg/m³. -/
theorem jmd95_solves (R : BinRound rnd) (h : rnd 10000 = 10000) : ∃ E : ℝ → ℝ → ℝ → ℝ,
    (∀ s t p, Ocean s t p → rho (Fl.fin s) (.fin t) (.fin p) = some (.fin (E s t p))) ∧
    SolvesWith rnd (oceanBox (-2)) (fun s t p => (rho s t p).getD Rfl.qnan) E 1e-12 0.89 1.25 1e-12 := by
  refine ⟨density, fun s t p h => rho_eq h.s0 h.ne.1 h.ne.2, ?_⟩
  obtain ⟨e, H⟩ := box (rnd := rnd) R.toStdRound
  refine H.solves R ⟨R.zero, h⟩ (M := 1103) (fun s t p h => ?_) ?_ ?_
  · have h' := inOcean h
    obtain ⟨ρ, _, _, _, h1, h2, h3, _⟩ := jmd95_ocean h'
    have e : ρ = density s t p := by simpa [rho_eq h'.s0 h'.ne.1 h'.ne.2] using h1.symm
    rw [← e, abs_le]
    constructor <;> linarith
  · norm_num [oceanBox]
  · norm_num

end Jmd95

namespace Jmdfwg06

theorem inOcean {s t p : ℝ} (h : (oceanBox (-2)).In s t p) : Ocean s t p :=
  ⟨h.1, h.2.1, h.2.2.1, h.2.2.2.1, h.2.2.2.2.1, h.2.2.2.2.2⟩

/-- **C130** On the oceanographic range, in exact arithmetic, jmdfwg06 changes by at most 1.51 per unit of salinity, 1.16 per degree and
0.0079 per dbar; in floating point by 6.4e-12 more. -/
theorem jmdfwg06_sensitivity (R : StdRound rnd) {s t p s' t' p' : ℝ} (h : Ocean s t p) (h' : Ocean s' t' p') : ∃ ρ ρ' w w' : ℝ,
    rho (Fl.fin s) (.fin t) (.fin p) = some (.fin ρ) ∧ rho (Fl.fin s') (.fin t') (.fin p') = some (.fin ρ') ∧
    |ρ - ρ'| ≤ 1.51 * |s - s'| + 1.16 * |t - t'| + 0.0079 * |p - p'| ∧
    rho (Rfl.fin s : Rfl rnd) (Rfl.fin t) (Rfl.fin p) = some (Rfl.fin w) ∧
    rho (Rfl.fin s' : Rfl rnd) (Rfl.fin t') (Rfl.fin p') = some (Rfl.fin w') ∧
    |w - w'| ≤ 1.51 * |s - s'| + 1.16 * |t - t'| + 0.0079 * |p - p'| + 6.4e-12 := by
  obtain ⟨w, ρ, _, _, _, _, _, _, h1, h2, h3, _⟩ := jmdfwg06_rounded R h
  obtain ⟨w', ρ', _, _, _, _, _, _, h1', h2', h3', _⟩ := jmdfwg06_rounded R h'
  have e : ρ = density s t p := by simpa [rho_eq h.s0 h.bounds.1.ne'] using h2.symm
  have e' : ρ' = density s' t' p' := by simpa [rho_eq h'.s0 h'.bounds.1.ne'] using h2'.symm
  have hl : |ρ - ρ'| ≤ _ := e ▸ e' ▸ h.lip h'
  refine ⟨ρ, ρ', w, w', h2, h2', hl, h1, h1', ?_⟩
  have := abs_le.mp hl
  have := abs_le.mp h3
  have := abs_le.mp h3'
  rw [abs_le]
  norm_num at *
  constructor <;> linarith

/-- **C130** On the oceanographic range the derivatives returned by jmdfwg06 in floating point have the physical signs: the haline
derivative is positive and the derivative in pressure is positive. -/
theorem jmdfwg06_signs (R : StdRound rnd) {s t p : ℝ} (h : Ocean s t p) : ∃ a b c : ℝ,
    rhoST (Rfl.fin s : Rfl rnd) (Rfl.fin t) (Rfl.fin p) = some (Rfl.fin a, Rfl.fin b) ∧ 0.32 ≤ a ∧ a ≤ 1.52 ∧ -1.17 ≤ b ∧ b ≤ 0.25 ∧
    rhoP (Rfl.fin s : Rfl rnd) (Rfl.fin t) (Rfl.fin p) = some (Rfl.fin c) ∧ 0.0019 ≤ c ∧ c ≤ 0.008 := by
  obtain ⟨_, _, a, a', b, b', c, c', _, _, _, h1, h2, h3, h4, h5, h6, h7⟩ := jmdfwg06_rounded R h
  have e : a' = dS s t p ∧ b' = dT s t p := by simpa [rhoST_val h.s0 h.bounds.1.ne'] using h2.symm
  have e' : c' = dP s t p := by simpa [rhoP_val h.s0 h.bounds.1.ne'] using h6.symm
  obtain ⟨rfl, rfl⟩ := e
  subst e'
  obtain ⟨⟨d1, d2⟩, ⟨d3, d4⟩, d5, d6⟩ := h.derivs
  rw [abs_le] at h3 h4 h7
  norm_num at *
  exact ⟨a, b, h1, by linarith, by linarith, by linarith, by linarith, c, h5, by linarith, by linarith⟩

/-- jmdfwg06 as a function, NaN where it would raise `ZeroDivisionError` (which it does not on the oceanographic range). -/
noncomputable def eosR (rnd : ℝ → ℝ) (s t p : Rfl rnd) : Rfl rnd := (rho s t p).getD Rfl.qnan

theorem box (R : StdRound rnd) : ∃ e, EosBox rnd (oceanBox (-2)) (eosR rnd) e density 3.2e-12 1.51 1.16 0.0079 := by
  have H : ∀ s t p, ∃ w, (oceanBox (-2)).In s t p → rho (Rfl.fin s : Rfl rnd) (Rfl.fin t) (Rfl.fin p) = some (Rfl.fin w) ∧
      |w - density s t p| ≤ 3.2e-12 := by
    intro s t p
    by_cases h : (oceanBox (-2)).In s t p
    · have h' := inOcean h
      obtain ⟨w, ρ, _, _, _, _, _, _, h1, h2, h3, _⟩ := jmdfwg06_rounded R h'
      have e : ρ = density s t p := by simpa [rho_eq h'.s0 h'.bounds.1.ne'] using h2.symm
      exact ⟨w, fun _ => ⟨h1, e ▸ h3⟩⟩
    · exact ⟨0, fun h' => absurd h' h⟩
  choose e he using H
  exact ⟨e, fun s t p h => by rw [eosR, (he s t p h).1]; rfl, fun s t p h => (he s t p h).2,
    fun s t p s' t' p' h h' => (inOcean h).lip (inOcean h'), by norm_num, by norm_num, by norm_num⟩

/-- **C130** Vertical solves in floating point with jmdfwg06: the exact density residual at the returned point is, up to solver tolerance
and interpolation errors, at most 7.4e-12 kg/m³. -/
theorem jmdfwg06_solves (R : BinRound rnd) (h : rnd 10000 = 10000) : ∃ E : ℝ → ℝ → ℝ → ℝ,
    (∀ s t p, Ocean s t p → rho (Fl.fin s) (.fin t) (.fin p) = some (.fin (E s t p))) ∧
    SolvesWith rnd (oceanBox (-2)) (fun s t p => (rho s t p).getD Rfl.qnan) E 3.2e-12 1.51 1.16 1e-12 := by
  refine ⟨density, fun s t p h => rho_eq h.s0 h.bounds.1.ne', ?_⟩
  obtain ⟨e, H⟩ := box (rnd := rnd) R.toStdRound
  refine H.solves R ⟨R.zero, h⟩ (M := 1110) (fun s t p h => ?_) ?_ ?_
  · have h' := inOcean h
    obtain ⟨ρ, _, _, _, h1, h2, h3, _⟩ := jmdfwg06_ocean h'
    have e : ρ = density s t p := by simpa [rho_eq h'.s0 h'.bounds.1.ne'] using h1.symm
    rw [← e, abs_le]
    constructor <;> linarith
  · norm_num [oceanBox]
  · norm_num

end Jmdfwg06

namespace Gsw

theorem inOcean {s t p : ℝ} (h : (oceanBox (-6)).In s t p) : Ocean s t p :=
  ⟨h.1, h.2.1, h.2.2.1, h.2.2.2.1, h.2.2.2.2.1, h.2.2.2.2.2⟩

/-- **C130** On the oceanographic range, in exact arithmetic, the specific volume of gsw changes by at most 1.4e-6 per unit of salinity,
7.5e-7 per degree and 5.5e-9 per dbar; in floating point by 4.4e-17 more. -/
theorem gsw_sensitivity (R : StdRound rnd) {s t p s' t' p' : ℝ} (h : Ocean s t p) (h' : Ocean s' t' p') : ∃ v v' w w' : ℝ,
    specvol (Fl.fin s) (.fin t) (.fin p) = .fin v ∧ specvol (Fl.fin s') (.fin t') (.fin p') = .fin v' ∧
    |v - v'| ≤ 1.4e-6 * |s - s'| + 7.5e-7 * |t - t'| + 5.5e-9 * |p - p'| ∧
    specvol (Rfl.fin s : Rfl rnd) (Rfl.fin t) (Rfl.fin p) = Rfl.fin w ∧
    specvol (Rfl.fin s' : Rfl rnd) (Rfl.fin t') (Rfl.fin p') = Rfl.fin w' ∧
    |w - w'| ≤ 1.4e-6 * |s - s'| + 7.5e-7 * |t - t'| + 5.5e-9 * |p - p'| + 4.4e-17 := by
  obtain ⟨f, g, hb, h1, _, _, _, _, _, _, _, h2, _⟩ := gsw_rounded R h
  obtain ⟨f', g', hb', h1', _, _, _, _, _, _, _, h2', _⟩ := gsw_rounded R h'
  have e : g 0 0 0 = tab 0 0 0 s t p := by simpa [specvol_tab h.s0] using h2.symm
  have e' : g' 0 0 0 = tab 0 0 0 s' t' p' := by simpa [specvol_tab h'.s0] using h2'.symm
  have hl : |g 0 0 0 - g' 0 0 0| ≤ _ := e ▸ e' ▸ h.lip h'
  have h3 := hb 0 0 0 (by omega)
  have h3' := hb' 0 0 0 (by omega)
  refine ⟨_, _, _, _, h2, h2', hl, h1, h1', ?_⟩
  have := abs_le.mp hl
  have := abs_le.mp h3
  have := abs_le.mp h3'
  rw [abs_le]
  norm_num [errBound] at *
  constructor <;> linarith

/-- **C130** On the oceanographic range the derivatives returned by gsw in floating point have the physical signs: the haline
derivative of specific volume is negative and the derivative in pressure is negative. -/
theorem gsw_signs (R : StdRound rnd) {s t p : ℝ} (h : Ocean s t p) : ∃ a b c : ℝ,
    specvolST (Rfl.fin s : Rfl rnd) (Rfl.fin t) (Rfl.fin p) = some (Rfl.fin a, Rfl.fin b) ∧ -1.5e-6 ≤ a ∧ a ≤ -2.5e-7 ∧ -2.6e-7 ≤ b ∧
    b ≤ 7.6e-7 ∧ specvolP (Rfl.fin s : Rfl rnd) (Rfl.fin t) (Rfl.fin p) = some (Rfl.fin c) ∧ -5.6e-9 ≤ c ∧ c ≤ -1.9e-9 := by
  obtain ⟨f, g, hb, _, _, _, _, h1, h2, _, _, _, _, _, _, h3, h4, _⟩ := gsw_rounded R h
  have hg := gsw_exact h.s0 t p
  rw [h3, h4] at hg
  have e : g 1 0 0 = tab 1 0 0 s t p ∧ g 0 1 0 = tab 0 1 0 s t p := by simpa using hg.2.2.2.2.1
  have e' : g 0 0 1 = tab 0 0 1 s t p := by simpa using hg.2.2.2.2.2.1
  have b1 := abs_le.mp (hb 1 0 0 (by omega))
  have b2 := abs_le.mp (hb 0 1 0 (by omega))
  have b3 := abs_le.mp (hb 0 0 1 (by omega))
  rw [e.1] at b1
  rw [e.2] at b2
  rw [e'] at b3
  obtain ⟨⟨d1, d2⟩, ⟨d3, d4⟩, d5, d6⟩ := h.derivs
  refine ⟨_, _, _, h1, ?_, ?_, ?_, ?_, h2, ?_, ?_⟩ <;> norm_num [errBound] at * <;> linarith

theorem box (R : StdRound rnd) : ∃ e, EosBox rnd (oceanBox (-6)) specvol e (tab 0 0 0) 2.2e-17 1.4e-6 7.5e-7 5.5e-9 := by
  have H : ∀ s t p, ∃ w, (oceanBox (-6)).In s t p → specvol (Rfl.fin s : Rfl rnd) (Rfl.fin t) (Rfl.fin p) = Rfl.fin w ∧
      |w - tab 0 0 0 s t p| ≤ 2.2e-17 := by
    intro s t p
    by_cases h : (oceanBox (-6)).In s t p
    · have h' := inOcean h
      obtain ⟨f, g, hb, h1, _, _, _, _, _, _, _, h2, _⟩ := gsw_rounded R h'
      have e : g 0 0 0 = tab 0 0 0 s t p := by simpa [specvol_tab h'.s0] using h2.symm
      have h3 := hb 0 0 0 (by omega)
      refine ⟨_, fun _ => ⟨h1, ?_⟩⟩
      rw [e] at h3
      norm_num [errBound] at h3 ⊢
      exact h3
    · exact ⟨0, fun h' => absurd h' h⟩
  choose e he using H
  exact ⟨e, fun s t p h => (he s t p h).1, fun s t p h => (he s t p h).2,
    fun s t p s' t' p' h h' => (inOcean h).lip (inOcean h'), by norm_num, by norm_num, by norm_num⟩

/-- **C130** Vertical solves in floating point with gsw: the exact residual of specific volume at the returned point is, up to solver
tolerance and interpolation errors, at most 4.5e-17 m³/kg. -/
theorem gsw_solves (R : BinRound rnd) (h : rnd 10000 = 10000) : ∃ E : ℝ → ℝ → ℝ → ℝ,
    (∀ s t p, Ocean s t p → specvol (Fl.fin s) (.fin t) (.fin p) = .fin (E s t p)) ∧
    SolvesWith rnd (oceanBox (-6)) specvol E 2.2e-17 1.4e-6 7.5e-7 1e-18 := by
  refine ⟨tab 0 0 0, fun s t p h => specvol_tab h.s0 t p, ?_⟩
  obtain ⟨e, H⟩ := box (rnd := rnd) R.toStdRound
  refine H.solves R ⟨R.zero, h⟩ (M := 0.00102) (fun s t p h => ?_) ?_ ?_
  · have h' := inOcean h
    obtain ⟨⟨h1, h2⟩, _⟩ := h'.bounds
    rw [abs_le]
    norm_num at *
    constructor <;> linarith
  · norm_num [oceanBox]
  · norm_num

end Gsw

namespace Rounding53
section
variable {α : Type*} [Field α] [LinearOrder α] [IsStrictOrderedRing α] [FloorRing α]
/-- Whole numbers below `2^53` are floating point numbers. -/
theorem rndNear_nat {n : ℕ} (hn : n < 2 ^ 53) : rndNear (n : α) = n := by
  rcases Nat.eq_zero_or_pos n with rfl | h
  · simp [rndNear]
  unfold rndNear rndPos
  have hp : (0 : α) < n := by exact_mod_cast h
  rw [if_pos hp]
  obtain ⟨k, hk⟩ : ∃ k : ℕ, ulpExp (n : α) = -(k : ℤ) := by
    have h1 : Nat.log 2 n < 53 := Nat.log_lt_of_lt_pow (by omega) hn
    refine ⟨52 - Nat.log 2 n, ?_⟩
    unfold ulpExp
    rw [Int.log_natCast]
    omega
  rw [hk]
  have e : (n : α) / 2 ^ (-(k : ℤ)) = ((n * 2 ^ k : ℤ) : α) := by
    rw [zpow_neg, div_inv_eq_mul, zpow_natCast]; push_cast; rfl
  rw [e, rne_int, zpow_neg, zpow_natCast]
  push_cast
  field_simp
end
end Rounding53

/-! ## Examples -/

theorem exOcean {t0 : ℝ} (ht : t0 ≤ -1) (R : BinRound rnd) : CastBox (oceanBox t0) (exCastR rnd) 1 4 exA exS exT (4000 / 2 ^ 53) (4000 / 2 ^ 53) := by
  have C := exCastBox R
  refine ⟨C.good, fun i h1 h2 => ?_, fun i h1 h2 => ?_, ?_, C.sizeS, C.sizeT, C.rep⟩
  · have := C.inS i h1 h2
    simp only [exBox] at this
    simp only [oceanBox]
    constructor <;> linarith [this.1, this.2]
  · have := C.inT i h1 h2
    simp only [exBox] at this
    simp only [oceanBox]
    constructor <;> linarith [this.1, this.2]
  · have := C.inP
    simp only [exBox] at this
    simp only [oceanBox]
    constructor <;> linarith [this.1, this.2]

theorem Rounding53.rndNear_10000 : rndNear (10000 : ℝ) = 10000 := by
  have := rndNear_nat (α := ℝ) (n := 10000) (by norm_num)
  norm_num at this
  exact this

/-- Neutral tangent plane with jmd95 in IEEE arithmetic: from a bottle to the cast of the example. -/
example (kind : PPKind) : ∃ E : ℝ → ℝ → ℝ → ℝ, ∃ r,
    ntpBottleToCast 113 (Rfl.fin (1 / 10) : Rfl Rounding53.rndNear) (fun s t p => (Jmd95.rho s t p).getD Rfl.qnan) kind (Rfl.fin 35)
      (Rfl.fin 6) (Rfl.fin 1) (exCastR Rounding53.rndNear) = .ret r ∧
    Accurate kind (exCastR Rounding53.rndNear) 0 4 (fun s t p => E 35 6 ((1 + p) / 2) - E s t ((1 + p) / 2))
      (4000 / 2 ^ 53) (4000 / 2 ^ 53) 4e-12 (1 / 10) r := by
  have R := Rounding53.rndNear_bin (α := ℝ)
  obtain ⟨E, _, H⟩ := Jmd95.jmd95_solves R Rounding53.rndNear_10000
  obtain ⟨r, h, hA⟩ := H.ntp kind (exOcean (by norm_num) R) (sB := 35) (tB := 6) (pB := 1) (tol := 1 / 10)
    (by norm_num [Box.In, oceanBox]) R.one (by norm_num) 100 (by norm_num [exA])
  have e1 : exA 1 = 0 := by norm_num [exA]
  have e4 : exA (4 - 1) = 4 := by norm_num [exA]
  rw [e1, e4] at hA
  exact ⟨E, r, h, hA.mono (by norm_num)⟩

/-- A potential density surface with jmdfwg06 and an anomaly surface and an omega correction with gsw. -/
example (kind : PPKind) :
    (∃ r, vertsolve1 113 (Rfl.fin (1 / 10) : Rfl Rounding53.rndNear) kind
      (fun P Sp Tp => zeroPotential (fun s t p => (Jmdfwg06.rho s t p).getD Rfl.qnan) P Sp Tp (Rfl.fin 2000) (Rfl.fin 1035))
      (exCastR Rounding53.rndNear) = .ret r) ∧
    (∃ r, vertsolve1 113 (Rfl.fin (1 / 10) : Rfl Rounding53.rndNear) kind
      (fun P Sp Tp => zeroAnomaly Gsw.specvol P Sp Tp (Rfl.fin 35, Rfl.fin 5) (Rfl.fin 0)) (exCastR Rounding53.rndNear) = .ret r) ∧
    (∃ r, omegaSolve1 113 (Rfl.fin (1 / 10) : Rfl Rounding53.rndNear) kind Gsw.specvol (Rfl.fin (-1e-7))
      (Rfl.fin 35, Rfl.fin 7, Rfl.fin 1) (exCastR Rounding53.rndNear) = .ret r) := by
  have R := Rounding53.rndNear_bin (α := ℝ)
  obtain ⟨_, _, H⟩ := Jmdfwg06.jmdfwg06_solves R Rounding53.rndNear_10000
  obtain ⟨_, _, H'⟩ := Gsw.gsw_solves R Rounding53.rndNear_10000
  refine ⟨?_, ?_, ?_⟩
  · obtain ⟨r, h, _⟩ := H.potential kind (exOcean (by norm_num) R) (tol := 1 / 10) (refP := 2000) (isoval := 1035)
      (by norm_num [oceanBox]) (by norm_num) 100 (by norm_num [exA])
    exact ⟨r, h⟩
  · obtain ⟨r, h, _⟩ := H'.anomaly kind (exOcean (by norm_num) R) (tol := 1 / 10) (refS := 35) (refT := 5) (isoval := 0)
      (by norm_num [oceanBox]) (by norm_num [oceanBox]) (by norm_num) 100 (by norm_num [exA])
    exact ⟨r, h⟩
  · obtain ⟨r, h, _⟩ := H'.omega kind (exOcean (by norm_num) R) (tol := 1 / 10) (phi := -1e-7) (s0 := 35) (t0 := 7) (p0 := 1)
      (by norm_num) (by norm_num [Box.In, oceanBox]) R.one (by norm_num) 100 (by norm_num [exA])
    exact ⟨r, h⟩
