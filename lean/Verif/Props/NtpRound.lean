import Verif.Props.Ntp
import Verif.Props.EosSolve

/-!
# Neutrality errors in floating point (C135)

`Ntp.epsErr` is run with rounded arithmetic and with the library's equations of state.  The specification is the exact
neutrality error `E_s Δs + E_t Δt` at a point whose salinity, temperature and pressure are the means of the two parcels up to half a unit
in the last place.
-/

open FloatLike Traj
variable {rnd : ℝ → ℝ}

namespace Ntp

section
variable {α : Type*} [Field α] [LinearOrder α] [IsStrictOrderedRing α] {rnd : α → α}

theorem round_neg (R : StdRound rnd) (x : Fl α) : Rfl.round rnd (Fl.neg x) = Fl.neg (Rfl.round rnd x) := by
  cases x <;> simp [Rfl.round, Fl.neg, R.neg]

/-- Rounded arithmetic has the sign symmetries assumed by `epsErr_reverse`. -/
theorem signSymm (R : StdRound rnd) : SignSymm (Rfl rnd) where
  add_comm x y := congrArg (Rfl.round rnd) (SignSymm.add_comm (F := Fl α) x y)
  sub_swap x y := (congrArg (Rfl.round rnd) (SignSymm.sub_swap (F := Fl α) x y)).trans (round_neg R _)
  mul_neg x y := (congrArg (Rfl.round rnd) (SignSymm.mul_neg (F := Fl α) x y)).trans (round_neg R _)
  neg_add x y := (congrArg (Rfl.round rnd) (SignSymm.neg_add (F := Fl α) x y)).trans (round_neg R _)

/-- **C135** In floating point, reversing an edge exactly negates its error, for any equation of state and any data, NaN included. -/
theorem epsErr_reverse_rounded (R : StdRound rnd) (eos : EosST (Rfl rnd)) (s t p : ℕ → Rfl rnd) (a b : ℕ) :
    epsErr eos s t p (b, a) = -(epsErr eos s t p (a, b)) :=
  haveI := signSymm R
  epsErr_reverse eos s t p a b

end

/-- The computed derivatives of the equation of state on a box: numbers within `ηs`, `ηt` of the exact derivatives `ES`, `ET`, which
are at most `Ms`, `Mt` in size. -/
structure DerBox (rnd : ℝ → ℝ) (b : Box) (eos : EosST (Rfl rnd)) (ES ET : ℝ → ℝ → ℝ → ℝ) (ηs ηt Ms Mt : ℝ) : Prop where
  val : ∀ s t p, b.In s t p → ∃ x y, eos (Rfl.fin s) (Rfl.fin t) (Rfl.fin p) = (Rfl.fin x, Rfl.fin y) ∧
    |x - ES s t p| ≤ ηs ∧ |y - ET s t p| ≤ ηt
  boundS : ∀ s t p, b.In s t p → |ES s t p| ≤ Ms
  boundT : ∀ s t p, b.In s t p → |ET s t p| ≤ Mt

/-- A point midway between two numbers, up to rounding of their sum. -/
def Mid (x y m : ℝ) : Prop := |m - (x + y) / 2| ≤ |(x + y) / 2| / 2 ^ 53 ∧ min x y ≤ m ∧ m ≤ max x y

theorem avg_mid (R : BinRound rnd) {x y : ℝ} (hx : rnd x = x) (hy : rnd y = y) : ∃ m,
    (lit (1 / 2) * (Rfl.fin x + Rfl.fin y) : Rfl rnd) = Rfl.fin m ∧ Mid x y m := by
  refine ⟨rnd (x + y) / 2, ?_, ?_, ?_⟩
  · rw [Rfl.fin_add, Rfl.lit_eq, Rfl.fin_mul, mul_comm, R.avg]
  · have := R.err (x + y)
    have e : rnd (x + y) / 2 - (x + y) / 2 = (rnd (x + y) - (x + y)) / 2 := by ring
    rw [e, abs_div, abs_div, abs_two]
    linarith
  · refine R.avg_mem ?_ ?_ (min_le_left _ _) (min_le_right _ _) (le_max_left _ _) (le_max_right _ _)
    · rcases min_choice x y with h | h <;> rw [h] <;> assumption
    · rcases max_choice x y with h | h <;> rw [h] <;> assumption

/-- One product of the formula: the coefficient carries an error `η`, the difference and the product are rounded. -/
theorem term (R : StdRound rnd) {x A d η M : ℝ} (h : |x - A| ≤ η) (hM : |A| ≤ M) :
    |rnd (x * rnd d) - A * d| ≤ (η + (2 / 2 ^ 53 + 1 / 2 ^ 106) * (M + η)) * |d| := by
  have h1 := R.err d
  have h2 := R.err (x * rnd d)
  have hx : |x| ≤ M + η := by
    have := abs_sub_abs_le_abs_sub x A; linarith
  have hx0 := abs_nonneg x
  have hd0 := abs_nonneg d
  have h3 : |rnd d| ≤ (1 + 1 / 2 ^ 53) * |d| := by
    have := abs_sub_abs_le_abs_sub (rnd d) d
    have e : (1 + 1 / 2 ^ 53) * |d| = |d| + |d| / 2 ^ 53 := by ring
    rw [e]; linarith
  have h4 : |x * rnd d| ≤ (M + η) * ((1 + 1 / 2 ^ 53) * |d|) := by
    rw [abs_mul]; gcongr; linarith
  have h5 : |x * (rnd d - d)| ≤ (M + η) * (|d| / 2 ^ 53) := by
    rw [abs_mul]; gcongr; linarith
  have h6 : |(x - A) * d| ≤ η * |d| := by
    rw [abs_mul]; gcongr
  have e : rnd (x * rnd d) - A * d = (rnd (x * rnd d) - x * rnd d) + (x * (rnd d - d) + (x - A) * d) := by ring
  rw [e]
  have := abs_add_le (rnd (x * rnd d) - x * rnd d) (x * (rnd d - d) + (x - A) * d)
  have := abs_add_le (x * (rnd d - d)) ((x - A) * d)
  have h7 : |x * rnd d| / 2 ^ 53 ≤ (M + η) * ((1 + 1 / 2 ^ 53) * |d|) / 2 ^ 53 := by gcongr
  have e2 : (η + (2 / 2 ^ 53 + 1 / 2 ^ 106) * (M + η)) * |d|
      = (M + η) * ((1 + 1 / 2 ^ 53) * |d|) / 2 ^ 53 + (M + η) * (|d| / 2 ^ 53) + η * |d| := by ring
  rw [e2]
  linarith

/-- **C135** The neutrality error computed in floating point between two parcels is a number, and differs from the exact neutrality
error, with the derivatives taken at the mean of the parcels up to rounding, by at most
`(ηs + 4u (Ms + ηs)) |Δs| + (ηt + 4u (Mt + ηt)) |Δt|` where `u = 2⁻⁵³`. -/
theorem epsErr_rounded (R : BinRound rnd) {b : Box} {eos : EosST (Rfl rnd)} {ES ET : ℝ → ℝ → ℝ → ℝ} {ηs ηt Ms Mt : ℝ}
    (H : DerBox rnd b eos ES ET ηs ηt Ms Mt) (s t p : ℕ → Rfl rnd) (i j : ℕ) {si ti pi sj tj pj : ℝ}
    (hs : s i = Rfl.fin si) (ht : t i = Rfl.fin ti) (hp : p i = Rfl.fin pi)
    (hs' : s j = Rfl.fin sj) (ht' : t j = Rfl.fin tj) (hp' : p j = Rfl.fin pj)
    (rs : rnd si = si) (rt : rnd ti = ti) (rp : rnd pi = pi) (rs' : rnd sj = sj) (rt' : rnd tj = tj) (rp' : rnd pj = pj)
    (hi : b.In si ti pi) (hj : b.In sj tj pj) :
    ∃ v sm tm pm, epsErr eos s t p (i, j) = Rfl.fin v ∧ Mid si sj sm ∧ Mid ti tj tm ∧ Mid pi pj pm ∧ b.In sm tm pm ∧
      |v - (ES sm tm pm * (sj - si) + ET sm tm pm * (tj - ti))| ≤
        (ηs + 4 / 2 ^ 53 * (Ms + ηs)) * |sj - si| + (ηt + 4 / 2 ^ 53 * (Mt + ηt)) * |tj - ti| := by
  obtain ⟨sm, e1, m1⟩ := avg_mid R rs rs'
  obtain ⟨tm, e2, m2⟩ := avg_mid R rt rt'
  obtain ⟨pm, e3, m3⟩ := avg_mid R rp rp'
  have hm : b.In sm tm pm := by
    obtain ⟨a1, a2, a3, a4, a5, a6⟩ := hi
    obtain ⟨c1, c2, c3, c4, c5, c6⟩ := hj
    exact ⟨(le_min a1 c1).trans m1.2.1, m1.2.2.trans (max_le a2 c2), (le_min a3 c3).trans m2.2.1, m2.2.2.trans (max_le a4 c4),
      (le_min a5 c5).trans m3.2.1, m3.2.2.trans (max_le a6 c6)⟩
  obtain ⟨x, y, he, hx, hy⟩ := H.val sm tm pm hm
  have hA := H.boundS sm tm pm hm
  have hB := H.boundT sm tm pm hm
  refine ⟨rnd (rnd (x * rnd (sj - si)) + rnd (y * rnd (tj - ti))), sm, tm, pm, ?_, m1, m2, m3, hm, ?_⟩
  · unfold epsErr
    simp only [hs, ht, hp, hs', ht', hp', e1, e2, e3]
    rw [he]
    simp only [Rfl.fin_sub, Rfl.fin_mul, Rfl.fin_add]
  have t1 := term R.toStdRound (d := sj - si) hx hA
  have t2 := term R.toStdRound (d := tj - ti) hy hB
  have hM : 0 ≤ Ms := (abs_nonneg _).trans hA
  have hN : 0 ≤ Mt := (abs_nonneg _).trans hB
  have hη : 0 ≤ ηs := (abs_nonneg _).trans hx
  have hθ : 0 ≤ ηt := (abs_nonneg _).trans hy
  generalize ES sm tm pm = A at *
  generalize ET sm tm pm = B at *
  generalize rnd (x * rnd (sj - si)) = P at *
  generalize rnd (y * rnd (tj - ti)) = Q at *
  generalize sj - si = d at *
  generalize tj - ti = f at *
  have h1 := R.err (P + Q)
  have hd := abs_nonneg d
  have hf := abs_nonneg f
  have bP : |P| ≤ (ηs + (2 / 2 ^ 53 + 1 / 2 ^ 106) * (Ms + ηs)) * |d| + Ms * |d| := by
    have := abs_sub_abs_le_abs_sub P (A * d)
    have : |A * d| ≤ Ms * |d| := by rw [abs_mul]; gcongr
    linarith
  have bQ : |Q| ≤ (ηt + (2 / 2 ^ 53 + 1 / 2 ^ 106) * (Mt + ηt)) * |f| + Mt * |f| := by
    have := abs_sub_abs_le_abs_sub Q (B * f)
    have : |B * f| ≤ Mt * |f| := by rw [abs_mul]; gcongr
    linarith
  have bPQ := abs_add_le P Q
  have e : rnd (P + Q) - (A * d + B * f) = (rnd (P + Q) - (P + Q)) + ((P - A * d) + (Q - B * f)) := by ring
  rw [e]
  have g1 := abs_add_le (rnd (P + Q) - (P + Q)) ((P - A * d) + (Q - B * f))
  have g2 := abs_add_le (P - A * d) (Q - B * f)
  have n1 : 0 ≤ Ms * |d| := by positivity
  have n2 : 0 ≤ ηs * |d| := by positivity
  have n3 : 0 ≤ Mt * |f| := by positivity
  have n4 : 0 ≤ ηt * |f| := by positivity
  have h1' : |rnd (P + Q) - (P + Q)| ≤ (|P| + |Q|) / 2 ^ 53 := h1.trans (by gcongr)
  norm_num at *
  nlinarith

/-- In floating point two parcels with the same salinity and temperature have error 0, whatever their pressures. -/
theorem epsErr_zero_rounded (R : BinRound rnd) {b : Box} {eos : EosST (Rfl rnd)} {ES ET : ℝ → ℝ → ℝ → ℝ} {ηs ηt Ms Mt : ℝ}
    (H : DerBox rnd b eos ES ET ηs ηt Ms Mt) (s t p : ℕ → Rfl rnd) (i j : ℕ) {si ti pi pj : ℝ}
    (hs : s i = Rfl.fin si) (ht : t i = Rfl.fin ti) (hp : p i = Rfl.fin pi)
    (hs' : s j = Rfl.fin si) (ht' : t j = Rfl.fin ti) (hp' : p j = Rfl.fin pj)
    (rs : rnd si = si) (rt : rnd ti = ti) (rp : rnd pi = pi) (rp' : rnd pj = pj)
    (hi : b.In si ti pi) (hj : b.In si ti pj) : epsErr eos s t p (i, j) = Rfl.fin 0 := by
  obtain ⟨v, _, _, _, h, _, _, _, _, hv⟩ := epsErr_rounded R H s t p i j hs ht hp hs' ht' hp' rs rt rp rs rt rp' hi hj
  simp only [sub_self, mul_zero, add_zero, abs_zero, sub_zero] at hv
  rw [h, abs_nonpos_iff.mp hv]

/-- Two parcels given by floating point numbers in a box. -/
structure Parcels (rnd : ℝ → ℝ) (b : Box) (s t p : ℕ → Rfl rnd) (i j : ℕ) (si ti pi sj tj pj : ℝ) : Prop where
  vsi : s i = Rfl.fin si
  vti : t i = Rfl.fin ti
  vpi : p i = Rfl.fin pi
  vsj : s j = Rfl.fin sj
  vtj : t j = Rfl.fin tj
  vpj : p j = Rfl.fin pj
  rsi : rnd si = si
  rti : rnd ti = ti
  rpi : rnd pi = pi
  rsj : rnd sj = sj
  rtj : rnd tj = tj
  rpj : rnd pj = pj
  hi : b.In si ti pi
  hj : b.In sj tj pj

end Ntp

open Ntp

namespace Jmd95

/-- The derivatives of jmd95 as a function, NaN where it would raise. -/
noncomputable def eosSTR (rnd : ℝ → ℝ) : EosST (Rfl rnd) := fun s t p => (rhoST s t p).getD (Rfl.qnan, Rfl.qnan)

theorem derBox (R : StdRound rnd) : DerBox rnd (oceanBox (-2)) (eosSTR rnd) dS dT 1.2e-14 2.7e-14 0.89 1.25 := by
  refine ⟨fun s t p h => ?_, fun s t p h => ?_, fun s t p h => ?_⟩
  · have h' := inOcean h
    obtain ⟨_, _, a, a', b, b', c, c', _, _, _, h1, h2, h3, h4, _⟩ := jmd95_rounded R h'
    have e : a' = dS s t p ∧ b' = dT s t p := by simpa [rhoST_val h'.s0 h'.ne.2] using h2.symm
    exact ⟨a, b, by unfold eosSTR; rw [h1]; rfl, e.1 ▸ h3, e.2 ▸ h4⟩
  · obtain ⟨⟨d1, d2⟩, ⟨d3, d4⟩, d5, d6⟩ := (inOcean h).derivs
    rw [abs_le]; exact ⟨by linarith, d2⟩
  · obtain ⟨⟨d1, d2⟩, ⟨d3, d4⟩, d5, d6⟩ := (inOcean h).derivs
    rw [abs_le]; exact ⟨by linarith, by linarith⟩

/-- **C135** Neutrality errors with jmd95 in floating point: off by at most 1.3e-14 kg/m³ per unit of salinity difference plus
2.8e-14 kg/m³ per degree of temperature difference. -/
theorem epsErr_close (R : BinRound rnd) {s t p : ℕ → Rfl rnd} {i j : ℕ} {si ti pi sj tj pj : ℝ}
    (h : Parcels rnd (oceanBox (-2)) s t p i j si ti pi sj tj pj) :
    ∃ v sm tm pm, epsErr (eosSTR rnd) s t p (i, j) = Rfl.fin v ∧ Mid si sj sm ∧ Mid ti tj tm ∧ Mid pi pj pm ∧ Ocean sm tm pm ∧
      |v - (dS sm tm pm * (sj - si) + dT sm tm pm * (tj - ti))| ≤ 1.3e-14 * |sj - si| + 2.8e-14 * |tj - ti| := by
  obtain ⟨v, sm, tm, pm, h1, h2, h3, h4, h5, h6⟩ := epsErr_rounded R (derBox R.toStdRound) s t p i j h.vsi h.vti h.vpi h.vsj h.vtj h.vpj
    h.rsi h.rti h.rpi h.rsj h.rtj h.rpj h.hi h.hj
  refine ⟨v, sm, tm, pm, h1, h2, h3, h4, inOcean h5, h6.trans ?_⟩
  gcongr <;> norm_num

/-- **C135** With jmd95 in floating point, between parcels of the same temperature the error has the sign of the salinity difference. -/
theorem epsErr_sign (R : BinRound rnd) {s t p : ℕ → Rfl rnd} {i j : ℕ} {si ti pi sj pj : ℝ}
    (h : Parcels rnd (oceanBox (-2)) s t p i j si ti pi sj ti pj) :
    ∃ v, epsErr (eosSTR rnd) s t p (i, j) = Rfl.fin v ∧ (0 < v ↔ si < sj) ∧ (v < 0 ↔ sj < si) := by
  obtain ⟨v, sm, tm, pm, h1, h2, h3, h4, h5, h6⟩ := epsErr_close R h
  refine ⟨v, h1, ?_⟩
  obtain ⟨⟨d1, d2⟩, _⟩ := h5.derivs
  simp only [sub_self, mul_zero, add_zero, abs_zero] at h6
  rw [abs_le] at h6
  norm_num at *
  rcases lt_trichotomy si sj with h | h | h
  · have hp : 0 < sj - si := by linarith
    rw [abs_of_pos hp] at h6
    have : 0 < v := by nlinarith
    exact ⟨⟨fun _ => h, fun _ => this⟩, ⟨fun h' => by linarith, fun h' => by linarith⟩⟩
  · subst h
    have : v = 0 := by simp at h6; linarith [h6.1, h6.2]
    subst this
    simp
  · have hp : sj - si < 0 := by linarith
    rw [abs_of_neg hp] at h6
    have : v < 0 := by nlinarith
    exact ⟨⟨fun h' => by linarith, fun h' => by linarith⟩, ⟨fun _ => h, fun _ => this⟩⟩

end Jmd95

namespace Jmdfwg06

/-- The derivatives of jmdfwg06 as a function, NaN where it would raise. -/
noncomputable def eosSTR (rnd : ℝ → ℝ) : EosST (Rfl rnd) := fun s t p => (rhoST s t p).getD (Rfl.qnan, Rfl.qnan)

theorem derBox (R : StdRound rnd) : DerBox rnd (oceanBox (-2)) (eosSTR rnd) dS dT 2.2e-14 1.3e-13 1.51 1.16 := by
  refine ⟨fun s t p h => ?_, fun s t p h => ?_, fun s t p h => ?_⟩
  · have h' := inOcean h
    obtain ⟨_, _, a, a', b, b', c, c', _, _, _, h1, h2, h3, h4, _⟩ := jmdfwg06_rounded R h'
    have e : a' = dS s t p ∧ b' = dT s t p := by simpa [rhoST_val h'.s0 h'.bounds.1.ne'] using h2.symm
    exact ⟨a, b, by unfold eosSTR; rw [h1]; rfl, e.1 ▸ h3, e.2 ▸ h4⟩
  · obtain ⟨⟨d1, d2⟩, ⟨d3, d4⟩, d5, d6⟩ := (inOcean h).derivs
    rw [abs_le]; exact ⟨by linarith, d2⟩
  · obtain ⟨⟨d1, d2⟩, ⟨d3, d4⟩, d5, d6⟩ := (inOcean h).derivs
    rw [abs_le]; exact ⟨by linarith, by linarith⟩

/-- **C135** Neutrality errors with jmdfwg06 in floating point. -/
theorem epsErr_close (R : BinRound rnd) {s t p : ℕ → Rfl rnd} {i j : ℕ} {si ti pi sj tj pj : ℝ}
    (h : Parcels rnd (oceanBox (-2)) s t p i j si ti pi sj tj pj) :
    ∃ v sm tm pm, epsErr (eosSTR rnd) s t p (i, j) = Rfl.fin v ∧ Mid si sj sm ∧ Mid ti tj tm ∧ Mid pi pj pm ∧ Ocean sm tm pm ∧
      |v - (dS sm tm pm * (sj - si) + dT sm tm pm * (tj - ti))| ≤ 2.3e-14 * |sj - si| + 1.4e-13 * |tj - ti| := by
  obtain ⟨v, sm, tm, pm, h1, h2, h3, h4, h5, h6⟩ := epsErr_rounded R (derBox R.toStdRound) s t p i j h.vsi h.vti h.vpi h.vsj h.vtj h.vpj
    h.rsi h.rti h.rpi h.rsj h.rtj h.rpj h.hi h.hj
  refine ⟨v, sm, tm, pm, h1, h2, h3, h4, inOcean h5, h6.trans ?_⟩
  gcongr <;> norm_num

end Jmdfwg06

namespace Gsw

/-- The derivatives of gsw as a function, NaN where it would raise. -/
noncomputable def eosSTR (rnd : ℝ → ℝ) : EosST (Rfl rnd) := fun s t p => (specvolST s t p).getD (Rfl.qnan, Rfl.qnan)

theorem derBox (R : StdRound rnd) : DerBox rnd (oceanBox (-6)) (eosSTR rnd) (tab 1 0 0) (tab 0 1 0) (errBound 1 0 0) (errBound 0 1 0)
    1.4e-6 7.5e-7 := by
  refine ⟨fun s t p h => ?_, fun s t p h => ?_, fun s t p h => ?_⟩
  · have h' := inOcean h
    obtain ⟨f, g, hb, _, _, _, _, h1, _, _, _, _, _, _, _, h2, _⟩ := gsw_rounded R h'
    obtain ⟨_, _, _, _, h3, _⟩ := gsw_exact h'.s0 t p
    have e : g 1 0 0 = tab 1 0 0 s t p ∧ g 0 1 0 = tab 0 1 0 s t p := by simpa [h3] using h2.symm
    exact ⟨f 1 0 0, f 0 1 0, by unfold eosSTR; rw [h1]; rfl, e.1 ▸ hb 1 0 0 (by omega), e.2 ▸ hb 0 1 0 (by omega)⟩
  · obtain ⟨⟨d1, d2⟩, ⟨d3, d4⟩, d5, d6⟩ := (inOcean h).derivs
    rw [abs_le]; exact ⟨by linarith, by linarith⟩
  · obtain ⟨⟨d1, d2⟩, ⟨d3, d4⟩, d5, d6⟩ := (inOcean h).derivs
    rw [abs_le]; exact ⟨by linarith, by linarith⟩

/-- **C135** Neutrality errors with gsw (differences of specific volume) in floating point. -/
theorem epsErr_close (R : BinRound rnd) {s t p : ℕ → Rfl rnd} {i j : ℕ} {si ti pi sj tj pj : ℝ}
    (h : Parcels rnd (oceanBox (-6)) s t p i j si ti pi sj tj pj) :
    ∃ v sm tm pm, epsErr (eosSTR rnd) s t p (i, j) = Rfl.fin v ∧ Mid si sj sm ∧ Mid ti tj tm ∧ Mid pi pj pm ∧ Ocean sm tm pm ∧
      |v - (tab 1 0 0 sm tm pm * (sj - si) + tab 0 1 0 sm tm pm * (tj - ti))| ≤ 1.3e-18 * |sj - si| + 9e-20 * |tj - ti| := by
  obtain ⟨v, sm, tm, pm, h1, h2, h3, h4, h5, h6⟩ := epsErr_rounded R (derBox R.toStdRound) s t p i j h.vsi h.vti h.vpi h.vsj h.vtj h.vpj
    h.rsi h.rti h.rpi h.rsj h.rtj h.rpj h.hi h.hj
  refine ⟨v, sm, tm, pm, h1, h2, h3, h4, inOcean h5, h6.trans ?_⟩
  gcongr <;> norm_num [errBound]

end Gsw

/-- Two neighbouring parcels of the real ocean in IEEE arithmetic. -/
example : Parcels (Rounding53.rndNear (α := ℝ)) (oceanBox (-2)) (fun i => Rfl.fin (if i = 0 then 35 else 34))
    (fun i => Rfl.fin (if i = 0 then 10 else 9)) (fun i => Rfl.fin (if i = 0 then 500 else 600)) 0 1 35 10 500 34 9 600 := by
  have h : ∀ n : ℕ, n < 2 ^ 53 → Rounding53.rndNear ((n : ℕ) : ℝ) = n := fun n hn => Rounding53.rndNear_nat hn
  have h1 := h 35 (by norm_num)
  have h2 := h 10 (by norm_num)
  have h3 := h 500 (by norm_num)
  have h4 := h 34 (by norm_num)
  have h5 := h 9 (by norm_num)
  have h6 := h 600 (by norm_num)
  norm_num at h1 h2 h3 h4 h5 h6
  refine ⟨?_, ?_, ?_, ?_, ?_, ?_, h1, h2, h3, h4, h5, h6, ?_, ?_⟩ <;> first | simp | norm_num [Box.In, oceanBox]
