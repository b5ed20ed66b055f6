import Verif.Props.EosBox
import Verif.Lemmas.EosRound

/-!
# The equations of state in rounded arithmetic (C129)
-/

namespace Jmd95
open FloatLike Interp Eos
set_option linter.unusedSectionVars false

variable {rnd : ℝ → ℝ}

/-- The coefficients. -/
def kT (n : Co) : Trk := Trk.lit (co n)
/-- The root of the salinity. -/
def rT : Trk := Trk.rd 6.5 0
/-- The salinity. -/
def sT : Trk := Trk.arg 42
/-- The temperature. -/
def tT : Trk := Trk.arg 40
/-- The pressure. -/
def pT : Trk := Trk.arg 10000

theorem kT_tr (R : StdRound rnd) (n : Co) : Tr (kT n) (kR n) (num n : Rfl rnd) := Tr.lit R _
theorem cT_tr (R : StdRound rnd) (q : ℚ) : Tr (Trk.lit q) (cR q) (lit q : Rfl rnd) := Tr.lit R _

section
variable (R : StdRound rnd) {a b c d : Trk} {x y z w : ℝ} {r s t p : Rfl rnd}
include R

theorem bulk_tr (hr : Tr a x r) (hs : Tr b y s) (ht : Tr c z t) (hp : Tr d w p) :
    Tr (bulk kT a b c d) (bulk kR x y z w) (bulk num r s t p) := by unfold bulk; track R (kT_tr R) (cT_tr R)
theorem dens0_tr (hr : Tr a x r) (hs : Tr b y s) (ht : Tr c z t) :
    Tr (dens0InS kT a b c) (dens0InS kR x y z) (dens0InS num r s t) := by unfold dens0InS; track R (kT_tr R) (cT_tr R)
theorem dens0S_tr (hr : Tr a x r) (hs : Tr b y s) (ht : Tr c z t) :
    Tr (dens0S Trk.lit kT a b c) (dens0S cR kR x y z) (dens0S lit num r s t) := by unfold dens0S; track R (kT_tr R) (cT_tr R)
theorem dens0T_tr (hr : Tr a x r) (hs : Tr b y s) (ht : Tr c z t) :
    Tr (dens0T Trk.lit kT a b c) (dens0T cR kR x y z) (dens0T lit num r s t) := by unfold dens0T; track R (kT_tr R) (cT_tr R)
theorem bulkS_tr (hr : Tr a x r) (hs : Tr b y s) (ht : Tr c z t) (hp : Tr d w p) :
    Tr (bulkS Trk.lit kT a b c d) (bulkS cR kR x y z w) (bulkS lit num r s t p) := by unfold bulkS; track R (kT_tr R) (cT_tr R)
theorem bulkT_tr (hr : Tr a x r) (hs : Tr b y s) (ht : Tr c z t) (hp : Tr d w p) :
    Tr (bulkT Trk.lit kT a b c d) (bulkT cR kR x y z w) (bulkT lit num r s t p) := by unfold bulkT; track R (kT_tr R) (cT_tr R)
theorem pK2_tr (hs : Tr b y s) (ht : Tr c z t) (hp : Tr d w p) :
    Tr (pK2 kT b c d) (pK2 kR y z w) (pK2 num s t p) := by unfold pK2; track R (kT_tr R) (cT_tr R)
theorem pK1_tr (hr : Tr a x r) (hs : Tr b y s) (ht : Tr c z t) (hp : Tr d w p) :
    Tr (pK1plusK2 kT a b c d) (pK1plusK2 kR x y z w) (pK1plusK2 num r s t p) := by unfold pK1plusK2; track R (kT_tr R) (cT_tr R)
theorem pK_tr (hr : Tr a x r) (hs : Tr b y s) (ht : Tr c z t) (hp : Tr d w p) {e : Trk} {v : ℝ} {q : Rfl rnd} (hq : Tr e v q) :
    Tr (pK kT a b c d e) (pK kR x y z w v) (pK num r s t p q) := by unfold pK; track R (kT_tr R) (cT_tr R)
end

/-- The arguments on the oceanographic range. -/
theorem Ocean.args (R : StdRound rnd) {s t p : ℝ} (h : Ocean s t p) : Tr rT (Real.sqrt s) (FloatSqrt.sqrt (Rfl.fin s : Rfl rnd)) ∧
    Tr sT s (Rfl.fin s : Rfl rnd) ∧ Tr tT t (Rfl.fin t : Rfl rnd) ∧ Tr pT p (Rfl.fin p : Rfl rnd) := by
  refine ⟨Tr.sqrtArg R h.s0 ?_, Tr.arg ?_, Tr.arg ?_, Tr.arg ?_⟩
  · rw [Real.sqrt_le_left (by norm_num)]
    have := h.s1
    norm_num
    linarith
  · rw [abs_of_nonneg h.s0]; exact_mod_cast h.s1
  · rw [abs_le]
    have h0 := h.t0
    have h1 := h.t1
    constructor <;> push_cast <;> linarith
  · rw [abs_of_nonneg h.p0]; exact_mod_cast h.p1

/-- The bulk modulus. -/
def KT : Trk := bulk kT rT sT tT pT
/-- The density at zero pressure. -/
def rho0T : Trk := (dens0InS kT rT sT tT).cap 1040
/-- `p / K`. -/
def qT : Trk := (Trk.div 176000 pT KT).cap (10 / 176)
/-- The density. -/
def rhoT : Trk := Trk.div (9 / 10) rho0T (Trk.lit 1 - qT)
/-- `ρ₀ p / (K - p)` -/
def wT : Trk := Trk.div 176000 (rho0T * pT) (KT - pT)
/-- The derivative in salinity. -/
def dST : Trk := Trk.div 176000 (dens0S Trk.lit kT rT sT tT * KT - wT * bulkS Trk.lit kT rT sT tT pT) (KT - pT)
/-- The derivative in temperature. -/
def dTT : Trk := Trk.div 176000 (dens0T Trk.lit kT rT sT tT * KT - wT * bulkT Trk.lit kT rT sT tT pT) (KT - pT)
/-- The derivative in pressure. -/
def dPT : Trk := Trk.div (176000 * 176000)
  (rho0T * (pK kT rT sT tT pT (pK1plusK2 kT rT sT tT (pK2 kT sT tT pT)) - pT * (pK1plusK2 kT rT sT tT (pK2 kT sT tT pT) + pK2 kT sT tT pT)))
  ((pK kT rT sT tT pT (pK1plusK2 kT rT sT tT (pK2 kT sT tT pT)) - pT) * (pK kT rT sT tT pT (pK1plusK2 kT rT sT tT (pK2 kT sT tT pT)) - pT))

theorem Ocean.tr (R : StdRound rnd) {s t p : ℝ} (h : Ocean s t p) :
    Tr KT (K s t p) (bulk num (FloatSqrt.sqrt (Rfl.fin s : Rfl rnd)) (Rfl.fin s) (Rfl.fin t) (Rfl.fin p)) ∧
    Tr rho0T (rho0 s t) (dens0InS num (FloatSqrt.sqrt (Rfl.fin s : Rfl rnd)) (Rfl.fin s) (Rfl.fin t)) := by
  obtain ⟨hr, hs, ht, hp⟩ := h.args R
  obtain ⟨-, -, -, -, h5, h6, -⟩ := h.bounds
  refine ⟨bulk_tr R hr hs ht hp, (dens0_tr R hr hs ht).cap ?_⟩
  have : rho0 s t = dens0InS kR (Real.sqrt s) s t := rfl
  rw [← this, abs_le]
  constructor <;> push_cast <;> linarith

theorem rho_tr (R : StdRound rnd) {s t p : ℝ} (h : Ocean s t p) :
    ∃ v, rho (Rfl.fin s : Rfl rnd) (Rfl.fin t) (Rfl.fin p) = some v ∧ Tr rhoT (density s t p) v := by
  obtain ⟨hK, h0⟩ := h.tr R
  obtain ⟨hr, hs, ht, hp⟩ := h.args R
  obtain ⟨h1, -⟩ := h.bounds
  have hK0 : 0 < K s t p := by linarith
  have q0 : 0 ≤ p / K s t p := div_nonneg h.p0 hK0.le
  have q1 : p / K s t p < 10 / 176 := by
    rw [div_lt_iff₀ hK0]
    have := h.p1
    linarith
  obtain ⟨q, hq, hqt⟩ := Tr.div R hp hK (L := 176000) (by rw [abs_of_pos hK0]; push_cast; linarith) (by decide +kernel)
  have hq2 := hqt.cap (m := 10 / 176) (by rw [abs_of_nonneg q0]; push_cast; linarith)
  have h3 : Tr (Trk.lit 1 - qT) (((1 : ℚ) : ℝ) - p / K s t p) (lit 1.0 - q) := by
    have e : (lit 1.0 : Rfl rnd) = lit 1 := by norm_num
    rw [e]
    exact Tr.sub R (Tr.lit R 1) hq2
  obtain ⟨v, hv, hvt⟩ := Tr.div R h0 h3 (L := 9 / 10) (by rw [abs_of_nonneg] <;> push_cast <;> linarith) (by decide +kernel)
  refine ⟨v, ?_, ?_⟩
  · unfold rho
    show (sdiv _ (bulk num _ _ _ _)).bind (fun q => sdiv (dens0InS num _ _ _) (lit 1.0 - q)) = _
    rw [hq]
    exact hv
  · rw [Rat.cast_one] at hvt
    exact hvt

theorem rhoST_tr (R : StdRound rnd) {s t p : ℝ} (h : Ocean s t p) :
    ∃ v w, rhoST (Rfl.fin s : Rfl rnd) (Rfl.fin t) (Rfl.fin p) = some (v, w) ∧ Tr dST (dS s t p) v ∧ Tr dTT (dT s t p) w := by
  obtain ⟨hK, h0⟩ := h.tr R
  obtain ⟨hr, hs, ht, hp⟩ := h.args R
  obtain ⟨h1, h2, -⟩ := h.bounds
  have hL : ((176000 : ℚ) : ℝ) ≤ |K s t p - p| := by rw [abs_of_nonneg] <;> push_cast <;> linarith
  have hd := Tr.sub R hK hp
  have he : (KT - pT).e < 176000 := by decide +kernel
  obtain ⟨w, hw, hwt⟩ := Tr.div R (Tr.mul R h0 hp) hd hL he
  obtain ⟨a, ha, hat⟩ := Tr.div R (Tr.sub R (Tr.mul R (dens0S_tr R hr hs ht) hK) (Tr.mul R hwt (bulkS_tr R hr hs ht hp))) hd hL he
  obtain ⟨b, hb, hbt⟩ := Tr.div R (Tr.sub R (Tr.mul R (dens0T_tr R hr hs ht) hK) (Tr.mul R hwt (bulkT_tr R hr hs ht hp))) hd hL he
  refine ⟨a, b, ?_, hat, hbt⟩
  unfold rhoST
  simp only [dens0InT_eq, hw, ha, hb, Option.bind_eq_bind, Option.bind_some, Option.pure_def]

theorem rhoP_tr (R : StdRound rnd) {s t p : ℝ} (h : Ocean s t p) :
    ∃ v, rhoP (Rfl.fin s : Rfl rnd) (Rfl.fin t) (Rfl.fin p) = some v ∧ Tr dPT (dP s t p) v := by
  obtain ⟨-, h0⟩ := h.tr R
  obtain ⟨hr, hs, ht, hp⟩ := h.args R
  obtain ⟨h1, h2, -⟩ := h.bounds
  have k2 := pK2_tr R hs ht hp
  have k1 := pK1_tr R hr hs ht k2
  have k0 := pK_tr R hr hs ht hp k1
  have hd := Tr.sub R k0 hp
  have hL : ((176000 * 176000 : ℚ) : ℝ) ≤ |(K s t p - p) * (K s t p - p)| := by
    rw [abs_of_nonneg (mul_self_nonneg _)]; push_cast; gcongr
  have e : pK kR (Real.sqrt s) s t p (pK1plusK2 kR (Real.sqrt s) s t (pK2 kR s t p)) = K s t p := pK_eq _ _ _ _ _
  have hn := Tr.mul R h0 (Tr.sub R k0 (Tr.mul R hp (Tr.add R k1 k2)))
  have hdd := Tr.mul R hd hd
  rw [e] at hn hdd
  obtain ⟨v, hv, hvt⟩ := Tr.div R hn hdd hL (by decide +kernel)
  exact ⟨v, hv, hvt⟩

/-- **C129** On the oceanographic range jmd95 in rounded arithmetic (`float64`) never fails, and its density differs from that of exact
arithmetic by at most 10⁻¹² kg/m³, the derivatives in salinity, temperature and pressure by at most 1.2·10⁻¹⁴, 2.7·10⁻¹⁴ and
1.5·10⁻¹⁶. -/
theorem jmd95_rounded (R : StdRound rnd) {s t p : ℝ} (h : Ocean s t p) : ∃ ρ ρ' a a' b b' c c' : ℝ,
    rho (Rfl.fin s : Rfl rnd) (Rfl.fin t) (Rfl.fin p) = some (Rfl.fin ρ) ∧
    rho (Fl.fin s) (.fin t) (.fin p) = some (.fin ρ') ∧ |ρ - ρ'| ≤ 1e-12 ∧
    rhoST (Rfl.fin s : Rfl rnd) (Rfl.fin t) (Rfl.fin p) = some (Rfl.fin a, Rfl.fin b) ∧
    rhoST (Fl.fin s) (.fin t) (.fin p) = some (.fin a', .fin b') ∧ |a - a'| ≤ 1.2e-14 ∧ |b - b'| ≤ 2.7e-14 ∧
    rhoP (Rfl.fin s : Rfl rnd) (Rfl.fin t) (Rfl.fin p) = some (Rfl.fin c) ∧
    rhoP (Fl.fin s) (.fin t) (.fin p) = some (.fin c') ∧ |c - c'| ≤ 1.5e-16 := by
  obtain ⟨v1, e1, h1⟩ := rho_tr R h
  obtain ⟨v2, v3, e2, h2, h3⟩ := rhoST_tr R h
  obtain ⟨v4, e4, h4⟩ := rhoP_tr R h
  obtain ⟨ρ, rfl, f1⟩ := h1.close (η := 1e-12) (by decide +kernel)
  obtain ⟨a, rfl, f2⟩ := h2.close (η := 1.2e-14) (by decide +kernel)
  obtain ⟨b, rfl, f3⟩ := h3.close (η := 2.7e-14) (by decide +kernel)
  obtain ⟨c, rfl, f4⟩ := h4.close (η := 1.5e-16) (by decide +kernel)
  exact ⟨ρ, _, a, _, b, _, c, _, e1, rho_eq h.s0 h.ne.1 h.ne.2, by norm_num at f1 ⊢; exact f1, e2, rhoST_val h.s0 h.ne.2,
    by norm_num at f2 ⊢; exact f2, by norm_num at f3 ⊢; exact f3, e4, rhoP_val h.s0 h.ne.2, by norm_num at f4 ⊢; exact f4⟩

/-- The hypotheses hold for IEEE rounding at a typical point. -/
example : StdRound (Rounding53.rndNear (α := ℝ)) ∧ Ocean 35 10 2000 :=
  ⟨Rounding53.rndNear_std, by norm_num, by norm_num, by norm_num, by norm_num, by norm_num, by norm_num⟩

end Jmd95

namespace Jmdfwg06
open FloatLike Interp Eos PolyBox
set_option linter.unusedSectionVars false

variable {rnd : ℝ → ℝ}

/-- The coefficients. -/
def kT (n : Co) : Trk := Trk.lit (co n)
/-- The root of the salinity. -/
def rT : Trk := Trk.rd 6.5 0
/-- The salinity. -/
def sT : Trk := Trk.arg 42
/-- The temperature. -/
def tT : Trk := Trk.arg 40
/-- The pressure. -/
def pT : Trk := Trk.arg 10000

theorem kT_tr (R : StdRound rnd) (n : Co) : Tr (kT n) (kR n) (cf n : Rfl rnd) := Tr.lit R _
theorem cT_tr (R : StdRound rnd) (q : ℚ) : Tr (Trk.lit q) (cR q) (lit q : Rfl rnd) := Tr.lit R _

section
variable (R : StdRound rnd) {a b c d e f : Trk} {x y z w t' q' : ℝ} {r s t p t2 pt : Rfl rnd}
include R

theorem num_tr (hs : Tr b y s) (ht : Tr c z t) (hp : Tr d w p) (h2 : Tr e t' t2) :
    Tr (num kT b c d e) (num kR y z w t') (num cf s t p t2) := by unfold num; track R (kT_tr R) (cT_tr R)
theorem den_tr (hr : Tr a x r) (hs : Tr b y s) (ht : Tr c z t) (hp : Tr d w p) (h2 : Tr e t' t2) :
    Tr (den kT a b c d e) (den kR x y z w t') (den cf r s t p t2) := by unfold den; track R (kT_tr R) (cT_tr R)
theorem denST_tr (hr : Tr a x r) (hs : Tr b y s) (ht : Tr c z t) (hp : Tr d w p) (h2 : Tr e t' t2) (hpt : Tr f q' pt) :
    Tr (denST kT a b c d e f) (denST kR x y z w t' q') (denST cf r s t p t2 pt) := by unfold denST; track R (kT_tr R) (cT_tr R)
theorem numS_tr (hs : Tr b y s) (ht : Tr c z t) (hp : Tr d w p) :
    Tr (numS Trk.lit kT b c d) (numS cR kR y z w) (numS lit cf s t p) := by unfold numS; track R (kT_tr R) (cT_tr R)
theorem numT_tr (hs : Tr b y s) (ht : Tr c z t) (hp : Tr d w p) (hpt : Tr f q' pt) :
    Tr (numT Trk.lit kT b c d f) (numT cR kR y z w q') (numT lit cf s t p pt) := by unfold numT; track R (kT_tr R) (cT_tr R)
theorem denS_tr (hr : Tr a x r) (ht : Tr c z t) (h2 : Tr e t' t2) :
    Tr (denS Trk.lit kT a c e) (denS cR kR x z t') (denS lit cf r t t2) := by unfold denS; track R (kT_tr R) (cT_tr R)
theorem denT_tr (hr : Tr a x r) (hs : Tr b y s) (ht : Tr c z t) (hp : Tr d w p) (h2 : Tr e t' t2) (hpt : Tr f q' pt) :
    Tr (denT Trk.lit kT a b c d e f) (denT cR kR x y z w t' q') (denT lit cf r s t p t2 pt) := by
  unfold denT; track R (kT_tr R) (cT_tr R)
theorem numP_tr (hs : Tr b y s) (h2 : Tr e t' t2) (hp : Tr d w p) :
    Tr (numP_ Trk.lit kT b e d) (numP_ cR kR y t' w) (numP_ lit cf s t2 p) := by unfold numP_; track R (kT_tr R) (cT_tr R)
theorem denP_tr (ht : Tr c z t) (hp : Tr d w p) (h2 : Tr e t' t2) :
    Tr (denP_ Trk.lit kT c d e) (denP_ cR kR z w t') (denP_ lit cf t p t2) := by unfold denP_; track R (kT_tr R) (cT_tr R)
end

/-- Sign of the temperature derivative. -/
def pTT : P3 := numT k3 kP (bx * bx) bY bz (bz * bY) * pD - pN * denT k3 kP bx (bx * bx) bY bz (bY * bY) (bz * bY)

theorem poly_bounds' {r t p : ℝ} (hr : 0 ≤ r ∧ r ≤ 6.5) (ht : -2 ≤ t ∧ t ≤ 40) (hp : 0 ≤ p ∧ p ≤ 10000) :
    (0.945 < den kR r (r * r) t p (t * t) ∧ den kR r (r * r) t p (t * t) < 1.405) ∧
    (924 < num kR (r * r) t p (t * t) ∧ num kR (r * r) t p (t * t) < 1491) ∧
    (0.67 < numS cR kR (r * r) t p * den kR r (r * r) t p (t * t) - num kR (r * r) t p (t * t) * denS cR kR r t (t * t) ∧
      numS cR kR (r * r) t p * den kR r (r * r) t p (t * t) - num kR (r * r) t p (t * t) * denS cR kR r t (t * t) < 1.34) ∧
    (-1.03 < numT cR kR (r * r) t p (p * t) * den kR r (r * r) t p (t * t)
        - num kR (r * r) t p (t * t) * denT cR kR r (r * r) t p (t * t) (p * t) ∧
      numT cR kR (r * r) t p (p * t) * den kR r (r * r) t p (t * t)
        - num kR (r * r) t p (t * t) * denT cR kR r (r * r) t p (t * t) (p * t) < 0.21) ∧
    (0.004 < numP_ cR kR (r * r) (t * t) p * den kR r (r * r) t p (t * t) - num kR (r * r) t p (t * t) * denP_ cR kR t p (t * t) ∧
      numP_ cR kR (r * r) (t * t) p * den kR r (r * r) t p (t * t) - num kR (r * r) t p (t * t) * denP_ cR kR t p (t * t) < 0.007) := by
  obtain ⟨u, hu, rfl⟩ := unit_of (x := r) (m := 13 / 4) (h := 13 / 4) (by norm_num) (by norm_num at hr ⊢; exact hr.1)
    (by norm_num at hr ⊢; exact hr.2)
  obtain ⟨w, hw, rfl⟩ := unit_of (x := t) (m := 19) (h := 21) (by norm_num) (by norm_num at ht ⊢; exact ht.1)
    (by norm_num at ht ⊢; exact ht.2)
  obtain ⟨q, hq, rfl⟩ := unit_of (x := p) (m := 5000) (h := 5000) (by norm_num) (by norm_num at hp ⊢; exact hp.1)
    (by norm_num at hp ⊢; exact hp.2)
  have ex : val u w q bx = _ := val_x (13 / 4) (13 / 4)
  have ey : val u w q bY = _ := val_y 19 21
  have ez : val u w q bz = _ := val_z 5000 5000
  rw [← ex, ← ey, ← ez]
  have e0 : num kR (val u w q bx * val u w q bx) (val u w q bY) (val u w q bz) (val u w q bY * val u w q bY) = val u w q pN := by
    simp only [pN, num, val_add, val_mul, val_co]
  have e1 : den kR (val u w q bx) (val u w q bx * val u w q bx) (val u w q bY) (val u w q bz) (val u w q bY * val u w q bY) = val u w q pD := by
    simp only [pD, den, val_add, val_mul, val_co]
  rw [e0, e1]
  have e2 : numS cR kR (val u w q bx * val u w q bx) (val u w q bY) (val u w q bz) * val u w q pD
      - val u w q pN * denS cR kR (val u w q bx) (val u w q bY) (val u w q bY * val u w q bY) = val u w q pS := by
    simp only [pS, val_sub, numS, denS, val_add, val_mul, val_co, val_c]
  have e3 : numP_ cR kR (val u w q bx * val u w q bx) (val u w q bY * val u w q bY) (val u w q bz) * val u w q pD
      - val u w q pN * denP_ cR kR (val u w q bY) (val u w q bz) (val u w q bY * val u w q bY) = val u w q pP := by
    simp only [pP, val_sub, numP_, denP_, val_add, val_mul, val_co, val_c]
  have e4 : numT cR kR (val u w q bx * val u w q bx) (val u w q bY) (val u w q bz) (val u w q bz * val u w q bY) * val u w q pD
      - val u w q pN * denT cR kR (val u w q bx) (val u w q bx * val u w q bx) (val u w q bY) (val u w q bz) (val u w q bY * val u w q bY)
        (val u w q bz * val u w q bY) = val u w q pTT := by
    simp only [pTT, val_sub, numT, denT, val_add, val_mul, val_co, val_c]
  rw [e2, e3, e4]
  have key : ∀ (P : P3) (l h : ℚ), l < low P → high P < h → (l : ℝ) < val u w q P ∧ val u w q P < h := fun P l h h1 h2 => by
    have b := val_bound hu hw hq P
    have h1' : (l : ℝ) < low P := by exact_mod_cast h1
    have h2' : (high P : ℝ) < h := by exact_mod_cast h2
    exact ⟨h1'.trans_le b.1, b.2.trans_lt h2'⟩
  have k1 := key pD 0.945 1.405 (by decide +kernel) (by decide +kernel)
  have k2 := key pN 924 1491 (by decide +kernel) (by decide +kernel)
  have k3 := key pS 0.67 1.34 (by decide +kernel) (by decide +kernel)
  have k4 := key pTT (-1.03) 0.21 (by decide +kernel) (by decide +kernel)
  have k5 := key pP 0.004 0.007 (by decide +kernel) (by decide +kernel)
  norm_num at k1 k2 k3 k4 k5 ⊢
  exact ⟨k1, k2, k3, k4, k5⟩

theorem Ocean.bounds' {s t p : ℝ} (h : Ocean s t p) :
    (0.945 < D s t p ∧ D s t p < 1.405) ∧ (924 < N s t p ∧ N s t p < 1491) ∧
    (0.67 < numS cR kR s t p * D s t p - N s t p * denS cR kR (Real.sqrt s) t (t * t) ∧
      numS cR kR s t p * D s t p - N s t p * denS cR kR (Real.sqrt s) t (t * t) < 1.34) ∧
    (-1.03 < numT cR kR s t p (p * t) * D s t p - N s t p * denT cR kR (Real.sqrt s) s t p (t * t) (p * t) ∧
      numT cR kR s t p (p * t) * D s t p - N s t p * denT cR kR (Real.sqrt s) s t p (t * t) (p * t) < 0.21) ∧
    (0.004 < numP_ cR kR s (t * t) p * D s t p - N s t p * denP_ cR kR t p (t * t) ∧
      numP_ cR kR s (t * t) p * D s t p - N s t p * denP_ cR kR t p (t * t) < 0.007) := by
  have hr : 0 ≤ Real.sqrt s ∧ Real.sqrt s ≤ 6.5 := by
    refine ⟨Real.sqrt_nonneg s, ?_⟩
    rw [Real.sqrt_le_left (by norm_num)]
    have := h.s1
    norm_num
    linarith
  have := poly_bounds' hr ⟨h.t0, h.t1⟩ ⟨h.p0, h.p1⟩
  rw [Real.mul_self_sqrt h.s0] at this
  exact this

/-- The arguments on the oceanographic range. -/
theorem Ocean.args (R : StdRound rnd) {s t p : ℝ} (h : Ocean s t p) : Tr rT (Real.sqrt s) (FloatSqrt.sqrt (Rfl.fin s : Rfl rnd)) ∧
    Tr sT s (Rfl.fin s : Rfl rnd) ∧ Tr tT t (Rfl.fin t : Rfl rnd) ∧ Tr pT p (Rfl.fin p : Rfl rnd) := by
  have h' : Jmd95.Ocean s t p := ⟨h.s0, h.s1, h.t0, h.t1, h.p0, h.p1⟩
  exact h'.args R

/-- `t ** 2` -/
def t2T : Trk := tT * tT
/-- `p * t` -/
def ptT : Trk := pT * tT
/-- The numerator. -/
def NT : Trk := (num kT sT tT pT t2T).cap 1491
/-- The denominator. -/
def DT : Trk := den kT rT sT tT pT t2T
/-- The denominator in `rho_s_t`. -/
def DT' : Trk := denST kT rT sT tT pT t2T ptT
/-- `1 / den` -/
def invT : Trk := Trk.div 0.945 (Trk.lit 1) DT
/-- `1 / den` in `rho_s_t` -/
def invT' : Trk := Trk.div 0.945 (Trk.lit 1) DT'
/-- The density. -/
def rhoT : Trk := NT * invT
/-- The derivative in salinity. -/
def dST : Trk := (numS Trk.lit kT sT tT pT - NT * denS Trk.lit kT rT tT t2T * invT') * invT'
/-- The derivative in temperature. -/
def dTT : Trk := (numT Trk.lit kT sT tT pT ptT - NT * denT Trk.lit kT rT sT tT pT t2T ptT * invT') * invT'
/-- The derivative in pressure. -/
def dPT : Trk := (numP_ Trk.lit kT sT t2T pT - NT * denP_ Trk.lit kT tT pT t2T * invT) * invT


theorem Ocean.tr (R : StdRound rnd) {s t p : ℝ} (h : Ocean s t p) :
    Tr NT (N s t p) (num cf (Rfl.fin s : Rfl rnd) (Rfl.fin t) (Rfl.fin p) (Rfl.fin t * Rfl.fin t)) ∧
    (∃ i, sdiv (lit 1.0) (den cf (FloatSqrt.sqrt (Rfl.fin s : Rfl rnd)) (Rfl.fin s) (Rfl.fin t) (Rfl.fin p) (Rfl.fin t * Rfl.fin t)) = some i ∧
      Tr invT (1 / D s t p) i) ∧
    ∃ i, sdiv (lit 1.0) (denST cf (FloatSqrt.sqrt (Rfl.fin s : Rfl rnd)) (Rfl.fin s) (Rfl.fin t) (Rfl.fin p) (Rfl.fin t * Rfl.fin t)
        (Rfl.fin p * Rfl.fin t)) = some i ∧ Tr invT' (1 / D s t p) i := by
  obtain ⟨hr, hs, ht, hp⟩ := h.args R
  obtain ⟨⟨h1, -⟩, ⟨h2, h3⟩, -⟩ := h.bounds'
  have e : (lit 1.0 : Rfl rnd) = lit 1 := by norm_num
  have ht2 := Tr.mul R ht ht
  have hpt := Tr.mul R hp ht
  have eD : denST kR (Real.sqrt s) s t p (t * t) (p * t) = D s t p := by
    simp only [denST, den, D, mul_assoc]
  have hL : ((0.945 : ℚ) : ℝ) ≤ |D s t p| := by
    rw [abs_of_pos (by linarith)]
    norm_num at h1 ⊢
    linarith
  have h1' := Tr.lit R 1
  rw [Rat.cast_one] at h1'
  refine ⟨(num_tr R hs ht hp ht2).cap ?_, ?_, ?_⟩
  · have : N s t p = num kR s t p (t * t) := rfl
    rw [← this, abs_of_pos (by linarith)]
    push_cast
    exact h3.le
  · rw [e]
    exact Tr.div R h1' (den_tr R hr hs ht hp ht2) hL (by decide +kernel)
  · rw [e, ← eD]
    exact Tr.div R h1' (denST_tr R hr hs ht hp ht2 hpt) (eD.symm ▸ hL) (by decide +kernel)

theorem rho_tr (R : StdRound rnd) {s t p : ℝ} (h : Ocean s t p) :
    ∃ v, rho (Rfl.fin s : Rfl rnd) (Rfl.fin t) (Rfl.fin p) = some v ∧ Tr rhoT (density s t p) v := by
  obtain ⟨hN, ⟨i, hi, hit⟩, -⟩ := h.tr R
  have e : density s t p = N s t p * (1 / D s t p) := (mul_one_div _ _).symm
  refine ⟨_, ?_, e ▸ Tr.mul R hN hit⟩
  · unfold rho
    simp only [hi, Option.bind_eq_bind, Option.bind_some, Option.pure_def]

theorem rhoST_tr (R : StdRound rnd) {s t p : ℝ} (h : Ocean s t p) :
    ∃ v w, rhoST (Rfl.fin s : Rfl rnd) (Rfl.fin t) (Rfl.fin p) = some (v, w) ∧ Tr dST (dS s t p) v ∧ Tr dTT (dT s t p) w := by
  obtain ⟨hN, -, i, hi, hit⟩ := h.tr R
  obtain ⟨hr, hs, ht, hp⟩ := h.args R
  have ht2 := Tr.mul R ht ht
  have hpt := Tr.mul R hp ht
  have e : (numST cf (Rfl.fin s : Rfl rnd) (Rfl.fin t) (Rfl.fin p) (Rfl.fin t * Rfl.fin t))
    = num cf (Rfl.fin s : Rfl rnd) (Rfl.fin t) (Rfl.fin p) (Rfl.fin t * Rfl.fin t) := rfl
  refine ⟨_, _, ?_, Tr.mul R (Tr.sub R (numS_tr R hs ht hp) (Tr.mul R (Tr.mul R hN (denS_tr R hr ht ht2)) hit)) hit,
    Tr.mul R (Tr.sub R (numT_tr R hs ht hp hpt) (Tr.mul R (Tr.mul R hN (denT_tr R hr hs ht hp ht2 hpt)) hit)) hit⟩
  unfold rhoST
  simp only [e, hi, Option.bind_eq_bind, Option.bind_some, Option.pure_def]

theorem rhoP_tr (R : StdRound rnd) {s t p : ℝ} (h : Ocean s t p) :
    ∃ v, rhoP (Rfl.fin s : Rfl rnd) (Rfl.fin t) (Rfl.fin p) = some v ∧ Tr dPT (dP s t p) v := by
  obtain ⟨hN, ⟨i, hi, hit⟩, -⟩ := h.tr R
  obtain ⟨hr, hs, ht, hp⟩ := h.args R
  have ht2 := Tr.mul R ht ht
  have e : (numP cf (Rfl.fin s : Rfl rnd) (Rfl.fin t) (Rfl.fin p) (Rfl.fin t * Rfl.fin t))
    = num cf (Rfl.fin s : Rfl rnd) (Rfl.fin t) (Rfl.fin p) (Rfl.fin t * Rfl.fin t) := rfl
  have e' : denP cf (FloatSqrt.sqrt (Rfl.fin s : Rfl rnd)) (Rfl.fin s : Rfl rnd) (Rfl.fin t) (Rfl.fin p) (Rfl.fin t * Rfl.fin t)
    = den cf (FloatSqrt.sqrt (Rfl.fin s : Rfl rnd)) (Rfl.fin s : Rfl rnd) (Rfl.fin t) (Rfl.fin p) (Rfl.fin t * Rfl.fin t) := rfl
  refine ⟨_, ?_, Tr.mul R (Tr.sub R (numP_tr R hs ht2 hp) (Tr.mul R (Tr.mul R hN (denP_tr R ht hp ht2)) hit)) hit⟩
  unfold rhoP
  simp only [e, e', hi, Option.bind_eq_bind, Option.bind_some, Option.pure_def]

/-- **C129** On the oceanographic range jmdfwg06 in rounded arithmetic (`float64`) never fails, and its density differs from that of
exact arithmetic by at most 3.2·10⁻¹² kg/m³, the derivatives in salinity, temperature and pressure by at most 2.2·10⁻¹⁴, 1.3·10⁻¹³ and
7.1·10⁻¹⁷. -/
theorem jmdfwg06_rounded (R : StdRound rnd) {s t p : ℝ} (h : Ocean s t p) : ∃ ρ ρ' a a' b b' c c' : ℝ,
    rho (Rfl.fin s : Rfl rnd) (Rfl.fin t) (Rfl.fin p) = some (Rfl.fin ρ) ∧
    rho (Fl.fin s) (.fin t) (.fin p) = some (.fin ρ') ∧ |ρ - ρ'| ≤ 3.2e-12 ∧
    rhoST (Rfl.fin s : Rfl rnd) (Rfl.fin t) (Rfl.fin p) = some (Rfl.fin a, Rfl.fin b) ∧
    rhoST (Fl.fin s) (.fin t) (.fin p) = some (.fin a', .fin b') ∧ |a - a'| ≤ 2.2e-14 ∧ |b - b'| ≤ 1.3e-13 ∧
    rhoP (Rfl.fin s : Rfl rnd) (Rfl.fin t) (Rfl.fin p) = some (Rfl.fin c) ∧
    rhoP (Fl.fin s) (.fin t) (.fin p) = some (.fin c') ∧ |c - c'| ≤ 7.1e-17 := by
  obtain ⟨v1, e1, h1⟩ := rho_tr R h
  obtain ⟨v2, v3, e2, h2, h3⟩ := rhoST_tr R h
  obtain ⟨v4, e4, h4⟩ := rhoP_tr R h
  obtain ⟨ρ, rfl, f1⟩ := h1.close (η := 3.2e-12) (by decide +kernel)
  obtain ⟨a, rfl, f2⟩ := h2.close (η := 2.2e-14) (by decide +kernel)
  obtain ⟨b, rfl, f3⟩ := h3.close (η := 1.3e-13) (by decide +kernel)
  obtain ⟨c, rfl, f4⟩ := h4.close (η := 7.1e-17) (by decide +kernel)
  have hD := h.bounds.1.ne'
  exact ⟨ρ, _, a, _, b, _, c, _, e1, rho_eq h.s0 hD, by norm_num at f1 ⊢; exact f1, e2, rhoST_val h.s0 hD,
    by norm_num at f2 ⊢; exact f2, by norm_num at f3 ⊢; exact f3, e4, rhoP_val h.s0 hD, by norm_num at f4 ⊢; exact f4⟩

/-- The hypotheses hold for IEEE rounding at a typical point. -/
example : StdRound (Rounding53.rndNear (α := ℝ)) ∧ Ocean 35 10 2000 :=
  ⟨Rounding53.rndNear_std, by norm_num, by norm_num, by norm_num, by norm_num, by norm_num, by norm_num⟩

end Jmdfwg06
