import Verif.Lemmas.Label
import Verif.Props.Interp
import Mathlib.MeasureTheory.Integral.IntervalIntegral.FundThmCalculus
import Mathlib.MeasureTheory.Integral.IntervalIntegral.TrapezoidalRule
import Mathlib.Topology.UniformSpace.HeineCantor
import Mathlib.Analysis.Calculus.Deriv.Polynomial
import Mathlib.Topology.Algebra.Polynomial

/-!
# Properties of the Veronis density (C49, C82 - C84)
-/

set_option linter.unusedSectionVars false

namespace Label
open FloatLike Interp
open Fl hiding nan

section exact
variable {α : Type*} [Field α] [LinearOrder α] [IsStrictOrderedRing α] [FloorRing α]
variable {P S T : Arr (Fl α)} {K : ℕ} {a s t : ℕ → α}
  {eos : Fl α → Fl α → Fl α → Fl α} {ρ : α → α → α → α}
  {eosST : Fl α → Fl α → Fl α → Fl α × Fl α} {rs rt : α → α → α → α}
  {ppc : Arr (Fl α) → Arr (Fl α) → Option (PPC (Fl α))}

/-- The equation of state is finite on finite arguments. -/
def FinRho (eos : Fl α → Fl α → Fl α → Fl α) (ρ : α → α → α → α) : Prop :=
  ∀ s t p, eos (Fl.fin s) (Fl.fin t) (Fl.fin p) = Fl.fin (ρ s t p)

/-- Interpolated values on the valid part of the cast. -/
theorem Cast.ppval {Sc Tc : PPC (Fl α)} {c e : ℕ → List α} (B : Cast P Sc Tc K a c e)
    (H : Profile P S T K a s t) (hl : Sc.lastCol.get = S.get) {p : α} (h0 : a 0 ≤ p) (h1 : p ≤ a (K - 1)) (d : ℕ) :
    ppval1Two (Fl.fin p) P Sc Tc d =
      (Fl.fin ((Polynomial.derivative^[d] (polyOf (c (pieceEnd P (Fl.fin p) - 1)))).eval (p - a (pieceEnd P (Fl.fin p) - 1))),
       Fl.fin ((Polynomial.derivative^[d] (polyOf (e (pieceEnd P (Fl.fin p) - 1)))).eval (p - a (pieceEnd P (Fl.fin p) - 1)))) := by
  have hvr := H.BS.vr_table hl
  have ho := (H.BS.outside_iff p).mpr ⟨h0, h1⟩
  obtain ⟨q1, q2, q3, q4, q5⟩ := pieceEnd_spec B h0 h1
  have hs := B.size
  have hpi : pieceIndex P 0 K (Fl.fin p) = pieceEnd P (Fl.fin p) - 1 := by
    rcases H.BS.piece_eq (x := p) (i := pieceEnd P (Fl.fin p) - 1) (Nat.zero_le _) (by omega) q4
      (by rw [show pieceEnd P (Fl.fin p) - 1 + 1 = pieceEnd P (Fl.fin p) by omega]; exact q3) with h | ⟨h, h', h''⟩
    · exact h
    · rcases q5 with h5 | h5
      · omega
      · linarith
  unfold ppval1Two
  simp only [hvr, ho, hpi]
  generalize pieceEnd P (Fl.fin p) = j at *
  rw [if_neg (by simp), B.hP (j - 1) (by omega), fin_sub, B.hS (j - 1) (by omega), B.hT (j - 1) (by omega), pval_fin, pval_fin]

/-- Value of the Veronis density in exact arithmetic. -/
theorem veronis_val {Sc Tc : PPC (Fl α)} {c e : ℕ → List α} (B : Cast P Sc Tc K a c e)
    (H : Profile P S T K a s t) (g1 : ppc P S = some Sc) (g2 : ppc P T = some Tc) (g3 : Sc.lastCol.get = S.get)
    (hR : FinRho eos ρ) (hE : FinEos eosST rs rt) {dp p0 p1 : α} (b pref : α) (hdp : 0 < dp)
    (h0 : a 0 ≤ p0 ∧ p0 ≤ a (K - 1)) (h1 : a 0 ≤ p1 ∧ p1 ≤ a (K - 1)) :
    veronis ppc eos eosST S T P (Fl.fin p1) (some (Fl.fin p0)) (Fl.fin pref) (Fl.fin b) (Fl.fin dp)
      = some (Fl.fin (ρ ((polyOf (c (pieceEnd P (Fl.fin p0) - 1))).eval (p0 - a (pieceEnd P (Fl.fin p0) - 1)))
          ((polyOf (e (pieceEnd P (Fl.fin p0) - 1))).eval (p0 - a (pieceEnd P (Fl.fin p0) - 1))) pref
          + b * (tailInt rs rt P K a c e dp p0 - tailInt rs rt P K a c e dp p1))) := by
  unfold veronis veronisPP potDens
  simp only [g1, g2, Option.bind_eq_bind, Option.bind_some, Option.getD_some]
  rw [intDlrpd_fin B hE hdp h0.1 h0.2 h1.1 h1.2, B.ppval H g3 h0.1 h0.2, hR]
  simp only [Option.map_some, fin_mul, fin_add]
  rfl

/-- **C49** The integral of the vertical gradient of locally referenced potential density, for linear and PCHIP
interpolation and every step size, behaves as an integral: it is additive over intermediate pressures, it changes
sign with the limits, and it is zero over an empty range.  Veronis densities with a common base differ by `b` times
the integral between their positions. -/
theorem veronis_integral (H : Profile P S T K a s t) (G : Good ppc) (hR : FinRho eos ρ) (hE : FinEos eosST rs rt)
    {dp b pref p0 p1 p2 : α} (hdp : 0 < dp) (h0 : a 0 ≤ p0 ∧ p0 ≤ a (K - 1)) (h1 : a 0 ≤ p1 ∧ p1 ≤ a (K - 1))
    (h2 : a 0 ≤ p2 ∧ p2 ≤ a (K - 1)) :
    ∃ (Sc Tc : PPC (Fl α)) (x y r0 r1 : α), ppc P S = some Sc ∧ ppc P T = some Tc ∧
      intDlrpd eosST P Sc Tc (Fl.fin dp) (Fl.fin p1) (Fl.fin p0) = some (Fl.fin x) ∧
      intDlrpd eosST P Sc Tc (Fl.fin dp) (Fl.fin p2) (Fl.fin p1) = some (Fl.fin y) ∧
      intDlrpd eosST P Sc Tc (Fl.fin dp) (Fl.fin p2) (Fl.fin p0) = some (Fl.fin (x + y)) ∧
      intDlrpd eosST P Sc Tc (Fl.fin dp) (Fl.fin p0) (Fl.fin p1) = some (Fl.fin (-x)) ∧
      intDlrpd eosST P Sc Tc (Fl.fin dp) (Fl.fin p0) (Fl.fin p0) = some (Fl.fin 0) ∧
      veronis ppc eos eosST S T P (Fl.fin p0) (some (Fl.fin p0)) (Fl.fin pref) (Fl.fin b) (Fl.fin dp) = some (Fl.fin r0) ∧
      veronis ppc eos eosST S T P (Fl.fin p1) (some (Fl.fin p1)) (Fl.fin pref) (Fl.fin b) (Fl.fin dp) = some (Fl.fin r1) ∧
      veronis ppc eos eosST S T P (Fl.fin p1) (some (Fl.fin p0)) (Fl.fin pref) (Fl.fin b) (Fl.fin dp)
        = some (Fl.fin (r0 + b * x)) ∧
      veronis ppc eos eosST S T P (Fl.fin p2) (some (Fl.fin p0)) (Fl.fin pref) (Fl.fin b) (Fl.fin dp)
        = some (Fl.fin (r0 + b * (x + y))) ∧
      veronis ppc eos eosST S T P (Fl.fin p2) (some (Fl.fin p1)) (Fl.fin pref) (Fl.fin b) (Fl.fin dp)
        = some (Fl.fin (r1 + b * y)) := by
  obtain ⟨Sc, Tc, c, e, g1, g2, g3, g4, B, _⟩ := H.cast G
  have val := fun {p q : α} hp hq => veronis_val B H g1 g2 g3 hR hE (p0 := p) (p1 := q) b pref hdp hp hq
  refine ⟨Sc, Tc, tailInt rs rt P K a c e dp p0 - tailInt rs rt P K a c e dp p1,
    tailInt rs rt P K a c e dp p1 - tailInt rs rt P K a c e dp p2,
    ρ ((polyOf (c (pieceEnd P (Fl.fin p0) - 1))).eval (p0 - a (pieceEnd P (Fl.fin p0) - 1)))
          ((polyOf (e (pieceEnd P (Fl.fin p0) - 1))).eval (p0 - a (pieceEnd P (Fl.fin p0) - 1))) pref,
    ρ ((polyOf (c (pieceEnd P (Fl.fin p1) - 1))).eval (p1 - a (pieceEnd P (Fl.fin p1) - 1)))
          ((polyOf (e (pieceEnd P (Fl.fin p1) - 1))).eval (p1 - a (pieceEnd P (Fl.fin p1) - 1))) pref, g1, g2,
    intDlrpd_fin B hE hdp h0.1 h0.2 h1.1 h1.2, intDlrpd_fin B hE hdp h1.1 h1.2 h2.1 h2.2, ?_, ?_, ?_, ?_, ?_,
    val h0 h1, ?_, val h1 h2⟩
  · rw [intDlrpd_fin B hE hdp h0.1 h0.2 h2.1 h2.2]; congr 2; ring
  · rw [intDlrpd_fin B hE hdp h1.1 h1.2 h0.1 h0.2]; congr 2; ring
  · rw [intDlrpd_fin B hE hdp h0.1 h0.2 h0.1 h0.2]; congr 2; ring
  · rw [val h0 h0]; congr 2; ring
  · rw [val h1 h1]; congr 2; ring
  · rw [val h0 h2]; congr 2; ring

/-- **C49** At its base pressure the Veronis density is the potential density of the interpolated water, for any
factor `b`, step size and interpolation; without `p0` the base is the first bottle. -/
theorem veronis_base (H : Profile P S T K a s t) (G : Good ppc) (hR : FinRho eos ρ) (hE : FinEos eosST rs rt)
    {dp b pref : α} (hdp : 0 < dp) :
    (∀ p0, a 0 ≤ p0 → p0 ≤ a (K - 1) → ∃ (Sc Tc : PPC (Fl α)) (sv tv : α), ppc P S = some Sc ∧ ppc P T = some Tc ∧
      ppval1 (Fl.fin p0) P Sc 0 = Fl.fin sv ∧ ppval1 (Fl.fin p0) P Tc 0 = Fl.fin tv ∧
      veronis ppc eos eosST S T P (Fl.fin p0) (some (Fl.fin p0)) (Fl.fin pref) (Fl.fin b) (Fl.fin dp)
        = some (Fl.fin (ρ sv tv pref))) ∧
    veronis ppc eos eosST S T P (Fl.fin (a 0)) none (Fl.fin pref) (Fl.fin b) (Fl.fin dp)
        = some (Fl.fin (ρ (s 0) (t 0) pref)) := by
  obtain ⟨Sc, Tc, c, e, g1, g2, g3, g4, B, hj⟩ := H.cast G
  have htwo := B.two
  have hsz := B.size
  have hvr : validRange2 P Sc.lastCol = validRange2 P Tc.lastCol := by
    rw [H.BS.vr_table g3, H.BT.vr_table g4]
  have key : ∀ p0, a 0 ≤ p0 → p0 ≤ a (K - 1) →
      veronis ppc eos eosST S T P (Fl.fin p0) (some (Fl.fin p0)) (Fl.fin pref) (Fl.fin b) (Fl.fin dp)
        = some (Fl.fin (ρ ((polyOf (c (pieceEnd P (Fl.fin p0) - 1))).eval (p0 - a (pieceEnd P (Fl.fin p0) - 1)))
          ((polyOf (e (pieceEnd P (Fl.fin p0) - 1))).eval (p0 - a (pieceEnd P (Fl.fin p0) - 1))) pref)) := by
    intro p0 h0 h1
    rw [veronis_val B H g1 g2 g3 hR hE b pref hdp ⟨h0, h1⟩ ⟨h0, h1⟩, sub_self, mul_zero, add_zero]
  constructor
  · intro p0 h0 h1
    have hv := B.ppval H g3 h0 h1 0
    refine ⟨Sc, Tc, _, _, g1, g2, ?_, ?_, key p0 h0 h1⟩
    · have := congrArg Prod.fst hv
      rw [ppval1Two_eq hvr] at this
      exact this
    · have := congrArg Prod.snd hv
      rw [ppval1Two_eq hvr] at this
      exact this
  · have h0 : a 0 ≤ a (K - 1) := B.mono 0 (K - 1) (Nat.zero_le _) (by omega)
    have := key (a 0) (le_refl _) h0
    obtain ⟨q1, q2, q3, q4, q5⟩ := pieceEnd_spec B (le_refl (a 0)) h0
    have h1 : pieceEnd P (Fl.fin (a 0)) = 1 := by
      rcases q5 with h | h
      · exact h
      · exact absurd h (not_lt.mpr (B.mono 0 _ (Nat.zero_le _) (by omega)))
    rw [h1] at this
    simp only [Nat.sub_self, sub_self] at this
    rw [(hj 0 (by omega)).1, (hj 0 (by omega)).2.2.1] at this
    rw [← this]
    unfold veronis
    simp only [Option.getD_none, Option.getD_some]
    rw [H.hP 0 (by omega)]

theorem sum_telescope {M : Type*} [AddCommGroup M] (f : ℕ → M) {j n : ℕ} (h : j ≤ n) :
    ∑ k ∈ Finset.Ico j n, (f (k + 1) - f k) = f n - f j := by
  induction n, h using Nat.le_induction with
  | base => simp
  | succ n hn ih => rw [Finset.sum_Ico_succ_top hn, ih]; abel

/-- **C82** With linear interpolation and an equation of state that is linear in salinity and temperature (constant
derivatives `A`, `C`), the trapezoidal integration is exact for every step size: the integral is the change of
`A S + C T` between the interpolated end points, so the Veronis density with `b = 1` of such an ocean is the density. -/
theorem veronis_linear_eos (H : Profile P S T K a s t) {A C : α}
    (hE : FinEos eosST (fun _ _ _ => A) (fun _ _ _ => C)) (hR : FinRho eos (fun s t _ => A * s + C * t))
    {dp pref p0 p1 : α} (hdp : 0 < dp) (h0 : a 0 ≤ p0 ∧ p0 ≤ a (K - 1)) (h1 : a 0 ≤ p1 ∧ p1 ≤ a (K - 1)) :
    ∃ s0 t0 s1 t1, ppval1 (Fl.fin p0) P (linearCoeffs1 P S) 0 = Fl.fin s0 ∧
      ppval1 (Fl.fin p0) P (linearCoeffs1 P T) 0 = Fl.fin t0 ∧
      ppval1 (Fl.fin p1) P (linearCoeffs1 P S) 0 = Fl.fin s1 ∧
      ppval1 (Fl.fin p1) P (linearCoeffs1 P T) 0 = Fl.fin t1 ∧
      intDlrpd eosST P (linearCoeffs1 P S) (linearCoeffs1 P T) (Fl.fin dp) (Fl.fin p1) (Fl.fin p0)
        = some (Fl.fin (A * (s1 - s0) + C * (t1 - t0))) ∧
      veronis (fun X Y => some (linearCoeffs1 X Y)) eos eosST S T P (Fl.fin p1) (some (Fl.fin p0)) (Fl.fin pref)
        (Fl.fin 1) (Fl.fin dp) = some (Fl.fin (A * s1 + C * t1)) := by
  have hsz := H.BS.K_le
  have htwo := H.BS.two
  have row : ∀ {Y : Arr (Fl α)} {y : ℕ → α}, Block P Y 0 K a y → ∀ i, i + 1 < K →
      (linearCoeffs1 P Y).row i = [chord a y i, y i].map Fl.fin := by
    intro Y y B i hi
    show [(diffSame Y).get i / (diffSame P).get i, Y.get i] = _
    rw [B.chordδ (Nat.zero_le _) hi, B.hY i (Nat.zero_le _) (by omega)]
    rfl
  have B : Cast P (linearCoeffs1 P S) (linearCoeffs1 P T) K a (fun i => [chord a s i, s i]) (fun i => [chord a t i, t i]) :=
    ⟨by omega, hsz, H.hP, H.inc, row H.BS, row H.BT⟩
  -- value and derivative of a linear piece
  have ev : ∀ c y u : α, (polyOf [c, y]).eval u = y + c * u := by
    intro c y u; rw [← horner_eval]; simp; ring
  have ed : ∀ c y u : α, (Polynomial.derivative (polyOf [c, y])).eval u = c := by
    intro c y u
    have : polyOf [c, y] = Polynomial.C c * Polynomial.X + Polynomial.C y := by
      simp [polyOf, Finset.sum_range_succ]
    rw [this]; simp
  have hg : ∀ k, gk (fun _ _ _ => A) (fun _ _ _ => C) a (fun i => [chord a s i, s i]) (fun i => [chord a t i, t i]) k
      = fun _ => A * chord a s k + C * chord a t k := by
    intro k; funext x
    simp only [gk, ed]
  have htrap : ∀ k p, p ≤ a (k + 1) → part (fun _ _ _ => A) (fun _ _ _ => C) a (fun i => [chord a s i, s i])
      (fun i => [chord a t i, t i]) dp p k = (A * chord a s k + C * chord a t k) * (a (k + 1) - p) := by
    intro k p hp
    unfold part
    rw [hg, trap_const]
    rcases hp.lt_or_eq with h | h
    · exact Or.inr (nInt_pos hdp h)
    · exact Or.inl h
  have tail : ∀ p, a 0 ≤ p → p ≤ a (K - 1) →
      tailInt (fun _ _ _ => A) (fun _ _ _ => C) P K a (fun i => [chord a s i, s i]) (fun i => [chord a t i, t i]) dp p
        = (A * s (K - 1) + C * t (K - 1)) -
          (A * (s (pieceEnd P (Fl.fin p) - 1) + chord a s (pieceEnd P (Fl.fin p) - 1) * (p - a (pieceEnd P (Fl.fin p) - 1)))
          + C * (t (pieceEnd P (Fl.fin p) - 1) + chord a t (pieceEnd P (Fl.fin p) - 1) * (p - a (pieceEnd P (Fl.fin p) - 1)))) := by
    intro p hp hp'
    obtain ⟨q1, q2, q3, q4, q5⟩ := pieceEnd_spec B hp hp'
    unfold tailInt
    simp only
    generalize pieceEnd P (Fl.fin p) = j at *
    have hfull : ∀ k ∈ Finset.Ico j (K - 1), full (fun _ _ _ => A) (fun _ _ _ => C) a (fun i => [chord a s i, s i])
        (fun i => [chord a t i, t i]) dp k = (fun k => A * s k + C * t k) (k + 1) - (fun k => A * s k + C * t k) k := by
      intro k hk
      rw [Finset.mem_Ico] at hk
      have hlt := H.inc k (by omega)
      have := htrap k (a k) hlt.le
      unfold part at this
      unfold full
      rw [this]
      unfold chord
      have : a (k + 1) - a k ≠ 0 := by linarith
      field_simp
      ring
    rw [Finset.sum_congr rfl hfull, sum_telescope (fun k => A * s k + C * t k) (show j ≤ K - 1 by omega), htrap (j - 1) p (by rw [show j - 1 + 1 = j by omega]; exact q3)]
    rw [show j - 1 + 1 = j by omega]
    have hlt := H.inc (j - 1) (by omega)
    rw [show j - 1 + 1 = j by omega] at hlt
    unfold chord
    rw [show j - 1 + 1 = j by omega]
    have : a j - a (j - 1) ≠ 0 := by linarith
    field_simp
    ring
  have hvr : validRange2 P (linearCoeffs1 P S).lastCol = validRange2 P (linearCoeffs1 P T).lastCol := by
    rw [linearCoeffs1_lastCol, linearCoeffs1_lastCol, H.BS.vr, H.BT.vr]
  have hl : (linearCoeffs1 P S).lastCol.get = S.get := by rw [linearCoeffs1_lastCol]
  have v0 := B.ppval H hl h0.1 h0.2 0
  have v1 := B.ppval H hl h1.1 h1.2 0
  rw [ppval1Two_eq hvr] at v0 v1
  simp only [Function.iterate_zero, id_eq, ev, Prod.mk.injEq] at v0 v1
  refine ⟨_, _, _, _, v0.1, v0.2, v1.1, v1.2, ?_, ?_⟩
  · rw [intDlrpd_fin B hE hdp h0.1 h0.2 h1.1 h1.2, tail p0 h0.1 h0.2, tail p1 h1.1 h1.2]
    congr 2; ring
  · rw [veronis_val B H rfl rfl hl hR hE 1 pref hdp h0 h1, tail p0 h0.1 h0.2, tail p1 h1.1 h1.2, ev, ev]
    congr 2; ring

/-! ### NaN -/

theorem foldl_nan (f : ℕ → Fl α) (l : List ℕ) : l.foldl (fun s i => s + f i) (Fl.nan : Fl α) = Fl.nan := by
  induction l with
  | nil => rfl
  | cons x l ih => simpa using ih

theorem foldl_nan_of_mem (f : ℕ → Fl α) {l : List ℕ} {k : ℕ} (hk : k ∈ l) (h : f k = Fl.nan) (d : Fl α) :
    l.foldl (fun s i => s + f i) d = Fl.nan := by
  induction l generalizing d with
  | nil => simp at hk
  | cons x l ih =>
    rw [List.foldl_cons]
    rcases List.mem_cons.mp hk with h' | h'
    · subst h'; rw [h, add_nan, foldl_nan]
    · exact ih h' _

theorem foldlM_some {M : Type*} (f : ℕ → Option M) (g : ℕ → M) (op : M → M → M) (l : List ℕ)
    (h : ∀ k ∈ l, f k = some (g k)) (d : M) :
    l.foldlM (fun d k => (f k).map (fun y => op d y)) d = some (l.foldl (fun d k => op d (g k)) d) := by
  induction l generalizing d with
  | nil => rfl
  | cons x l ih =>
    rw [List.foldlM_cons, h x (by simp), List.foldl_cons]
    simp only [Option.map_some, Option.bind_eq_bind, Option.bind_some]
    exact ih (fun k hk => h k (by simp [hk])) _

/-- With finite pressures and a positive step the integration always returns. -/
theorem intXK_some {Sc Tc : PPC (Fl α)} (hP : ∀ i, i < P.size → P.get i = Fl.fin (a i)) {dp p : α} (hdp : 0 < dp)
    {k : ℕ} (hk : k + 1 < P.size) (hp : p ≤ a (k + 1)) :
    intXK eosST P Sc Tc (Fl.fin dp) (Fl.fin p) k = some (trapz
      (fun i => integrand eosST P Sc Tc k (linspace (Fl.fin p) (Fl.fin (a (k + 1))) (nInt dp p (a (k + 1)) + 1) i))
      (linspace (Fl.fin p) (Fl.fin (a (k + 1))) (nInt dp p (a (k + 1)) + 1)) (nInt dp p (a (k + 1)) + 1)) := by
  unfold intXK
  rw [hP (k + 1) hk, fin_sub, sdiv_fin hdp.ne']
  have h0 : 0 ≤ (a (k + 1) - p) / dp := div_nonneg (by linarith) hdp.le
  have hc : FloatCeil.ceilInt (Fl.fin ((a (k + 1) - p) / dp)) = some (nInt dp p (a (k + 1)) : ℤ) := by
    show some _ = _
    unfold nInt
    rw [Int.natCast_ceil_eq_ceil h0]
  simp only [hc]
  rw [if_neg (by omega), show ((nInt dp p (a (k + 1)) : ℤ) + 1).toNat = nInt dp p (a (k + 1)) + 1 by omega]

theorem trapz_nan {y x : ℕ → Fl α} {n : ℕ} (hn : 2 ≤ n) (hy : y 0 = Fl.nan) : trapz y x n = Fl.nan := by
  unfold trapz
  refine foldl_nan_of_mem (fun i => (x (i + 1) - x i) * (y (i + 1) + y i) / lit 2) (k := 0) ?_ ?_ _
  · rw [List.mem_range]; omega
  · simp [hy]

/-- A table whose rows from bottle `K - 1` on have no derivative there. -/
def NanBelow (C : PPC (Fl α)) (K : ℕ) : Prop := ∀ u, pval u (C.row (K - 1)) 1 = Fl.nan

theorem nanBelow_linear (H : Profile P S T K a s t) (hK : K < P.size) : NanBelow (linearCoeffs1 P S) K := by
  have htwo := H.BS.two
  have hsz := H.BS.size
  intro u
  show pval u [(diffSame S).get (K - 1) / (diffSame P).get (K - 1), S.get (K - 1)] 1 = _
  have hn : isNaN (S.get K) = true := by
    have := validRange2_after P S (by rw [H.BS.vr]; exact hK)
    rw [H.BS.vr] at this
    rcases this with h | h
    · rw [H.hP K hK] at h; simp at h
    · exact h
  have : (diffSame S).get (K - 1) = Fl.nan := by
    rw [diffSame_get (by omega), show K - 1 + 1 = K by omega, (isNaN_iff _).mp hn, nan_sub]
  rw [this, nan_div]
  simp [pval]

theorem nanBelow_pchip (H : Profile P S T K a s t) {C : PPC (Fl α)} (hC : pchipCoeffs1 P S = some C) :
    NanBelow C K := by
  have htwo := H.BS.two
  have hrow : C.row (K - 1) = [Fl.nan, Fl.nan, Fl.nan, S.get (K - 1)] := by
    unfold pchipCoeffs1 at hC
    rw [H.BS.vr] at hC
    unfold pchipCoeffsAux at hC
    simp only at hC
    split_ifs at hC with h1 h2 h3
    · injection hC with hC
      rw [← hC]
      simp
    · rw [H.BS.hX 0 (by omega) (by omega), H.BS.hX (0 + 1) (by omega) (by omega), H.BS.hY 0 (by omega) (by omega),
        H.BS.hY (0 + 1) (by omega) (by omega), fin_sub, fin_sub, sdiv_fin (H.BS.hpos (le_refl 0) (by omega)).ne'] at hC
      simp only [Option.bind_eq_bind, Option.bind_some, Option.pure_def, Option.some.injEq] at hC
      rw [← hC]
      simp only
      rw [if_neg (by omega)]
      rfl
    · omega
  intro u
  rw [hrow]
  simp [pval, List.zipIdx]

/-- **C83** A position below the deepest valid bottle, but still within the pressure array, gives NaN, for any step
size and whichever of the two limits it is (given that the equation of state passes NaN on). -/
theorem veronis_below_bottom (H : Profile P S T K a s t) (hpp : ppc = (fun X Y => some (linearCoeffs1 X Y)) ∨ ppc = pchipCoeffs1)
    (hnan : ∀ p, eos Fl.nan Fl.nan p = Fl.nan) {dp p0 p1 : α} {pref b : Fl α} (hdp : 0 < dp)
    (h0 : a 0 ≤ p0 ∧ p0 ≤ a (P.size - 1)) (h1 : a 0 ≤ p1 ∧ p1 ≤ a (P.size - 1))
    (hb : a (K - 1) < p0 ∨ a (K - 1) < p1) :
    veronis ppc eos eosST S T P (Fl.fin p1) (some (Fl.fin p0)) pref b (Fl.fin dp) = some Fl.nan := by
  have G : Good ppc := by rcases hpp with h | h <;> subst h; exacts [good_linear, good_pchip]
  obtain ⟨Sc, Tc, c, e, g1, g2, g3, g4, B, _⟩ := H.cast G
  have htwo := B.two
  have hsz := B.size
  -- the same pressures, looked at as fully valid
  have BP : ∀ {p : α}, a 0 ≤ p → p ≤ a (P.size - 1) → 1 ≤ pieceEnd P (Fl.fin p) ∧ pieceEnd P (Fl.fin p) < P.size ∧
      p ≤ a (pieceEnd P (Fl.fin p)) ∧ a (pieceEnd P (Fl.fin p) - 1) ≤ p := by
    intro p hp hp'
    have B' : Cast P ⟨0, fun _ => []⟩ ⟨0, fun _ => []⟩ P.size a (fun _ => []) (fun _ => []) :=
      ⟨by omega, le_refl _, H.hP, H.inc, fun _ _ => rfl, fun _ _ => rfl⟩
    obtain ⟨q1, q2, q3, q4, _⟩ := pieceEnd_spec B' hp hp'
    exact ⟨q1, q2, q3, q4⟩
  have hKlt : K < P.size := by
    by_contra hc
    have : K - 1 = P.size - 1 := by omega
    rw [this] at hb
    rcases hb with h | h
    · linarith [h0.2]
    · linarith [h1.2]
  have hNB : NanBelow Sc K := by
    rcases hpp with h | h
    · subst h
      injection g1 with g1
      rw [← g1]; exact nanBelow_linear H hKlt
    · subst h
      exact nanBelow_pchip H g1
  have hint : ∀ x, integrand eosST P Sc Tc (K - 1) x = Fl.nan := by
    intro x
    unfold integrand
    simp only
    rw [hNB]; simp
  -- integrating upwards always returns, and returns NaN across the bottom
  have up : ∀ p q, a 0 ≤ p → p ≤ q → q ≤ a (P.size - 1) → ∃ v, intUp eosST P Sc Tc (Fl.fin dp) (Fl.fin p) (Fl.fin q) = some v ∧
      (p ≤ a (K - 1) → a (K - 1) < q → v = Fl.nan) := by
    intro p q hp hpq hq
    obtain ⟨p1', p2', p3', p4'⟩ := BP hp (le_trans hpq hq)
    obtain ⟨q1', q2', q3', q4'⟩ := BP (le_trans hp hpq) hq
    unfold intUp
    simp only
    have hpe : p ≤ a (K - 1) → pieceEnd P (Fl.fin p) < K := fun h => (pieceEnd_spec B hp h).2.1
    have hqe : a (K - 1) < q → K - 1 < pieceEnd P (Fl.fin q) := by
      intro h
      by_contra hc
      have := B.mono (pieceEnd P (Fl.fin q)) (K - 1) (by omega) (by omega)
      linarith
    generalize pieceEnd P (Fl.fin p) = j at *
    generalize pieceEnd P (Fl.fin q) = l at *
    rw [intXK_some H.hP hdp (k := j - 1) (by omega) (by rw [show j - 1 + 1 = j by omega]; exact p3')]
    simp only [Option.bind_eq_bind, Option.bind_some]
    have hall : ∀ k ∈ List.range' j (l - j), intXK eosST P Sc Tc (Fl.fin dp) (P.get k) k = some
        ((fun k => trapz (fun i => integrand eosST P Sc Tc k (linspace (Fl.fin (a k)) (Fl.fin (a (k + 1))) (nInt dp (a k) (a (k + 1)) + 1) i))
      (linspace (Fl.fin (a k)) (Fl.fin (a (k + 1))) (nInt dp (a k) (a (k + 1)) + 1)) (nInt dp (a k) (a (k + 1)) + 1)) k) := by
      intro k hk
      rw [List.mem_range'_1] at hk
      rw [H.hP k (by omega), intXK_some H.hP hdp (by omega) (H.inc k (by omega)).le]
    rw [foldlM_some _ _ (fun d y => d + y) _ hall]
    simp only [Option.bind_some]
    rw [intXK_some H.hP hdp (k := l - 1) (by omega) (by rw [show l - 1 + 1 = l by omega]; exact q3')]
    simp only [Option.bind_some]
    refine ⟨_, rfl, ?_⟩
    intro ha hb'
    have hj := hpe ha
    have hl := hqe hb'
    rw [foldl_nan_of_mem _ (k := K - 1) (by rw [List.mem_range'_1]; omega), nan_sub]
    apply trapz_nan
    · have := nInt_pos hdp (H.inc (K - 1) (by omega))
      omega
    · exact hint _
  unfold veronis veronisPP potDens intDlrpd
  simp only [g1, g2, Option.bind_eq_bind, Option.bind_some, Option.getD_some]
  rw [H.hP 0 (by omega), H.hP (P.size - 1) (by omega)]
  simp only [fin_add, isNaN_fin, lt_fin, le_fin]
  rw [if_neg (by
    simp only [Bool.or_eq_true, decide_eq_true_eq, Bool.false_or]
    push Not
    exact ⟨⟨⟨by simpa using h0.1, h0.2⟩, h1.1⟩, h1.2⟩)]
  by_cases hp0 : a (K - 1) < p0
  · -- the base has no potential density
    have hout : ppval1Two (Fl.fin p0) P Sc Tc 0 = (Fl.nan, Fl.nan) := by
      unfold ppval1Two
      simp only [H.BS.vr_table g3]
      rw [if_pos]
      · rfl
      · by_contra hc
        have := (H.BS.outside_iff p0).mp (by simpa using hc)
        linarith [this.2]
    rw [hout]
    simp only [hnan, nan_add]
    split_ifs with h
    · simp only [decide_eq_true_eq] at h
      obtain ⟨v, hv, _⟩ := up p0 p1 h0.1 h h1.2
      rw [hv]; rfl
    · simp only [decide_eq_true_eq, not_le] at h
      obtain ⟨v, hv, _⟩ := up p1 p0 h1.1 h.le h0.2
      rw [hv]; rfl
  · have hp1 : a (K - 1) < p1 := by tauto
    push Not at hp0
    rw [if_pos (by simp only [decide_eq_true_eq]; linarith)]
    obtain ⟨v, hv, hv'⟩ := up p0 p1 h0.1 (by linarith) h1.2
    rw [hv, hv' hp0 hp1]
    simp

/-- **C83** A limit that is NaN or outside the pressure array gives NaN in any number system whose NaN absorbs. -/
theorem veronis_outside {F : Type*} [FloatCeil F] {ppc : Arr F → Arr F → Option (PPC F)} {eos : F → F → F → F}
    {eosST : F → F → F → F × F} {S T P : Arr F} {Sc Tc : PPC F} {p0 p1 pref b dp : F}
    (hS : ppc P S = some Sc) (hT : ppc P T = some Tc)
    (hadd : ∀ x : F, x + nan = nan) (hmul : ∀ x : F, x * nan = nan)
    (h : isNaN (p0 + p1 + P.get 0) = true ∨ lt p0 (P.get 0) = true ∨ lt (P.get (P.size - 1)) p0 = true ∨
      lt p1 (P.get 0) = true ∨ lt (P.get (P.size - 1)) p1 = true) :
    veronis ppc eos eosST S T P p1 (some p0) pref b dp = some nan := by
  unfold veronis veronisPP intDlrpd
  simp only [hS, hT, Option.bind_eq_bind, Option.bind_some, Option.getD_some]
  rw [if_pos (by simp only [Bool.or_eq_true]; tauto)]
  simp [hadd, hmul]

end exact

/-! ## Convergence to the true integral -/

section calculus
open MeasureTheory intervalIntegral Filter Topology
variable {P S T : Arr (Fl ℝ)} {K : ℕ} {a s t : ℕ → ℝ}
  {eos : Fl ℝ → Fl ℝ → Fl ℝ → Fl ℝ} {ρ : ℝ → ℝ → ℝ → ℝ}
  {eosST : Fl ℝ → Fl ℝ → Fl ℝ → Fl ℝ × Fl ℝ} {rs rt : ℝ → ℝ → ℝ → ℝ}
  {ppc : Arr (Fl ℝ) → Arr (Fl ℝ) → Option (PPC (Fl ℝ))}

/-- The composite trapezoidal rule converges for a continuous integrand. -/
theorem trap_tendsto {f : ℝ → ℝ} (hf : Continuous f) {p q : ℝ} (hpq : p ≤ q) :
    Tendsto (fun dp => trap f p q (nInt dp p q)) (𝓝[>] 0) (𝓝 (∫ x in p..q, f x)) := by
  rcases hpq.lt_or_eq with hlt | heq
  swap
  · subst heq
    rw [integral_same]
    have : (fun dp : ℝ => trap f p p (nInt dp p p)) = fun _ => 0 := by
      funext dp; simp [trap]
    rw [this]; exact tendsto_const_nhds
  rw [Metric.tendsto_nhdsWithin_nhds]
  intro ε hε
  have hu := isCompact_Icc.uniformContinuousOn_of_continuous (hf.continuousOn (s := Set.Icc p q))
  rw [Metric.uniformContinuousOn_iff] at hu
  obtain ⟨δ, hδ, hu⟩ := hu (ε / (2 * (q - p))) (div_pos hε (by linarith))
  refine ⟨δ, hδ, ?_⟩
  intro dp hdp hdist
  have hdp0 : 0 < dp := hdp
  rw [Real.dist_eq, sub_zero, abs_of_pos hdp0] at hdist
  set N := nInt dp p q with hN
  have hN0 : 0 < N := nInt_pos hdp0 hlt
  have hNr : (0 : ℝ) < N := by exact_mod_cast hN0
  have hh : (q - p) / N ≤ dp := by
    rw [div_le_iff₀ hNr]
    have : (q - p) / dp ≤ N := Nat.le_ceil _
    rw [div_le_iff₀ hdp0] at this
    linarith
  let x : ℕ → ℝ := fun i => p + (q - p) * (i / N)
  have hx0 : x 0 = p := by simp [x]
  have hxN : x N = q := by
    simp only [x]; rw [div_self hNr.ne']; ring
  have hstep : ∀ i, x (i + 1) - x i = (q - p) / N := by
    intro i; simp only [x]; push_cast; field_simp; ring
  have hmono : ∀ i, x i ≤ x (i + 1) := by
    intro i
    have := hstep i
    have h2 : 0 ≤ (q - p) / N := div_nonneg (by linarith) hNr.le
    linarith
  have hmem : ∀ i, i ≤ N → x i ∈ Set.Icc p q := by
    intro i hi
    have h1 : (0 : ℝ) ≤ i / N := by positivity
    have h2 : (i : ℝ) / N ≤ 1 := by rw [div_le_one hNr]; exact_mod_cast hi
    constructor
    · simp only [x]; nlinarith
    · simp only [x]; nlinarith
  have hsum : ∑ i ∈ Finset.range N, ∫ y in x i..x (i + 1), f y = ∫ y in p..q, f y := by
    rw [sum_integral_adjacent_intervals (fun k _ => hf.intervalIntegrable _ _), hx0, hxN]
  have hdiff : trap f p q N - ∫ y in p..q, f y
      = ∑ i ∈ Finset.range N, ((q - p) / N * ((f (x i) + f (x (i + 1))) / 2) - ∫ y in x i..x (i + 1), f y) := by
    rw [Finset.sum_sub_distrib, hsum]
    unfold trap
    simp only [x]
    push_cast
    rfl
  rw [Real.dist_eq, hdiff]
  have hterm : ∀ i ∈ Finset.range N,
      |(q - p) / N * ((f (x i) + f (x (i + 1))) / 2) - ∫ y in x i..x (i + 1), f y| ≤ ε / (2 * (q - p)) * ((q - p) / N) := by
    intro i hi
    rw [Finset.mem_range] at hi
    have hconst : (q - p) / N * ((f (x i) + f (x (i + 1))) / 2) = ∫ _ in x i..x (i + 1), ((f (x i) + f (x (i + 1))) / 2) := by
      rw [intervalIntegral.integral_const, hstep, smul_eq_mul]
    rw [hconst, ← intervalIntegral.integral_sub intervalIntegrable_const (hf.intervalIntegrable _ _), ← Real.norm_eq_abs]
    refine (intervalIntegral.norm_integral_le_of_norm_le_const (C := ε / (2 * (q - p))) ?_).trans ?_
    · intro y hy
      rw [Set.uIoc_of_le (hmono i)] at hy
      have hy1 : x i ≤ y := hy.1.le
      have hy2 : y ≤ x (i + 1) := hy.2
      have m0 := hmem i (by omega)
      have m1 := hmem (i + 1) (by omega)
      have my : y ∈ Set.Icc p q := ⟨le_trans m0.1 hy1, le_trans hy2 m1.2⟩
      have hst := hstep i
      have d0 := hu (x i) m0 y my (by rw [Real.dist_eq, abs_lt]; constructor <;> linarith)
      have d1 := hu (x (i + 1)) m1 y my (by rw [Real.dist_eq, abs_lt]; constructor <;> linarith)
      rw [Real.dist_eq, abs_lt] at d0 d1
      rw [Real.norm_eq_abs, abs_le]
      constructor <;> linarith [d0.1, d0.2, d1.1, d1.2]
    · rw [hstep, abs_of_nonneg (div_nonneg (by linarith) hNr.le)]
  refine lt_of_le_of_lt (Finset.abs_sum_le_sum_abs _ _) (lt_of_le_of_lt (Finset.sum_le_sum hterm) ?_)
  rw [Finset.sum_const, Finset.card_range, nsmul_eq_mul]
  have hqp : q - p ≠ 0 := by linarith
  have : (N : ℝ) * (ε / (2 * (q - p)) * ((q - p) / N)) = ε / 2 := by field_simp
  rw [this]
  linarith

/-- The derivatives of the equation of state are continuous functions of their three arguments together. -/
def ContEos (rs rt : ℝ → ℝ → ℝ → ℝ) : Prop :=
  Continuous (fun z : ℝ × ℝ × ℝ => rs z.1 z.2.1 z.2.2) ∧ Continuous (fun z : ℝ × ℝ × ℝ => rt z.1 z.2.1 z.2.2)

theorem gk_continuous (hc : ContEos rs rt) (c e : ℕ → List ℝ) (k : ℕ) : Continuous (gk rs rt a c e k) := by
  have hs : Continuous fun x => (polyOf (c k)).eval (x - a k) := (polyOf (c k)).continuous.comp (by fun_prop)
  have ht : Continuous fun x => (polyOf (e k)).eval (x - a k) := (polyOf (e k)).continuous.comp (by fun_prop)
  have hs' : Continuous fun x => (Polynomial.derivative (polyOf (c k))).eval (x - a k) :=
    (Polynomial.derivative (polyOf (c k))).continuous.comp (by fun_prop)
  have ht' : Continuous fun x => (Polynomial.derivative (polyOf (e k))).eval (x - a k) :=
    (Polynomial.derivative (polyOf (e k))).continuous.comp (by fun_prop)
  have h1 := hc.1.comp (hs.prodMk (ht.prodMk continuous_id))
  have h2 := hc.2.comp (hs.prodMk (ht.prodMk continuous_id))
  exact (h1.mul hs').add (h2.mul ht')

/-- The exact integral from `p` to bottle `K - 1`, piece by piece. -/
theorem tail_tendsto {Sc Tc : PPC (Fl ℝ)} {c e : ℕ → List ℝ} (B : Cast P Sc Tc K a c e) (hc : ContEos rs rt)
    {p : ℝ} (h0 : a 0 ≤ p) (h1 : p ≤ a (K - 1)) :
    Tendsto (fun dp => tailInt rs rt P K a c e dp p) (𝓝[>] 0)
      (𝓝 ((∫ x in p..a (pieceEnd P (Fl.fin p)), gk rs rt a c e (pieceEnd P (Fl.fin p) - 1) x) +
        ∑ k ∈ Finset.Ico (pieceEnd P (Fl.fin p)) (K - 1), ∫ x in a k..a (k + 1), gk rs rt a c e k x)) := by
  obtain ⟨q1, q2, q3, q4, q5⟩ := pieceEnd_spec B h0 h1
  have hsz := B.size
  unfold tailInt part full
  simp only
  generalize pieceEnd P (Fl.fin p) = j at *
  rw [show j - 1 + 1 = j by omega]
  refine (trap_tendsto (gk_continuous hc c e (j - 1)) q3).add (tendsto_finsetSum _ ?_)
  intro k hk
  rw [Finset.mem_Ico] at hk
  exact trap_tendsto (gk_continuous hc c e k) (B.inc k (by omega)).le

/-- The exact integral from `p` to bottle `K - 1` of a function that agrees with the pieces. -/
theorem tail_integral {Sc Tc : PPC (Fl ℝ)} {c e : ℕ → List ℝ} (B : Cast P Sc Tc K a c e) (hc : ContEos rs rt)
    {g : ℝ → ℝ} (hg : ∀ x, a 0 < x → x ≤ a (K - 1) → g x = gk rs rt a c e (pieceEnd P (Fl.fin x) - 1) x)
    {p : ℝ} (h0 : a 0 ≤ p) (h1 : p ≤ a (K - 1)) :
    IntervalIntegrable g volume p (a (K - 1)) ∧
    (∫ x in p..a (pieceEnd P (Fl.fin p)), gk rs rt a c e (pieceEnd P (Fl.fin p) - 1) x) +
        ∑ k ∈ Finset.Ico (pieceEnd P (Fl.fin p)) (K - 1), (∫ x in a k..a (k + 1), gk rs rt a c e k x)
      = ∫ x in p..a (K - 1), g x := by
  obtain ⟨q1, q2, q3, q4, q5⟩ := pieceEnd_spec B h0 h1
  have hsz := B.size
  have htwo := B.two
  -- the piece of a point strictly inside piece `k`
  have hpc : ∀ k x, k + 1 < K → a k < x → x ≤ a (k + 1) → g x = gk rs rt a c e k x := by
    intro k x hk hx hx'
    have hx0 : a 0 < x := lt_of_le_of_lt (B.mono 0 k (Nat.zero_le _) (by omega)) hx
    have hx1 : x ≤ a (K - 1) := le_trans hx' (B.mono (k + 1) (K - 1) (by omega) (by omega))
    rw [hg x hx0 hx1]
    obtain ⟨r1, r2, r3, r4, r5⟩ := pieceEnd_spec B hx0.le hx1
    generalize pieceEnd P (Fl.fin x) = l at *
    have hl : l = k + 1 := by
      rcases lt_trichotomy l (k + 1) with h | h | h
      · have := B.mono l k (by omega) (by omega)
        linarith
      · exact h
      · rcases r5 with h5 | h5
        · omega
        · have := B.mono (k + 1) (l - 1) (by omega) (by omega)
          linarith
    rw [hl, Nat.add_sub_cancel]
  have hcongr : ∀ k u, k + 1 < K → a k ≤ u → u ≤ a (k + 1) →
      IntervalIntegrable g volume u (a (k + 1)) ∧ (∫ x in u..a (k + 1), gk rs rt a c e k x) = ∫ x in u..a (k + 1), g x := by
    intro k u hk hu hu'
    have hEq : Set.EqOn (gk rs rt a c e k) g (Set.uIoc u (a (k + 1))) := by
      intro x hx
      rw [Set.uIoc_of_le hu'] at hx
      exact (hpc k x hk (lt_of_le_of_lt hu hx.1) hx.2).symm
    constructor
    · exact ((gk_continuous hc c e k).intervalIntegrable _ _).congr hEq
    · exact integral_congr_ae (ae_of_all _ (fun x hx => hEq hx))
  generalize pieceEnd P (Fl.fin p) = j at *
  have hfirst := hcongr (j - 1) p (by omega) q4 (by rw [show j - 1 + 1 = j by omega]; exact q3)
  rw [show j - 1 + 1 = j by omega] at hfirst
  have hint : ∀ k ∈ Set.Ico j (K - 1), IntervalIntegrable g volume (a k) (a (k + 1)) := by
    intro k hk
    exact (hcongr k (a k) (by have := hk.2; omega) (le_refl _) (B.inc k (by have := hk.2; omega)).le).1
  have hrest := sum_integral_adjacent_intervals_Ico (f := g) (μ := volume) (a := a) (show j ≤ K - 1 by omega) hint
  have hI := IntervalIntegrable.trans_iterate_Ico (f := g) (μ := volume) (a := a) (show j ≤ K - 1 by omega) hint
  refine ⟨hfirst.1.trans hI, ?_⟩
  rw [← integral_add_adjacent_intervals hfirst.1 hI, ← hrest, hfirst.2]
  congr 1
  apply Finset.sum_congr rfl
  intro k hk
  rw [Finset.mem_Ico] at hk
  exact (hcongr k (a k) (by omega) (le_refl _) (B.inc k (by omega)).le).2

/-- **C84** As the step size goes to zero the Veronis density converges to its definition: potential density at
the base plus `b` times the integral of `rho_S dS/dp + rho_T dT/dp` along the interpolated cast, for linear and PCHIP
interpolation and any equation of state with continuous derivatives. -/
theorem veronis_converges (H : Profile P S T K a s t) (G : Good ppc) (hR : FinRho eos ρ) (hE : FinEos eosST rs rt)
    (hc : ContEos rs rt) {b pref p0 p1 : ℝ} (h0 : a 0 ≤ p0 ∧ p0 ≤ a (K - 1)) (h1 : a 0 ≤ p1 ∧ p1 ≤ a (K - 1)) :
    ∃ (Sc Tc : PPC (Fl ℝ)) (sf tf sf' tf' : ℝ → ℝ) (V : ℝ → ℝ), ppc P S = some Sc ∧ ppc P T = some Tc ∧
      (∀ x, a 0 ≤ x → x ≤ a (K - 1) → ppval1 (Fl.fin x) P Sc 0 = Fl.fin (sf x) ∧ ppval1 (Fl.fin x) P Tc 0 = Fl.fin (tf x) ∧
        ppval1 (Fl.fin x) P Sc 1 = Fl.fin (sf' x) ∧ ppval1 (Fl.fin x) P Tc 1 = Fl.fin (tf' x)) ∧
      (∀ dp, 0 < dp → veronis ppc eos eosST S T P (Fl.fin p1) (some (Fl.fin p0)) (Fl.fin pref) (Fl.fin b) (Fl.fin dp)
        = some (Fl.fin (V dp))) ∧
      Tendsto V (𝓝[>] 0) (𝓝 (ρ (sf p0) (tf p0) pref +
        b * ∫ x in p0..p1, (rs (sf x) (tf x) x * sf' x + rt (sf x) (tf x) x * tf' x))) := by
  obtain ⟨Sc, Tc, c, e, g1, g2, g3, g4, B, hj⟩ := H.cast G
  have hvr : validRange2 P Sc.lastCol = validRange2 P Tc.lastCol := by
    rw [H.BS.vr_table g3, H.BT.vr_table g4]
  let pe : ℝ → ℕ := fun x => pieceEnd P (Fl.fin x) - 1
  refine ⟨Sc, Tc, fun x => (polyOf (c (pe x))).eval (x - a (pe x)), fun x => (polyOf (e (pe x))).eval (x - a (pe x)),
    fun x => (Polynomial.derivative (polyOf (c (pe x)))).eval (x - a (pe x)),
    fun x => (Polynomial.derivative (polyOf (e (pe x)))).eval (x - a (pe x)),
    fun dp => ρ ((polyOf (c (pe p0))).eval (p0 - a (pe p0))) ((polyOf (e (pe p0))).eval (p0 - a (pe p0))) pref
          + b * (tailInt rs rt P K a c e dp p0 - tailInt rs rt P K a c e dp p1), g1, g2, ?_, ?_, ?_⟩
  · intro x hx hx'
    have v0 := B.ppval H g3 hx hx' 0
    have v1 := B.ppval H g3 hx hx' 1
    rw [ppval1Two_eq hvr] at v0 v1
    simp only [Prod.mk.injEq] at v0 v1
    exact ⟨v0.1, v0.2, v1.1, v1.2⟩
  · intro dp hdp
    exact veronis_val B H g1 g2 g3 hR hE b pref hdp h0 h1
  · have t0 := tail_tendsto B hc h0.1 h0.2
    have t1 := tail_tendsto B hc h1.1 h1.2
    set g : ℝ → ℝ := fun x => gk rs rt a c e (pe x) x with hgdef
    have i0 := tail_integral B hc (g := g) (fun x _ _ => rfl) h0.1 h0.2
    have i1 := tail_integral B hc (g := g) (fun x _ _ => rfl) h1.1 h1.2
    rw [i0.2] at t0
    rw [i1.2] at t1
    have hint : (∫ x in p0..a (K - 1), g x) - (∫ x in p1..a (K - 1), g x) = ∫ x in p0..p1, g x := by
      rw [← integral_add_adjacent_intervals i0.1 i1.1.symm, integral_symm p1 (a (K - 1)), sub_eq_add_neg]
    have := ((t0.sub t1).const_mul b).const_add
      (ρ ((polyOf (c (pe p0))).eval (p0 - a (pe p0))) ((polyOf (e (pe p0))).eval (p0 - a (pe p0))) pref)
    rw [hint] at this
    exact this

/-- **C84** If density does not depend on pressure (`rho_S`, `rho_T` are the partial derivatives of `R`), the limit
of the Veronis density with `b = 1` is the density itself, `R` of the interpolated water at `p1`, whatever the base. -/
theorem veronis_pressure_independent (H : Profile P S T K a s t) (G : Good ppc) {R : ℝ → ℝ → ℝ}
    (hR : FinRho eos (fun s t _ => R s t)) (hE : FinEos eosST rs rt) (hc : ContEos rs rt)
    (hd : ∀ s t p, HasFDerivAt (fun z : ℝ × ℝ => R z.1 z.2)
      (rs s t p • ContinuousLinearMap.fst ℝ ℝ ℝ + rt s t p • ContinuousLinearMap.snd ℝ ℝ ℝ) (s, t))
    {pref p0 p1 : ℝ} (h0 : a 0 ≤ p0 ∧ p0 ≤ a (K - 1)) (h1 : a 0 ≤ p1 ∧ p1 ≤ a (K - 1)) :
    ∃ (Sc Tc : PPC (Fl ℝ)) (s1 t1 : ℝ) (V : ℝ → ℝ), ppc P S = some Sc ∧ ppc P T = some Tc ∧
      ppval1 (Fl.fin p1) P Sc 0 = Fl.fin s1 ∧ ppval1 (Fl.fin p1) P Tc 0 = Fl.fin t1 ∧
      (∀ dp, 0 < dp → veronis ppc eos eosST S T P (Fl.fin p1) (some (Fl.fin p0)) (Fl.fin pref) (Fl.fin 1) (Fl.fin dp)
        = some (Fl.fin (V dp))) ∧
      Tendsto V (𝓝[>] 0) (𝓝 (R s1 t1)) := by
  obtain ⟨Sc, Tc, c, e, g1, g2, g3, g4, B, hj⟩ := H.cast G
  have hsz := B.size
  have hvr : validRange2 P Sc.lastCol = validRange2 P Tc.lastCol := by
    rw [H.BS.vr_table g3, H.BT.vr_table g4]
  let pe : ℝ → ℕ := fun x => pieceEnd P (Fl.fin x) - 1
  -- along a piece the integrand is the derivative of `R`
  have hpiece : ∀ k u v, ∫ x in u..v, gk rs rt a c e k x
      = R ((polyOf (c k)).eval (v - a k)) ((polyOf (e k)).eval (v - a k))
        - R ((polyOf (c k)).eval (u - a k)) ((polyOf (e k)).eval (u - a k)) := by
    intro k u v
    refine integral_eq_sub_of_hasDerivAt (f := fun x => R ((polyOf (c k)).eval (x - a k)) ((polyOf (e k)).eval (x - a k)))
      (fun x _ => ?_) ((gk_continuous hc c e k).intervalIntegrable _ _)
    have hsub : HasDerivAt (fun x : ℝ => x - a k) 1 x := (hasDerivAt_id x).sub_const _
    have hs := ((polyOf (c k)).hasDerivAt (x - a k)).comp x hsub
    have ht := ((polyOf (e k)).hasDerivAt (x - a k)).comp x hsub
    rw [mul_one] at hs ht
    have := (hd ((polyOf (c k)).eval (x - a k)) ((polyOf (e k)).eval (x - a k)) x).comp_hasDerivAt x (hs.prodMk ht)
    refine this.congr_deriv ?_
    simp [gk]
  have htail : ∀ p, a 0 ≤ p → p ≤ a (K - 1) →
      (∫ x in p..a (pieceEnd P (Fl.fin p)), gk rs rt a c e (pieceEnd P (Fl.fin p) - 1) x) +
        ∑ k ∈ Finset.Ico (pieceEnd P (Fl.fin p)) (K - 1), (∫ x in a k..a (k + 1), gk rs rt a c e k x)
      = R (s (K - 1)) (t (K - 1)) - R ((polyOf (c (pe p))).eval (p - a (pe p))) ((polyOf (e (pe p))).eval (p - a (pe p))) := by
    intro p hp hp'
    obtain ⟨q1, q2, q3, q4, q5⟩ := pieceEnd_spec B hp hp'
    simp only [pe]
    generalize pieceEnd P (Fl.fin p) = j at *
    have hsum : ∀ k ∈ Finset.Ico j (K - 1), (∫ x in a k..a (k + 1), gk rs rt a c e k x)
        = (fun k => R (s k) (t k)) (k + 1) - (fun k => R (s k) (t k)) k := by
      intro k hk
      rw [Finset.mem_Ico] at hk
      obtain ⟨e1, e2, e3, e4⟩ := hj k (by omega)
      rw [hpiece, sub_self, e1, e2, e3, e4]
    rw [Finset.sum_congr rfl hsum, sum_telescope (fun k => R (s k) (t k)) (show j ≤ K - 1 by omega), hpiece]
    obtain ⟨e1, e2, e3, e4⟩ := hj (j - 1) (by omega)
    rw [show j - 1 + 1 = j by omega] at e2 e4
    rw [e2, e4]
    ring
  have v1 := B.ppval H g3 h1.1 h1.2 0
  rw [ppval1Two_eq hvr] at v1
  simp only [Prod.mk.injEq] at v1
  refine ⟨Sc, Tc, _, _, _, g1, g2, v1.1, v1.2, fun dp hdp => veronis_val B H g1 g2 g3 hR hE 1 pref hdp h0 h1, ?_⟩
  have t0 := tail_tendsto B hc h0.1 h0.2
  have t1 := tail_tendsto B hc h1.1 h1.2
  rw [htail p0 h0.1 h0.2] at t0
  rw [htail p1 h1.1 h1.2] at t1
  have := ((t0.sub t1).const_mul 1).const_add (R ((polyOf (c (pe p0))).eval (p0 - a (pe p0))) ((polyOf (e (pe p0))).eval (p0 - a (pe p0))))
  convert this using 2
  simp only [Function.iterate_zero, id_eq, pe]
  ring

end calculus

/-! ## A concrete cast -/

section demo

/-- Pressures 0, 10, 30, 60, with the last bottle below the bottom. -/
def exP : Arr (Fl ℚ) := Arr.ofList [Fl.fin 0, Fl.fin 10, Fl.fin 30, Fl.fin 60]
/-- Salinities. -/
def exS : Arr (Fl ℚ) := Arr.ofList [Fl.fin 34, Fl.fin 35, Fl.fin 35, Fl.nan]
/-- Temperatures. -/
def exT : Arr (Fl ℚ) := Arr.ofList [Fl.fin 20, Fl.fin 15, Fl.fin 5, Fl.nan]

/-- A toy equation of state with a thermobaric term. -/
def exEos (s t p : Fl ℚ) : Fl ℚ := Fl.fin 1000 + s - t * (Fl.fin 1 + p)
/-- Its derivatives. -/
def exEosST (_ _ p : Fl ℚ) : Fl ℚ × Fl ℚ := (Fl.fin 1, -(Fl.fin 1 + p))

example : Profile exP exS exT 3 (fun i => if i = 0 then 0 else if i = 1 then 10 else if i = 2 then 30 else 60)
    (fun i => if i = 0 then 34 else 35) (fun i => if i = 0 then 20 else if i = 1 then 15 else 5) := by
  have h : ∀ i, i < exP.size → i = 0 ∨ i = 1 ∨ i = 2 ∨ i = 3 := by
    intro i hi
    have : i < 4 := hi
    omega
  refine ⟨?_, ?_, ⟨rfl, by decide +kernel, by omega, ?_, ?_, ?_⟩, ⟨rfl, by decide +kernel, by omega, ?_, ?_, ?_⟩⟩
  · intro i hi
    rcases h i hi with h | h | h | h <;> subst h <;> decide +kernel
  · intro i hi
    have : i + 1 < 4 := hi
    have : i = 0 ∨ i = 1 ∨ i = 2 := by omega
    rcases this with h | h | h <;> subst h <;> norm_num
  · intro i _ hi
    have : i = 0 ∨ i = 1 ∨ i = 2 := by omega
    rcases this with h | h | h <;> subst h <;> decide +kernel
  · intro i _ hi
    have : i = 0 ∨ i = 1 ∨ i = 2 := by omega
    rcases this with h | h | h <;> subst h <;> decide +kernel
  · intro i _ hi
    have : i = 0 ∨ i = 1 := by omega
    rcases this with h | h <;> subst h <;> norm_num
  · intro i _ hi
    have : i = 0 ∨ i = 1 ∨ i = 2 := by omega
    rcases this with h | h | h <;> subst h <;> decide +kernel
  · intro i _ hi
    have : i = 0 ∨ i = 1 ∨ i = 2 := by omega
    rcases this with h | h | h <;> subst h <;> decide +kernel
  · intro i _ hi
    have : i = 0 ∨ i = 1 := by omega
    rcases this with h | h <;> subst h <;> norm_num

example : FinRho exEos (fun s t p => 1000 + s - t * (1 + p)) ∧
    FinEos exEosST (fun _ _ _ => 1) (fun _ _ p => -(1 + p)) := by
  constructor
  · intro s t p; simp [exEos]
  · intro s t p; simp [exEosST]

example : veronis (fun X Y => some (linearCoeffs1 X Y)) exEos exEosST exS exT exP (Fl.fin 20) none (Fl.fin 0)
    (Fl.fin 1) (Fl.fin 3) = some (Fl.fin 1125) ∧
  veronis pchipCoeffs1 exEos exEosST exS exT exP (Fl.fin 10) (some (Fl.fin 30)) (Fl.fin 0) (Fl.fin 1) (Fl.fin 40)
    = some (Fl.fin 820) ∧
  veronis (fun X Y => some (linearCoeffs1 X Y)) exEos exEosST exS exT exP (Fl.fin 40) none (Fl.fin 0)
    (Fl.fin 1) (Fl.fin 3) = some Fl.nan := by decide +kernel

/-- **C85** The documented "if `p0` or `p1` are outside the range of `P`, NaN is returned" fails when the pressures
themselves are padded with NaN below the bottom (as salinity and temperature may be): the test compares with the
last entry, which is NaN, and the number of integration points is then computed from a NaN. -/
theorem veronis_nan_padded_false : ∃ (P S T : Arr (Fl ℚ)) (p1 : ℚ), P.size = 3 ∧ P.get 0 = Fl.fin 0 ∧ P.get 1 = Fl.fin 10 ∧
    P.get 2 = Fl.nan ∧ (∀ i, i < 2 → isFinite (S.get i) = true ∧ isFinite (T.get i) = true) ∧ 10 < p1 ∧
    veronis (fun X Y => some (linearCoeffs1 X Y)) exEos exEosST S T P (Fl.fin p1) none (Fl.fin 0) (Fl.fin 1) (Fl.fin 1)
      ≠ some Fl.nan := by
  refine ⟨Arr.ofList [Fl.fin 0, Fl.fin 10, Fl.nan], Arr.ofList [Fl.fin 34, Fl.fin 35, Fl.nan],
    Arr.ofList [Fl.fin 20, Fl.fin 15, Fl.nan], 20, rfl, rfl, rfl, rfl, ?_, by norm_num, by decide +kernel⟩
  intro i hi
  have : i = 0 ∨ i = 1 := by omega
  rcases this with h | h <;> subst h <;> decide +kernel

end demo

end Label
