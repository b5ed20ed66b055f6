import Verif.Model.Label
import Verif.Lemmas.InterpExact
import Verif.Lemmas.Pchip
import Mathlib.Algebra.BigOperators.Intervals

/-!
# Lemmas on the Veronis density model: exact arithmetic
-/

set_option linter.unusedSectionVars false

namespace Label
open FloatLike Interp
open Fl hiding nan
variable {α : Type*} [Field α] [LinearOrder α] [IsStrictOrderedRing α] [FloorRing α]

/-- Composite trapezoidal rule with `N` equal intervals. -/
def trap (g : α → α) (a b : α) (N : ℕ) : α :=
  ∑ i ∈ Finset.range N, (b - a) / N * ((g (a + (b - a) * (i / N)) + g (a + (b - a) * ((i + 1) / N))) / 2)

/-- The integrand on piece `k`, in exact arithmetic. -/
noncomputable def gk (rs rt : α → α → α → α) (a : ℕ → α) (c e : ℕ → List α) (k : ℕ) (x : α) : α :=
  let s := polyOf (c k)
  let t := polyOf (e k)
  rs (s.eval (x - a k)) (t.eval (x - a k)) x * s.derivative.eval (x - a k) +
  rt (s.eval (x - a k)) (t.eval (x - a k)) x * t.derivative.eval (x - a k)

/-- A cast: pressures `a 0 < a 1 < ...`, and coefficient tables finite on the pieces above bottle `K - 1`. -/
structure Cast (P : Arr (Fl α)) (S T : PPC (Fl α)) (K : ℕ) (a : ℕ → α) (c e : ℕ → List α) : Prop where
  two : 2 ≤ K
  size : K ≤ P.size
  hP : ∀ i, i < P.size → P.get i = Fl.fin (a i)
  inc : ∀ i, i + 1 < P.size → a i < a (i + 1)
  hS : ∀ i, i + 1 < K → S.row i = (c i).map Fl.fin
  hT : ∀ i, i + 1 < K → T.row i = (e i).map Fl.fin

/-- The equation of state derivatives are finite on finite arguments. -/
def FinEos (eosST : Fl α → Fl α → Fl α → Fl α × Fl α) (rs rt : α → α → α → α) : Prop :=
  ∀ s t p, eosST (Fl.fin s) (Fl.fin t) (Fl.fin p) = (Fl.fin (rs s t p), Fl.fin (rt s t p))

variable {P : Arr (Fl α)} {S T : PPC (Fl α)} {K : ℕ} {a : ℕ → α} {c e : ℕ → List α}
  {eosST : Fl α → Fl α → Fl α → Fl α × Fl α} {rs rt : α → α → α → α}

theorem Cast.mono (B : Cast P S T K a c e) : ∀ i j, i ≤ j → j < P.size → a i ≤ a j := by
  intro i j h2 h3
  induction j, h2 using Nat.le_induction with
  | base => exact le_refl _
  | succ j h ih => exact le_trans (ih (by omega)) (B.inc j h3).le

theorem Cast.smono (B : Cast P S T K a c e) : ∀ i j, i < j → j < P.size → a i < a j := by
  intro i j h2 h3
  exact lt_of_lt_of_le (B.inc i (by omega)) (B.mono (i + 1) j h2 h3)

theorem integrand_fin (B : Cast P S T K a c e) (hE : FinEos eosST rs rt) {k : ℕ} (hk : k + 1 < K) (x : α) :
    integrand eosST P S T k (Fl.fin x) = Fl.fin (gk rs rt a c e k x) := by
  have := B.size
  unfold integrand gk
  simp only
  rw [B.hP k (by omega), fin_sub, B.hS k hk, B.hT k hk, pval_fin, pval_fin, pval_fin, pval_fin, hE]
  simp

theorem foldl_sum (f : ℕ → Fl α) (g : ℕ → α) (n : ℕ) (h : ∀ i, i < n → f i = Fl.fin (g i)) (s : α) :
    (List.range n).foldl (fun s i => s + f i) (Fl.fin s) = Fl.fin (s + ∑ i ∈ Finset.range n, g i) := by
  induction n with
  | zero => simp
  | succ n ih =>
    rw [List.range_succ, List.foldl_append, ih (fun i hi => h i (by omega)), Finset.sum_range_succ]
    simp only [List.foldl_cons, List.foldl_nil]
    rw [h n (by omega), fin_add, add_assoc]

theorem linspace_fin (p q : α) {N i : ℕ} (hN : 0 < N) (hi : i ≤ N) :
    linspace (Fl.fin p) (Fl.fin q) (N + 1) i = Fl.fin (p + (q - p) * (i / N)) := by
  have hN' : (N : α) ≠ 0 := by exact_mod_cast hN.ne'
  unfold linspace
  split_ifs with h1 h2
  · subst h1; simp
  · have : i = N := by omega
    subst this
    rw [div_self hN']; congr 1; ring
  · simp only [lit_eq, fin_sub, Nat.add_sub_cancel]
    rw [fin_div _ _ (by push_cast; exact hN'), fin_mul, fin_add]
    push_cast
    rfl

theorem trapz_fin (B : Cast P S T K a c e) (hE : FinEos eosST rs rt) {k : ℕ} (hk : k + 1 < K) (p q : α) (N : ℕ) :
    trapz (fun i => integrand eosST P S T k (linspace (Fl.fin p) (Fl.fin q) (N + 1) i))
      (linspace (Fl.fin p) (Fl.fin q) (N + 1)) (N + 1) = Fl.fin (trap (gk rs rt a c e k) p q N) := by
  unfold trapz trap
  rw [Nat.add_sub_cancel]
  simp only [lit_eq, Rat.cast_zero]
  refine (foldl_sum _ _ N ?_ 0).trans (by rw [zero_add])
  intro i hi
  have hN : 0 < N := by omega
  have hN' : (N : α) ≠ 0 := by exact_mod_cast hN.ne'
  rw [linspace_fin p q hN (show i + 1 ≤ N by omega), linspace_fin p q hN (show i ≤ N by omega),
    integrand_fin B hE hk, integrand_fin B hE hk, fin_sub, fin_add, fin_mul, fin_div _ _ (by norm_num)]
  congr 1
  push_cast
  have : (p + (q - p) * ((↑i + 1) / ↑N) - (p + (q - p) * (↑i / ↑N))) = (q - p) / N := by
    field_simp; ring
  rw [this]
  ring

/-- Number of intervals used between `p` and `q`. -/
def nInt (dp p q : α) : ℕ := ⌈(q - p) / dp⌉₊

theorem intXK_fin (B : Cast P S T K a c e) (hE : FinEos eosST rs rt) {dp p : α} (hdp : 0 < dp) {k : ℕ}
    (hk : k + 1 < K) (hp : p ≤ a (k + 1)) :
    intXK eosST P S T (Fl.fin dp) (Fl.fin p) k =
      some (Fl.fin (trap (gk rs rt a c e k) p (a (k + 1)) (nInt dp p (a (k + 1))))) := by
  have := B.size
  unfold intXK
  rw [B.hP (k + 1) (by omega), fin_sub, sdiv_fin hdp.ne']
  have h0 : 0 ≤ (a (k + 1) - p) / dp := div_nonneg (by linarith) hdp.le
  have hc : FloatCeil.ceilInt (Fl.fin ((a (k + 1) - p) / dp)) = some (nInt dp p (a (k + 1)) : ℤ) := by
    show some _ = _
    unfold nInt
    rw [Int.natCast_ceil_eq_ceil h0]
  simp only [hc]
  rw [if_neg (by omega), show ((nInt dp p (a (k + 1)) : ℤ) + 1).toNat = nInt dp p (a (k + 1)) + 1 by omega]
  congr 1
  exact trapz_fin B hE hk p _ _

/-- The piece in which the integration ends, for a pressure in range. -/
theorem pieceEnd_spec (B : Cast P S T K a c e) {p : α} (h0 : a 0 ≤ p) (h1 : p ≤ a (K - 1)) :
    1 ≤ pieceEnd P (Fl.fin p) ∧ pieceEnd P (Fl.fin p) < K ∧ p ≤ a (pieceEnd P (Fl.fin p)) ∧
    a (pieceEnd P (Fl.fin p) - 1) ≤ p ∧ (pieceEnd P (Fl.fin p) = 1 ∨ a (pieceEnd P (Fl.fin p) - 1) < p) := by
  have h2 := B.two
  have h3 := B.size
  have hs : searchsorted P (Fl.fin p) = bsearch (fun i => Fl.fin (a i)) (Fl.fin p) P.size 0 P.size := by
    unfold searchsorted
    apply bsearch_congr
    intro i _ hi
    exact B.hP i hi
  obtain ⟨e1, e2⟩ := bsearch_sorted (a := a) (x := p) P.size 0 P.size (Nat.zero_le _) (by omega)
    (fun i j _ h7 h8 => B.mono _ _ h7 h8)
  have e3 := (bsearch_le (fun i => Fl.fin (a i)) (Fl.fin p) P.size 0 P.size (Nat.zero_le _)).1
  rw [← hs] at e1 e2 e3
  unfold pieceEnd
  generalize searchsorted P (Fl.fin p) = s at *
  have hsK : s ≤ K - 1 := by
    by_contra hc
    exact absurd (e1 (K - 1) (by omega) (by omega)) (not_lt.mpr h1)
  by_cases hs1 : s ≤ 1
  · rw [max_eq_left hs1]
    refine ⟨le_refl _, by omega, ?_, h0, Or.inl rfl⟩
    exact e2 1 hs1 (by omega)
  · rw [max_eq_right (by omega)]
    have := e1 (s - 1) (by omega) (by omega)
    exact ⟨by omega, by omega, e2 s (le_refl _) (by omega), this.le, Or.inr this⟩

/-- The integral from the top of piece `k` down. -/
noncomputable def full (rs rt : α → α → α → α) (a : ℕ → α) (c e : ℕ → List α) (dp : α) (k : ℕ) : α :=
  trap (gk rs rt a c e k) (a k) (a (k + 1)) (nInt dp (a k) (a (k + 1)))

/-- From `p` on piece `k` to the end of the piece. -/
noncomputable def part (rs rt : α → α → α → α) (a : ℕ → α) (c e : ℕ → List α) (dp p : α) (k : ℕ) : α :=
  trap (gk rs rt a c e k) p (a (k + 1)) (nInt dp p (a (k + 1)))

/-- The trapezoidal integral from `p` to bottle `K - 1`. -/
noncomputable def tailInt (rs rt : α → α → α → α) (P : Arr (Fl α)) (K : ℕ) (a : ℕ → α) (c e : ℕ → List α) (dp p : α) : α :=
  let j := pieceEnd P (Fl.fin p)
  part rs rt a c e dp p (j - 1) + ∑ k ∈ Finset.Ico j (K - 1), full rs rt a c e dp k

theorem foldlM_fin (B : Cast P S T K a c e) (hE : FinEos eosST rs rt) {dp : α} (hdp : 0 < dp) (n : ℕ) :
    ∀ (k0 : ℕ) (d : α), k0 + n < K →
    (List.range' k0 n).foldlM (fun (d : Fl α) k =>
      (intXK eosST P S T (Fl.fin dp) (P.get k) k).map (fun y => d + y)) (Fl.fin d) =
      some (Fl.fin (d + ∑ k ∈ Finset.Ico k0 (k0 + n), full rs rt a c e dp k)) := by
  induction n with
  | zero => intro k0 d _; simp
  | succ n ih =>
    intro k0 d h
    have := B.size
    rw [List.range'_succ, List.foldlM_cons, B.hP k0 (by omega),
      intXK_fin B hE hdp (k := k0) (by omega) (B.inc k0 (by omega)).le]
    simp only [Option.map_some, fin_add, Option.bind_eq_bind, Option.bind_some]
    rw [ih (k0 + 1) _ (by omega), Finset.sum_eq_sum_Ico_succ_bot (show k0 < k0 + (n + 1) by omega)]
    rw [show k0 + 1 + n = k0 + (n + 1) by omega]
    unfold full
    rw [add_assoc]

theorem pieceEnd_mono (B : Cast P S T K a c e) {p q : α} (h0 : a 0 ≤ p) (h : p ≤ q) (h1 : q ≤ a (K - 1)) :
    pieceEnd P (Fl.fin p) ≤ pieceEnd P (Fl.fin q) := by
  have hs := B.size
  obtain ⟨p1, p2, p3, p4, p5⟩ := pieceEnd_spec B h0 (le_trans h h1)
  obtain ⟨q1, q2, q3, q4, q5⟩ := pieceEnd_spec B (le_trans h0 h) h1
  by_contra hc
  rcases p5 with h5 | h5
  · omega
  · have := B.mono (pieceEnd P (Fl.fin q)) (pieceEnd P (Fl.fin p) - 1) (by omega) (by omega)
    linarith

theorem intUp_fin (B : Cast P S T K a c e) (hE : FinEos eosST rs rt) {dp p q : α} (hdp : 0 < dp)
    (h0 : a 0 ≤ p) (h : p ≤ q) (h1 : q ≤ a (K - 1)) :
    intUp eosST P S T (Fl.fin dp) (Fl.fin p) (Fl.fin q) =
      some (Fl.fin (tailInt rs rt P K a c e dp p - tailInt rs rt P K a c e dp q)) := by
  have hs := B.size
  obtain ⟨p1, p2, p3, p4, p5⟩ := pieceEnd_spec B h0 (le_trans h h1)
  obtain ⟨q1, q2, q3, q4, q5⟩ := pieceEnd_spec B (le_trans h0 h) h1
  have hm := pieceEnd_mono B h0 h h1
  unfold intUp tailInt part
  simp only
  generalize pieceEnd P (Fl.fin p) = j at *
  generalize pieceEnd P (Fl.fin q) = l at *
  rw [intXK_fin B hE hdp (k := j - 1) (by omega) (by rw [show j - 1 + 1 = j by omega]; exact p3)]
  simp only [Option.bind_eq_bind, Option.bind_some]
  rw [foldlM_fin B hE hdp (l - j) j _ (by omega)]
  simp only [Option.bind_some]
  rw [intXK_fin B hE hdp (k := l - 1) (by omega) (by rw [show l - 1 + 1 = l by omega]; exact q3)]
  simp only [Option.bind_some, fin_sub, Option.pure_def]
  congr 2
  rw [show j + (l - j) = l by omega, ← Finset.sum_Ico_consecutive _ hm (show l ≤ K - 1 by omega)]
  ring

/-- The integral computed by the code is a difference of one function of the limits. -/
theorem intDlrpd_fin (B : Cast P S T K a c e) (hE : FinEos eosST rs rt) {dp p q : α} (hdp : 0 < dp)
    (hp0 : a 0 ≤ p) (hp1 : p ≤ a (K - 1)) (hq0 : a 0 ≤ q) (hq1 : q ≤ a (K - 1)) :
    intDlrpd eosST P S T (Fl.fin dp) (Fl.fin q) (Fl.fin p) =
      some (Fl.fin (tailInt rs rt P K a c e dp p - tailInt rs rt P K a c e dp q)) := by
  have hs := B.size
  have h2 := B.two
  have hend := B.mono (K - 1) (P.size - 1) (by omega) (by omega)
  unfold intDlrpd
  rw [B.hP 0 (by omega), B.hP (P.size - 1) (by omega)]
  simp only [fin_add, isNaN_fin, lt_fin, le_fin]
  rw [if_neg]
  · split_ifs with h
    · simp only [decide_eq_true_eq] at h
      rw [intUp_fin B hE hdp hp0 h hq1]
      simp
    · simp only [decide_eq_true_eq, not_le] at h
      rw [intUp_fin B hE hdp hq0 h.le hp1]
      simp
  · simp only [Bool.or_eq_true, decide_eq_true_eq, Bool.false_or]
    push Not
    exact ⟨⟨⟨by simpa using hp0, by linarith⟩, hq0⟩, by linarith⟩

theorem trap_const (k p q : α) {N : ℕ} (h : p = q ∨ 0 < N) : trap (fun _ => k) p q N = k * (q - p) := by
  unfold trap
  rw [Finset.sum_const, Finset.card_range, nsmul_eq_mul]
  rcases h with h | h
  · subst h; simp
  · have : (N : α) ≠ 0 := by exact_mod_cast h.ne'
    field_simp
    ring

theorem nInt_pos {dp p q : α} (hdp : 0 < dp) (h : p < q) : 0 < nInt dp p q :=
  Nat.ceil_pos.mpr (div_pos (by linarith) hdp)

end Label

namespace Label
open FloatLike Interp
open Fl hiding nan
variable {α : Type*} [Field α] [LinearOrder α] [IsStrictOrderedRing α] [FloorRing α]

/-- A cast as a user gives it: finite strictly increasing pressures `a`, and salinities and temperatures that
are finite down to the same bottle `K - 1` (NaN below it, if anything). -/
structure Profile (P S T : Arr (Fl α)) (K : ℕ) (a s t : ℕ → α) : Prop where
  hP : ∀ i, i < P.size → P.get i = Fl.fin (a i)
  inc : ∀ i, i + 1 < P.size → a i < a (i + 1)
  BS : Block P S 0 K a s
  BT : Block P T 0 K a t

/-- A coefficient function with finite pieces that join the data. -/
structure Good (ppc : Arr (Fl α) → Arr (Fl α) → Option (PPC (Fl α))) : Prop where
  ok : ∀ {X Y : Arr (Fl α)} {K : ℕ} {a y : ℕ → α}, Block X Y 0 K a y →
    ∃ (C : PPC (Fl α)) (c : ℕ → List α), ppc X Y = some C ∧ C.lastCol.get = Y.get ∧
      (∀ i, i + 1 < K → C.row i = (c i).map Fl.fin ∧ (polyOf (c i)).eval 0 = y i ∧
        (polyOf (c i)).eval (a (i + 1) - a i) = y (i + 1))

theorem good_linear : Good (α := α) (fun X Y => some (linearCoeffs1 X Y)) := by
  constructor
  intro X Y K a y B
  refine ⟨_, fun i => [chord a y i, y i], rfl, by rw [linearCoeffs1_lastCol], ?_⟩
  intro i hi
  refine ⟨?_, ?_, ?_⟩
  · show [(diffSame Y).get i / (diffSame X).get i, Y.get i] = _
    rw [B.chordδ (Nat.zero_le _) hi, B.hY i (Nat.zero_le _) (by omega)]
    rfl
  · rw [← horner_eval]; simp
  · rw [← horner_eval]
    have := (B.hpos (Nat.zero_le i) hi).ne'
    simp only [List.foldl, chord]
    field_simp
    ring

theorem good_pchip : Good (α := α) pchipCoeffs1 := by
  constructor
  intro X Y K a y B
  obtain ⟨C, d, hC, _, hrow⟩ := B.pchip
  refine ⟨C, fun i => hermC (a (i + 1) - a i) (chord a y i) (d i) (d (i + 1)) (y i), hC, (pchipAux_spec hC).2, ?_⟩
  intro i hi
  have := (B.hpos (Nat.zero_le i) hi).ne'
  refine ⟨hrow i (Nat.zero_le _) hi, ?_, ?_⟩
  · rw [← horner_eval]; exact hermV_zero
  · rw [← horner_eval]
    refine (hermV_end this).trans ?_
    unfold chord
    field_simp
    ring

theorem Profile.cast {P S T : Arr (Fl α)} {K : ℕ} {a s t : ℕ → α} (H : Profile P S T K a s t)
    {ppc : Arr (Fl α) → Arr (Fl α) → Option (PPC (Fl α))} (G : Good ppc) :
    ∃ (Sc Tc : PPC (Fl α)) (c e : ℕ → List α), ppc P S = some Sc ∧ ppc P T = some Tc ∧
      Sc.lastCol.get = S.get ∧ Tc.lastCol.get = T.get ∧ Cast P Sc Tc K a c e ∧
      ∀ i, i + 1 < K → (polyOf (c i)).eval 0 = s i ∧ (polyOf (c i)).eval (a (i + 1) - a i) = s (i + 1) ∧
        (polyOf (e i)).eval 0 = t i ∧ (polyOf (e i)).eval (a (i + 1) - a i) = t (i + 1) := by
  obtain ⟨Sc, c, h1, h2, h3⟩ := G.ok H.BS
  obtain ⟨Tc, e, h4, h5, h6⟩ := G.ok H.BT
  have htwo := H.BS.two
  refine ⟨Sc, Tc, c, e, h1, h4, h2, h5, ⟨by omega, H.BS.K_le, H.hP, H.inc, fun i hi => (h3 i hi).1,
    fun i hi => (h6 i hi).1⟩, fun i hi => ⟨(h3 i hi).2.1, (h3 i hi).2.2, (h6 i hi).2.1, (h6 i hi).2.2⟩⟩

end Label
