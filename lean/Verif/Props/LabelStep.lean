import Verif.Props.Label

/-!
# Steps that are not positive (C174)

`dp` is a "maximum interval".  Zero is refused by a division; a negative number is refused only if some interval between bottles is at least twice as large.
-/

set_option linter.unusedSectionVars false

namespace Label
open FloatLike Interp
open Fl hiding nan
variable {α : Type*} [Field α] [LinearOrder α] [IsStrictOrderedRing α] [FloorRing α]
variable {P S T : Arr (Fl α)} {K : ℕ} {a s t : ℕ → α}
  {eos : Fl α → Fl α → Fl α → Fl α} {ρ : α → α → α → α}
  {eosST : Fl α → Fl α → Fl α → Fl α × Fl α}
  {ppc : Arr (Fl α) → Arr (Fl α) → Option (PPC (Fl α))}

theorem intXK_neg {Sc Tc : PPC (Fl α)} (hP : ∀ i, i < P.size → P.get i = Fl.fin (a i)) {dp p : α} (hdp : dp < 0) {k : ℕ} (hk : k + 1 < P.size)
    (hp : p ≤ a (k + 1)) (h : a (k + 1) - p < -dp) : intXK eosST P Sc Tc (Fl.fin dp) (Fl.fin p) k = some (Fl.fin 0) := by
  unfold intXK
  rw [hP (k + 1) hk, fin_sub, sdiv_fin hdp.ne]
  have hc : FloatCeil.ceilInt (Fl.fin ((a (k + 1) - p) / dp)) = some (0 : ℤ) := by
    show some _ = _
    congr 1
    rw [Int.ceil_eq_iff]
    constructor
    · rw [lt_div_iff_of_neg hdp]
      push_cast
      linarith
    · push_cast
      exact div_nonpos_of_nonneg_of_nonpos (by linarith) hdp.le
  simp only [hc]
  rw [if_neg (by norm_num)]
  simp [trapz]

theorem intXK_none {Sc Tc : PPC (Fl α)} (hP : ∀ i, i < P.size → P.get i = Fl.fin (a i)) {dp p : α} {k : ℕ} (hk : k + 1 < P.size)
    (h : dp = 0 ∨ dp < 0 ∧ -2 * dp ≤ a (k + 1) - p) : intXK eosST P Sc Tc (Fl.fin dp) (Fl.fin p) k = none := by
  unfold intXK
  rw [hP (k + 1) hk, fin_sub]
  rcases h with rfl | ⟨hdp, h⟩
  · simp [sdiv]
  · rw [sdiv_fin hdp.ne]
    have hc : FloatCeil.ceilInt (Fl.fin ((a (k + 1) - p) / dp)) = some ⌈(a (k + 1) - p) / dp⌉ := rfl
    have hle : ⌈(a (k + 1) - p) / dp⌉ ≤ -2 := by
      rw [Int.ceil_le, div_le_iff_of_neg hdp]
      push_cast
      linarith
    simp only [hc]
    rw [if_pos (by omega)]

theorem intUp_neg {Sc Tc : PPC (Fl α)} {c e : ℕ → List α} (B : Cast P Sc Tc K a c e) {dp p q : α} (hdp : dp < 0) (hgap : ∀ k, k + 1 < K → a (k + 1) - a k < -dp)
    (h0 : a 0 ≤ p) (h : p ≤ q) (h1 : q ≤ a (K - 1)) : intUp eosST P Sc Tc (Fl.fin dp) (Fl.fin p) (Fl.fin q) = some (Fl.fin 0) := by
  have hs := B.size
  obtain ⟨p1, p2, p3, p4, p5⟩ := pieceEnd_spec B h0 (le_trans h h1)
  obtain ⟨q1, q2, q3, q4, q5⟩ := pieceEnd_spec B (le_trans h0 h) h1
  have hm := pieceEnd_mono B h0 h h1
  unfold intUp
  simp only
  generalize pieceEnd P (Fl.fin p) = j at *
  generalize pieceEnd P (Fl.fin q) = l at *
  have gj := hgap (j - 1) (by omega)
  have gl := hgap (l - 1) (by omega)
  rw [show j - 1 + 1 = j by omega] at gj
  rw [show l - 1 + 1 = l by omega] at gl
  rw [intXK_neg B.hP hdp (k := j - 1) (by omega) (by rw [show j - 1 + 1 = j by omega]; exact p3) (by rw [show j - 1 + 1 = j by omega]; linarith)]
  simp only [Option.bind_eq_bind, Option.bind_some]
  have key : ∀ n, j + n < K → (List.range' j n).foldlM (fun (d : Fl α) k =>
      (intXK eosST P Sc Tc (Fl.fin dp) (P.get k) k).map (fun y => d + y)) (Fl.fin 0) = some (Fl.fin 0) := by
    intro n
    induction n with
    | zero => intro _; rfl
    | succ n ih =>
      intro hn
      rw [List.range'_concat, List.foldlM_append, ih (by omega)]
      simp only [one_mul, List.foldlM_cons, List.foldlM_nil, Option.bind_eq_bind, Option.bind_some, Option.pure_def]
      rw [B.hP (j + n) (by omega), intXK_neg B.hP hdp (by omega) (B.inc _ (by omega)).le (hgap _ (by omega))]
      simp
  rw [key (l - j) (by omega)]
  simp only [Option.bind_some]
  rw [intXK_neg B.hP hdp (k := l - 1) (by omega) (by rw [show l - 1 + 1 = l by omega]; exact q3) (by rw [show l - 1 + 1 = l by omega]; linarith)]
  simp

theorem intUp_none {Sc Tc : PPC (Fl α)} {c e : ℕ → List α} (B : Cast P Sc Tc K a c e) {dp p q : α}
    (h0 : a 0 ≤ p) (h : p ≤ q) (h1 : q ≤ a (K - 1))
    (hbad : dp = 0 ∨ dp < 0 ∧ ∃ k, k + 1 < K ∧ (a k < q ∨ k = 0) ∧ -2 * dp ≤ a (k + 1) - max (a k) p) :
    intUp eosST P Sc Tc (Fl.fin dp) (Fl.fin p) (Fl.fin q) = none := by
  have hs := B.size
  obtain ⟨p1, p2, p3, p4, p5⟩ := pieceEnd_spec B h0 (le_trans h h1)
  obtain ⟨q1, q2, q3, q4, q5⟩ := pieceEnd_spec B (le_trans h0 h) h1
  have hm := pieceEnd_mono B h0 h h1
  unfold intUp
  simp only
  generalize pieceEnd P (Fl.fin p) = j at *
  generalize pieceEnd P (Fl.fin q) = l at *
  by_cases hfirst : dp = 0 ∨ dp < 0 ∧ -2 * dp ≤ a j - p
  · rw [intXK_none B.hP (k := j - 1) (by omega) (by rw [show j - 1 + 1 = j by omega]; exact hfirst)]
    rfl
  rcases hbad with h00 | ⟨hdp, k, hk, hkq, hgap⟩
  · exact absurd (Or.inl h00) hfirst
  have hjk : j ≤ k := by
    by_contra hc
    refine hfirst (Or.inr ⟨hdp, ?_⟩)
    have := B.mono (k + 1) j (by omega) (by omega)
    have := le_max_right (a k) p
    linarith
  have hkl : k < l := by
    rcases hkq with h | h
    · by_contra hc
      have := B.mono l k (by omega) (by omega)
      linarith
    · omega
  have hgk : -2 * dp ≤ a (k + 1) - a k := by
    have := le_max_left (a k) p
    linarith
  cases hx : intXK eosST P Sc Tc (Fl.fin dp) (Fl.fin p) (j - 1) with
  | none => rfl
  | some d =>
    simp only [Option.bind_eq_bind, Option.bind_some]
    have key : ∀ (L : List ℕ) (d : Fl α), k ∈ L → L.foldlM (fun (d : Fl α) k =>
        (intXK eosST P Sc Tc (Fl.fin dp) (P.get k) k).map (fun y => d + y)) d = none := by
      intro L
      induction L with
      | nil => intro d h; simp at h
      | cons x L ih =>
        intro d hmem
        rw [List.foldlM_cons]
        by_cases hxk : x = k
        · rw [hxk, B.hP k (by omega), intXK_none B.hP (by omega) (Or.inr ⟨hdp, hgk⟩)]
          rfl
        · have : k ∈ L := by
            rcases List.mem_cons.mp hmem with h | h
            · exact absurd h.symm hxk
            · exact h
          cases (intXK eosST P Sc Tc (Fl.fin dp) (P.get x) x).map (fun y => d + y) with
          | none => rfl
          | some d' => exact ih d' this
    rw [key _ _ (List.mem_range'_1.mpr ⟨hjk, by omega⟩)]
    rfl

theorem intDlrpd_inside {Sc Tc : PPC (Fl α)} {c e : ℕ → List α} (B : Cast P Sc Tc K a c e) {dp : Fl α} {p q : α}
    (hp0 : a 0 ≤ p) (hp1 : p ≤ a (K - 1)) (hq0 : a 0 ≤ q) (hq1 : q ≤ a (K - 1)) :
    intDlrpd eosST P Sc Tc dp (Fl.fin q) (Fl.fin p) =
      (intUp eosST P Sc Tc dp (Fl.fin (min p q)) (Fl.fin (max p q))).map (fun d => d * lit (if p ≤ q then 1 else -1)) := by
  have hs := B.size
  have h2 := B.two
  have hend := B.mono (K - 1) (P.size - 1) (by omega) (by omega)
  unfold intDlrpd
  rw [B.hP 0 (by omega), B.hP (P.size - 1) (by omega)]
  simp only [fin_add, isNaN_fin, lt_fin, le_fin]
  rw [if_neg]
  · by_cases h : p ≤ q
    · simp [h]
    · rw [min_eq_right (le_of_not_ge h), max_eq_left (le_of_not_ge h)]
      simp [h]
  · simp only [Bool.or_eq_true, decide_eq_true_eq, Bool.false_or]
    push Not
    exact ⟨⟨⟨by simpa using hp0, by linarith⟩, hq0⟩, by linarith⟩

/-- **C174** (violated, see `veronis_negative_step_accepted`) No label is returned for a step of zero, nor for a negative step if somewhere between base and position
the distance to the next bottle is at least twice its size. -/
theorem veronis_bad_step_partial (H : Profile P S T K a s t) (G : Good ppc) {dp b pref : Fl α} {d p0 p1 : α} (hd : dp = Fl.fin d)
    (h0 : a 0 ≤ p0 ∧ p0 ≤ a (K - 1)) (h1 : a 0 ≤ p1 ∧ p1 ≤ a (K - 1))
    (hbad : d = 0 ∨ d < 0 ∧ ∃ k, k + 1 < K ∧ (a k < max p0 p1 ∨ k = 0) ∧ 2 * |d| ≤ a (k + 1) - max (a k) (min p0 p1)) :
    veronis ppc eos eosST S T P (Fl.fin p1) (some (Fl.fin p0)) pref b dp = none := by
  obtain ⟨Sc, Tc, c, e, g1, g2, g3, g4, B, hj⟩ := H.cast G
  subst hd
  unfold veronis veronisPP
  rw [g1, g2]
  simp only [Option.bind_eq_bind, Option.bind_some, Option.getD_some]
  rw [intDlrpd_inside B h0.1 h0.2 h1.1 h1.2, intUp_none B (le_min h0.1 h1.1) (min_le_max) (max_le h0.2 h1.2)]
  · rfl
  · rcases hbad with h | ⟨h, k, hk, hkq, hgap⟩
    · exact Or.inl h
    · rw [abs_of_neg h] at hgap
      exact Or.inr ⟨h, k, hk, hkq, by linarith⟩

/-- **C174 is violated**: a negative step larger than the bottle spacing is accepted and the integral is lost: every position of the cast gets the same label, the
potential density at the base. -/
theorem veronis_negative_step_accepted (H : Profile P S T K a s t) (G : Good ppc) (hR : FinRho eos ρ) {d b pref p0 p1 : α} (hd : d < 0)
    (hgap : ∀ k, k + 1 < K → a (k + 1) - a k < |d|) (h0 : a 0 ≤ p0 ∧ p0 ≤ a (K - 1)) (h1 : a 0 ≤ p1 ∧ p1 ≤ a (K - 1)) :
    ∃ (Sc Tc : PPC (Fl α)) (s0 t0 : α), ppc P S = some Sc ∧ ppc P T = some Tc ∧
      ppval1 (Fl.fin p0) P Sc 0 = Fl.fin s0 ∧ ppval1 (Fl.fin p0) P Tc 0 = Fl.fin t0 ∧
      veronis ppc eos eosST S T P (Fl.fin p1) (some (Fl.fin p0)) (Fl.fin pref) (Fl.fin b) (Fl.fin d) = some (Fl.fin (ρ s0 t0 pref)) := by
  obtain ⟨Sc, Tc, c, e, g1, g2, g3, g4, B, hj⟩ := H.cast G
  have hvr : validRange2 P Sc.lastCol = validRange2 P Tc.lastCol := by
    rw [H.BS.vr_table g3, H.BT.vr_table g4]
  have v0 := B.ppval H g3 h0.1 h0.2 0
  have v0' := v0
  rw [ppval1Two_eq hvr] at v0'
  simp only [Prod.mk.injEq] at v0'
  refine ⟨Sc, Tc, _, _, g1, g2, v0'.1, v0'.2, ?_⟩
  unfold veronis veronisPP potDens
  rw [g1, g2]
  simp only [Option.bind_eq_bind, Option.bind_some, Option.getD_some]
  rw [intDlrpd_inside B h0.1 h0.2 h1.1 h1.2, intUp_neg B hd (fun k hk => by have := hgap k hk; rwa [abs_of_neg hd] at this) (le_min h0.1 h1.1) min_le_max (max_le h0.2 h1.2),
    v0]
  simp only [Option.map_some, lit_eq, fin_mul, zero_mul, mul_zero]
  rw [hR, fin_add, add_zero]

/-- Bottles at 0, 10, 30: with a step of −40 the positions 5, 20 and 30 all get the density at the base (1014); a step of 3 gives 1125 at 20. -/
example : (∀ p ∈ [(5 : ℚ), 20, 30], veronis (fun X Y => some (linearCoeffs1 X Y)) exEos exEosST exS exT exP (Fl.fin p) (some (Fl.fin 0)) (Fl.fin 0) (Fl.fin 1) (Fl.fin (-40))
      = some (Fl.fin 1014)) ∧
    veronis (fun X Y => some (linearCoeffs1 X Y)) exEos exEosST exS exT exP (Fl.fin 20) (some (Fl.fin 0)) (Fl.fin 0) (Fl.fin 1) (Fl.fin 3) = some (Fl.fin 1125) := by decide +kernel

/-- The hypotheses of `veronis_negative_step_accepted` on this cast with a step of −21. -/
example : (∀ k, k + 1 < 3 → (fun i : ℕ => if i = 0 then (0 : ℚ) else if i = 1 then 10 else if i = 2 then 30 else 60) (k + 1)
      - (fun i : ℕ => if i = 0 then (0 : ℚ) else if i = 1 then 10 else if i = 2 then 30 else 60) k < |(-21 : ℚ)|) := by
  intro k hk
  have : k = 0 ∨ k = 1 := by omega
  rcases this with h | h <;> subst h <;> norm_num

/-- Steps of 0 and −4 are refused; for −4 the interval between the bottles at 0 and 10 is large enough. -/
example : (∀ d ∈ [(0 : ℚ), -4], veronis (fun X Y => some (linearCoeffs1 X Y)) exEos exEosST exS exT exP (Fl.fin 20) (some (Fl.fin 0)) (Fl.fin 0) (Fl.fin 1) (Fl.fin d) = none) ∧
    ((-4 : ℚ) < 0 ∧ ∃ k, k + 1 < 3 ∧ ((fun i : ℕ => if i = 0 then (0 : ℚ) else if i = 1 then 10 else 30) k < max 0 20 ∨ k = 0) ∧
      2 * |(-4 : ℚ)| ≤ (fun i : ℕ => if i = 0 then (0 : ℚ) else if i = 1 then 10 else 30) (k + 1) -
        max ((fun i : ℕ => if i = 0 then (0 : ℚ) else if i = 1 then 10 else 30) k) (min 0 20)) := by
  refine ⟨by decide +kernel, by norm_num, 0, by omega, Or.inr rfl, ?_⟩
  norm_num

end Label
