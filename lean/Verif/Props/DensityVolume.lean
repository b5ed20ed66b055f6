import Verif.Props.SolveAccuracy

/-!
# Density or specific volume (C159)

The package may be given an equation of state for the density or for the specific volume.  Where the cast is stable, neutral links and potential
surfaces are the same with either, up to the accuracy of the root finder and the rounding errors.
-/

set_option linter.unusedSectionVars false

namespace VertSolve
open FloatLike Fzero Interp Traj

variable {rnd : ℝ → ℝ} {b : Box} {c : Cast (Rfl rnd)} {k K : ℕ} {a s t : ℕ → ℝ} {eS eT : ℝ}
  {eos eos' : Rfl rnd → Rfl rnd → Rfl rnd → Rfl rnd} {e e' E : ℝ → ℝ → ℝ → ℝ} {η Ls Lt Lp η' Ls' Lt' Lp' : ℝ}

/-- Difference of the inverses of two numbers in `(0, M]`. -/
theorem inv_sep {x y M : ℝ} (hx : 0 < x) (hy : 0 < y) (hx' : x ≤ M) (hy' : y ≤ M) {u : ℝ} (h : u ≤ |x - y|) : u / M ^ 2 ≤ |1 / x - 1 / y| := by
  have hM : 0 < M := lt_of_lt_of_le hx hx'
  have e1 : 1 / x - 1 / y = (y - x) / (x * y) := by field_simp
  rw [e1, abs_div, abs_of_pos (mul_pos hx hy), abs_sub_comm]
  calc u / M ^ 2 ≤ |x - y| / M ^ 2 := by gcongr
    _ ≤ |x - y| / (x * y) := by
      apply div_le_div_of_nonneg_left (abs_nonneg _) (mul_pos hx hy)
      nlinarith

theorem inv_le_neg {x y M δ δ' : ℝ} (hx : 0 < x) (hy : 0 < y) (hx' : x ≤ M) (hy' : y ≤ M) (hδ : 0 ≤ δ) (hd : M ^ 2 * δ' ≤ δ)
    (h : δ ≤ x - y) : 1 / x - 1 / y ≤ -δ' := by
  have hM : 0 < M := lt_of_lt_of_le hx hx'
  have e1 : 1 / x - 1 / y = -((x - y) / (x * y)) := by field_simp; ring
  rw [e1, neg_le_neg_iff, le_div_iff₀ (mul_pos hx hy)]
  rcases le_or_gt δ' 0 with h0 | h0
  · nlinarith [mul_pos hx hy]
  · nlinarith [mul_le_mul hx' hy' hy.le hM.le]

/-- Two solutions near the same exact one. -/
theorem near_both {p p' z r r' : ℝ} (h : |p - z| ≤ r) (h' : |p' - z| ≤ r') : |p - p'| ≤ r + r' := by
  rw [abs_le] at *
  constructor <;> linarith [h.1, h.2, h'.1, h'.2]

/-- **C159** A neutral link to a stable cast computed with the density `E` and with the specific volume `1 / E`: both succeed and their pressures differ
by at most the accuracies of the two root searches.  `m` bounds the gradient along the cast of the difference of densities, `M` the density. -/
theorem ntp_density_volume (R : BinRound rnd) (kind : PPKind) (H : EosBox rnd b eos e E η Ls Lt Lp)
    (H' : EosBox rnd b eos' e' (fun s t p => 1 / E s t p) η' Ls' Lt' Lp') (C : CastBox b c k K a s t eS eT)
    {sB tB pB tol M m z0 δ0 : ℝ} (hM : ∀ s t p, b.In s t p → 0 < E s t p ∧ E s t p ≤ M)
    (hB : b.In sB tB pB) (hp : rnd b.p0 = b.p0 ∧ rnd b.p1 = b.p1) (hpB : rnd pB = pB)
    (htol : 0 < tol) (n : ℕ) (hn : 5 / 2 * (a (K - 1) - a k) / tol ≤ n) (hm : 0 < m)
    {gS gT : ℝ → ℝ} (hg : ∀ x, a k ≤ x → x ≤ a (K - 1) →
      interpAt kind (Fl.fin x) (exactArr c.P) (exactArr c.S) = some (Fl.fin (gS x)) ∧
      interpAt kind (Fl.fin x) (exactArr c.P) (exactArr c.T) = some (Fl.fin (gT x)))
    (hsep : ∀ x, a k ≤ x → x ≤ a (K - 1) → m * |x - z0| ≤ |E sB tB ((pB + x) / 2) - E (gS x) (gT x) ((pB + x) / 2)|)
    (hδ : 2 * η + Ls * eS + Lt * eT + 2 * Lp * (max |b.p0| |b.p1| / 2 ^ 53) ≤ δ0)
    (hδ' : M ^ 2 * (2 * η' + Ls' * eS + Lt' * eT + 2 * Lp' * (max |b.p0| |b.p1| / 2 ^ 53)) ≤ δ0) (hδ0 : 0 ≤ δ0)
    (htop : δ0 ≤ E sB tB ((pB + a k) / 2) - E (gS (a k)) (gT (a k)) ((pB + a k) / 2))
    (hbot : E sB tB ((pB + a (K - 1)) / 2) - E (gS (a (K - 1))) (gT (a (K - 1))) ((pB + a (K - 1)) / 2) ≤ -δ0) :
    ∃ s1 t1 p1 s2 t2 p2,
      ntpBottleToCast (n + 13) (Rfl.fin tol) eos kind (Rfl.fin sB) (Rfl.fin tB) (Rfl.fin pB) c = .ret (Rfl.fin s1, Rfl.fin t1, Rfl.fin p1) ∧
      ntpBottleToCast (n + 13) (Rfl.fin tol) eos' kind (Rfl.fin sB) (Rfl.fin tB) (Rfl.fin pB) c = .ret (Rfl.fin s2, Rfl.fin t2, Rfl.fin p2) ∧
      |p1 - p2| ≤ ((2 + 1 / 2 ^ 46) * (2 * (1 / 2 ^ 52) * |p1| + tol) + δ0 / m) + ((2 + 1 / 2 ^ 46) * (2 * (1 / 2 ^ 52) * |p2| + tol) + δ0 / m) := by
  have hAB : a k ≤ a (K - 1) := C.good.S.a_le
  obtain ⟨fS, fT, -, -, hin⟩ := C.inside R.toStdRound kind
  have hgin : ∀ x, a k ≤ x → x ≤ a (K - 1) → ∀ p, b.p0 ≤ p → p ≤ b.p1 → b.In (gS x) (gT x) p := by
    intro x h1 h2
    obtain ⟨i1, i2, i3, -⟩ := hin x h1 h2
    obtain ⟨j1, j2⟩ := hg x h1 h2
    rw [i1] at j1
    rw [i2] at j2
    rw [← Fl.fin.inj (Option.some.inj j1), ← Fl.fin.inj (Option.some.inj j2)]
    exact i3
  have hmid : ∀ x, a k ≤ x → x ≤ a (K - 1) → b.p0 ≤ (pB + x) / 2 ∧ (pB + x) / 2 ≤ b.p1 := by
    intro x h1 h2
    have q1 := C.inP
    have q2 : b.p0 ≤ pB ∧ pB ≤ b.p1 := hB.2.2.2.2
    constructor <;> linarith [q1.1, q1.2, q2.1, q2.2]
  have hpos1 : ∀ x, a k ≤ x → x ≤ a (K - 1) → 0 < E sB tB ((pB + x) / 2) ∧ E sB tB ((pB + x) / 2) ≤ M := fun x h1 h2 =>
    hM _ _ _ ⟨hB.1, hB.2.1, hB.2.2.1, hB.2.2.2.1, (hmid x h1 h2).1, (hmid x h1 h2).2⟩
  have hpos2 : ∀ x, a k ≤ x → x ≤ a (K - 1) → 0 < E (gS x) (gT x) ((pB + x) / 2) ∧ E (gS x) (gT x) ((pB + x) / 2) ≤ M := fun x h1 h2 =>
    hM _ _ _ (hgin x h1 h2 _ (hmid x h1 h2).1 (hmid x h1 h2).2)
  have hM0 : 0 < M := lt_of_lt_of_le (hpos1 _ le_rfl hAB).1 (hpos1 _ le_rfl hAB).2
  obtain ⟨r, h1, h2⟩ := ntp_accurate R kind H C hB hp hpB htol n hn
  obtain ⟨r', h1', h2'⟩ := ntp_accurate R kind H' C hB hp hpB htol n hn
  obtain ⟨s1, t1, p1, rfl, -, -, -, -, b1⟩ := h2.stable hm hg hAB hsep (Or.inr ⟨by linarith, by linarith⟩)
  obtain ⟨s2, t2, p2, rfl, -, -, -, -, b2⟩ := h2'.stable (m := m / M ^ 2) (z0 := z0) (by positivity) hg hAB
    (fun x q1 q2 => by
      have := inv_sep (hpos1 x q1 q2).1 (hpos2 x q1 q2).1 (hpos1 x q1 q2).2 (hpos2 x q1 q2).2 (hsep x q1 q2)
      rw [div_mul_eq_mul_div]
      exact this)
    (Or.inl ⟨inv_le_neg (hpos1 _ le_rfl hAB).1 (hpos2 _ le_rfl hAB).1 (hpos1 _ le_rfl hAB).2 (hpos2 _ le_rfl hAB).2 hδ0 hδ' htop, by
      have := inv_le_neg (hpos2 _ hAB le_rfl).1 (hpos1 _ hAB le_rfl).1 (hpos2 _ hAB le_rfl).2 (hpos1 _ hAB le_rfl).2 hδ0 hδ' (by linarith)
      linarith⟩)
  refine ⟨s1, t1, p1, s2, t2, p2, h1, h1', near_both (z := z0) (b1.trans ?_) (b2.trans ?_)⟩
  · gcongr
  · have : (2 * η' + Ls' * eS + Lt' * eT + 2 * Lp' * (max |b.p0| |b.p1| / 2 ^ 53)) / (m / M ^ 2) ≤ δ0 / m := by
      rw [div_div_eq_mul_div]
      gcongr
      linarith
    linarith

/-- **C159** A potential density surface and the potential specific volume surface of the inverse isovalue. -/
theorem potential_density_volume (R : BinRound rnd) (kind : PPKind) (H : EosBox rnd b eos e E η Ls Lt Lp)
    (H' : EosBox rnd b eos' e' (fun s t p => 1 / E s t p) η' Ls' Lt' Lp') (C : CastBox b c k K a s t eS eT)
    {refP iso iso' tol M m z0 δ0 : ℝ} (hM : ∀ s t p, b.In s t p → 0 < E s t p ∧ E s t p ≤ M) (hiso : 0 < iso) (hisoM : iso ≤ M)
    {ν : ℝ} (hν : |iso' - 1 / iso| ≤ ν) (hp : b.p0 ≤ refP ∧ refP ≤ b.p1)
    (htol : 0 < tol) (n : ℕ) (hn : 5 / 2 * (a (K - 1) - a k) / tol ≤ n) (hm : 0 < m)
    {gS gT : ℝ → ℝ} (hg : ∀ x, a k ≤ x → x ≤ a (K - 1) →
      interpAt kind (Fl.fin x) (exactArr c.P) (exactArr c.S) = some (Fl.fin (gS x)) ∧
      interpAt kind (Fl.fin x) (exactArr c.P) (exactArr c.T) = some (Fl.fin (gT x)))
    (hsep : ∀ x, a k ≤ x → x ≤ a (K - 1) → m * |x - z0| ≤ |E (gS x) (gT x) refP - iso|)
    (hδ : η + Ls * eS + Lt * eT ≤ δ0) (hδ' : M ^ 2 * (η' + Ls' * eS + Lt' * eT + ν) ≤ δ0) (hδ0 : 0 ≤ δ0)
    (htop : E (gS (a k)) (gT (a k)) refP - iso ≤ -δ0) (hbot : δ0 ≤ E (gS (a (K - 1))) (gT (a (K - 1))) refP - iso) :
    ∃ s1 t1 p1 s2 t2 p2,
      vertsolve1 (n + 13) (Rfl.fin tol) kind (fun P Sp Tp => zeroPotential eos P Sp Tp (Rfl.fin refP) (Rfl.fin iso)) c =
        .ret (Rfl.fin s1, Rfl.fin t1, Rfl.fin p1) ∧
      vertsolve1 (n + 13) (Rfl.fin tol) kind (fun P Sp Tp => zeroPotential eos' P Sp Tp (Rfl.fin refP) (Rfl.fin iso')) c =
        .ret (Rfl.fin s2, Rfl.fin t2, Rfl.fin p2) ∧
      |p1 - p2| ≤ ((2 + 1 / 2 ^ 46) * (2 * (1 / 2 ^ 52) * |p1| + tol) + δ0 / m) + ((2 + 1 / 2 ^ 46) * (2 * (1 / 2 ^ 52) * |p2| + tol) + δ0 / m) := by
  have hAB : a k ≤ a (K - 1) := C.good.S.a_le
  have hν0 : 0 ≤ ν := (abs_nonneg _).trans hν
  obtain ⟨fS, fT, -, -, hin⟩ := C.inside R.toStdRound kind
  have hgin : ∀ x, a k ≤ x → x ≤ a (K - 1) → ∀ p, b.p0 ≤ p → p ≤ b.p1 → b.In (gS x) (gT x) p := by
    intro x h1 h2
    obtain ⟨i1, i2, i3, -⟩ := hin x h1 h2
    obtain ⟨j1, j2⟩ := hg x h1 h2
    rw [i1] at j1
    rw [i2] at j2
    rw [← Fl.fin.inj (Option.some.inj j1), ← Fl.fin.inj (Option.some.inj j2)]
    exact i3
  have hpos : ∀ x, a k ≤ x → x ≤ a (K - 1) → 0 < E (gS x) (gT x) refP ∧ E (gS x) (gT x) refP ≤ M := fun x h1 h2 =>
    hM _ _ _ (hgin x h1 h2 _ hp.1 hp.2)
  have hM0 : 0 < M := lt_of_lt_of_le hiso hisoM
  obtain ⟨r, h1, h2⟩ := potential_accurate R kind H C (isoval := iso) hp htol n hn
  obtain ⟨r', h1', h2'⟩ := potential_accurate R kind H' C (isoval := iso') hp htol n hn
  obtain ⟨s1, t1, p1, rfl, -, -, -, -, b1⟩ := h2.stable hm hg hAB hsep (Or.inl ⟨by linarith, by linarith⟩)
  -- the specific volume problem with the exact inverse
  have h3 : Accurate kind c (a k) (a (K - 1)) (fun s t _ => 1 / E s t refP - 1 / iso) eS eT (η' + Ls' * eS + Lt' * eT + ν) tol r' := by
    have hsh : ∀ y δ : ℝ, (|y - iso'| ≤ δ → |y - 1 / iso| ≤ δ + ν) ∧ (-δ < y - iso' → -(δ + ν) < y - 1 / iso) ∧ (y - iso' < δ → y - 1 / iso < δ + ν) := by
      intro y δ
      have q := abs_le.mp hν
      refine ⟨fun h => ?_, fun h => by linarith [q.1], fun h => by linarith [q.2]⟩
      have h := abs_le.mp h
      rw [abs_le]
      constructor <;> linarith [q.1, q.2, h.1, h.2]
    obtain ⟨fS, fT, hf, h | ⟨s, t, p, z, i1, i2, i3, i4, i5, i6, i7, i8, i9⟩⟩ := h2'
    · refine ⟨fS, fT, hf, Or.inl ⟨h.1, ?_⟩⟩
      rcases h.2 with ⟨q1, q2⟩ | ⟨q1, q2⟩
      · exact Or.inl ⟨(hsh _ _).2.1 q1, (hsh _ _).2.1 q2⟩
      · exact Or.inr ⟨(hsh _ _).2.2 q1, (hsh _ _).2.2 q2⟩
    · exact ⟨fS, fT, hf, Or.inr ⟨s, t, p, z, i1, i2, i3, i4, i5, i6, i7, (hsh _ _).1 i8, i9⟩⟩
  obtain ⟨s2, t2, p2, rfl, -, -, -, -, b2⟩ := h3.stable (m := m / M ^ 2) (z0 := z0) (by positivity) hg hAB
    (fun x q1 q2 => by
      have := inv_sep (hpos x q1 q2).1 hiso (hpos x q1 q2).2 hisoM (hsep x q1 q2)
      rw [div_mul_eq_mul_div]
      exact this)
    (Or.inr ⟨inv_le_neg (hpos _ hAB le_rfl).1 hiso (hpos _ hAB le_rfl).2 hisoM hδ0 hδ' hbot, by
      have := inv_le_neg hiso (hpos _ le_rfl hAB).1 hisoM (hpos _ le_rfl hAB).2 hδ0 hδ' (by linarith)
      linarith⟩)
  refine ⟨s1, t1, p1, s2, t2, p2, h1, h1', near_both (z := z0) (b1.trans ?_) (b2.trans ?_)⟩
  · gcongr
  · have : (η' + Ls' * eS + Lt' * eT + ν) / (m / M ^ 2) ≤ δ0 / m := by
      rw [div_div_eq_mul_div]
      gcongr
      linarith
    linarith

/-! ## An example: the density `s - t` and its inverse on the example cast -/

/-- the specific volume `1 / (s - t)` computed with two roundings -/
theorem exVolBox (R : StdRound rnd) : EosBox rnd exBox (fun s t _ => Rfl.fin 1 / (s - t)) (fun s t _ => rnd (1 / rnd (s - t))) (fun s t _ => 1 / (s - t))
    (1 / 2 ^ 53) (1 / 400) (1 / 400) 0 where
  val s t p h := by
    obtain ⟨h1, h2, h3, h4, _⟩ := h
    simp only [exBox] at h1 h2 h3 h4
    rw [Rfl.fin_sub, Rfl.fin_div]
    intro h0
    have := R.eq_zero_iff.mp h0
    linarith
  close s t p h := by
    obtain ⟨h1, h2, h3, h4, _⟩ := h
    simp only [exBox] at h1 h2 h3 h4
    have hx : 20 ≤ s - t := by linarith
    have hx' : s - t ≤ 40 := by linarith
    generalize s - t = x at hx hx'
    have e1 := R.err x
    rw [abs_of_pos (a := x) (by linarith)] at e1
    have e2 : x / 2 ^ 53 ≤ 40 / 2 ^ 53 := by gcongr
    have e3 := abs_le.mp (e1.trans e2)
    have e4 : (40 : ℝ) / 2 ^ 53 ≤ 1 := by norm_num
    have hr : 19 ≤ rnd x := by linarith [e3.1]
    have hr0 : 0 < rnd x := by linarith
    have hx0 : 0 < x := by linarith
    have f1 := R.err (1 / rnd x)
    rw [abs_of_pos (a := 1 / rnd x) (by positivity)] at f1
    have f2 : 1 / rnd x ≤ 1 / 19 := one_div_le_one_div_of_le (by norm_num) hr
    have f3 : 1 / rnd x / 2 ^ 53 ≤ 1 / 19 / 2 ^ 53 := by gcongr
    have g1 : |1 / rnd x - 1 / x| ≤ (40 / 2 ^ 53) / 380 := by
      have : 1 / rnd x - 1 / x = (x - rnd x) / (rnd x * x) := by field_simp
      rw [this, abs_div, abs_of_pos (mul_pos hr0 hx0), abs_sub_comm]
      have : (380 : ℝ) ≤ rnd x * x := by nlinarith
      exact div_le_div₀ (by norm_num) (e1.trans e2) (by norm_num) this
    have := abs_add_le (rnd (1 / rnd x) - 1 / rnd x) (1 / rnd x - 1 / x)
    rw [show rnd (1 / rnd x) - 1 / x = (rnd (1 / rnd x) - 1 / rnd x) + (1 / rnd x - 1 / x) by ring]
    refine this.trans ((add_le_add (f1.trans f3) g1).trans ?_)
    norm_num
  lip s t p s' t' p' h h' := by
    obtain ⟨h1, h2, h3, h4, _⟩ := h
    obtain ⟨h1', h2', h3', h4', _⟩ := h'
    simp only [exBox] at *
    have hx : 20 ≤ s - t := by linarith
    have hy : 20 ≤ s' - t' := by linarith
    have e1 : 1 / (s - t) - 1 / (s' - t') = ((s' - t') - (s - t)) / ((s - t) * (s' - t')) := by
      rw [div_sub_div _ _ (by linarith) (by linarith)]; ring
    rw [e1, abs_div, abs_of_pos (a := (s - t) * (s' - t')) (by nlinarith)]
    have e2 : |s' - t' - (s - t)| ≤ |s - s'| + |t - t'| := by
      rw [show s' - t' - (s - t) = -(s - s') + (t - t') by ring]
      refine (abs_add_le _ _).trans ?_
      rw [abs_neg]
    have e3 : (400 : ℝ) ≤ (s - t) * (s' - t') := by nlinarith
    calc |s' - t' - (s - t)| / ((s - t) * (s' - t')) ≤ (|s - s'| + |t - t'|) / 400 :=
          div_le_div₀ (by positivity) e2 (by norm_num) e3
      _ ≤ _ := by linarith
  ls := by norm_num
  lt := by norm_num
  lp := by norm_num

example : ∃ s1 t1 p1 s2 t2 p2,
    ntpBottleToCast 100013 (Rfl.fin (1 / 10000) : Rfl Rounding53.rndNear) (fun s t _ => s - t) .linear (Rfl.fin 35) (Rfl.fin 6) (Rfl.fin 1)
      (exCastR Rounding53.rndNear) = .ret (Rfl.fin s1, Rfl.fin t1, Rfl.fin p1) ∧
    ntpBottleToCast 100013 (Rfl.fin (1 / 10000) : Rfl Rounding53.rndNear) (fun s t _ => Rfl.fin 1 / (s - t)) .linear (Rfl.fin 35) (Rfl.fin 6) (Rfl.fin 1)
      (exCastR Rounding53.rndNear) = .ret (Rfl.fin s2, Rfl.fin t2, Rfl.fin p2) ∧
    |p1 - p2| ≤ ((2 + 1 / 2 ^ 46) * (2 * (1 / 2 ^ 52) * |p1| + 1 / 10000) + 1 / 1000000 / 2) +
      ((2 + 1 / 2 ^ 46) * (2 * (1 / 2 ^ 52) * |p2| + 1 / 10000) + 1 / 1000000 / 2) := by
  have R := Rounding53.rndNear_bin (α := ℝ)
  have h2 : Rounding53.rndNear (4 : ℝ) = 4 := by
    have h := (exCastBox R).rep.2
    norm_num [exA] at h
    exact h
  have e1 : exA 1 = 0 := by norm_num [exA]
  have e4 : exA (4 - 1) = 4 := by norm_num [exA]
  refine ntp_density_volume R .linear (exEosBox R.toStdRound) (exVolBox R.toStdRound) (exCastBox R) (M := 40) (m := 2) (z0 := 3 / 2) (δ0 := 1 / 1000000)
    ?_ (by norm_num [Box.In, exBox]) ⟨R.zero, h2⟩ R.one (by norm_num) 100000 (by norm_num [exA]) (by norm_num)
    (gS := fun x => 34 + x) (gT := fun x => 8 - x) (fun x h1 h2 => exLines (by rw [e1] at h1; exact h1) (by rw [e4] at h2; exact h2)) ?_ (by norm_num [exBox])
    (by norm_num [exBox]) (by norm_num) ?_ ?_
  · rintro s t p ⟨h1, h2, h3, h4, _⟩
    simp only [exBox] at h1 h2 h3 h4
    constructor <;> linarith
  · intro x _ _
    refine le_of_eq ?_
    rw [show (35 : ℝ) - 6 - (34 + x - (8 - x)) = -(2 * (x - 3 / 2)) by ring, abs_neg, abs_mul]
    norm_num
  · rw [e1]; norm_num
  · rw [e4]; norm_num

/-- The surfaces of potential density 29 and of potential specific volume 1/29 (rounded). -/
example : ∃ s1 t1 p1 s2 t2 p2,
    vertsolve1 100013 (Rfl.fin (1 / 10000) : Rfl Rounding53.rndNear) .linear
      (fun P Sp Tp => zeroPotential (fun s t _ => s - t) P Sp Tp (Rfl.fin 0) (Rfl.fin 29)) (exCastR Rounding53.rndNear) =
        .ret (Rfl.fin s1, Rfl.fin t1, Rfl.fin p1) ∧
    vertsolve1 100013 (Rfl.fin (1 / 10000) : Rfl Rounding53.rndNear) .linear
      (fun P Sp Tp => zeroPotential (fun s t _ => Rfl.fin 1 / (s - t)) P Sp Tp (Rfl.fin 0) (Rfl.fin (Rounding53.rndNear (1 / 29))))
        (exCastR Rounding53.rndNear) = .ret (Rfl.fin s2, Rfl.fin t2, Rfl.fin p2) ∧
    |p1 - p2| ≤ ((2 + 1 / 2 ^ 46) * (2 * (1 / 2 ^ 52) * |p1| + 1 / 10000) + 1 / 1000000 / 2) +
      ((2 + 1 / 2 ^ 46) * (2 * (1 / 2 ^ 52) * |p2| + 1 / 10000) + 1 / 1000000 / 2) := by
  have R := Rounding53.rndNear_bin (α := ℝ)
  have e1 : exA 1 = 0 := by norm_num [exA]
  have e4 : exA (4 - 1) = 4 := by norm_num [exA]
  refine potential_density_volume R .linear (exEosBox R.toStdRound) (exVolBox R.toStdRound) (exCastBox R) (M := 40) (m := 2) (z0 := 3 / 2) (δ0 := 1 / 1000000)
    (ν := 1 / 2 ^ 53) ?_ (by norm_num) (by norm_num) ?_ (by norm_num [exBox]) (by norm_num) 100000 (by norm_num [exA]) (by norm_num)
    (gS := fun x => 34 + x) (gT := fun x => 8 - x) (fun x h1 h2 => exLines (by rw [e1] at h1; exact h1) (by rw [e4] at h2; exact h2)) ?_ (by norm_num)
    (by norm_num) (by norm_num) ?_ ?_
  · rintro s t p ⟨h1, h2, h3, h4, _⟩
    simp only [exBox] at h1 h2 h3 h4
    constructor <;> linarith
  · refine (R.toStdRound.err (1 / 29)).trans ?_
    rw [abs_of_pos (by norm_num)]
    norm_num
  · intro x _ _
    refine le_of_eq ?_
    rw [show (34 : ℝ) + x - (8 - x) - 29 = 2 * (x - 3 / 2) by ring, abs_mul]
    norm_num
  · rw [e1]; norm_num
  · rw [e4]; norm_num

end VertSolve
