import Verif.Props.LabelOrder
import Verif.Props.LabelRound
import Verif.Props.RefineCast

/-!
# Veronis labels and bottles added on the chords (C180)

Bottles added on the chords between the bottles of a cast do not change the interpolants (C157), but they do change the intervals on which the trapezoidal rule
is used.  The label changes by at most the errors of the two quadratures, and has the same limit as the step size goes to zero.
-/

set_option linter.unusedSectionVars false

namespace Label
open FloatLike Interp MeasureTheory intervalIntegral Filter Topology
open Fl hiding nan

variable {P S T P' S' T' : Arr (Fl ℝ)} {K K' : ℕ} {a s t a' s' t' : ℕ → ℝ}
  {eos : Fl ℝ → Fl ℝ → Fl ℝ → Fl ℝ} {ρ : ℝ → ℝ → ℝ → ℝ}
  {eosST : Fl ℝ → Fl ℝ → Fl ℝ → Fl ℝ × Fl ℝ} {rs rt : ℝ → ℝ → ℝ → ℝ}

/-! ## Pieces of the finer cast -/

section pieces
variable {y y' : ℕ → ℝ}

open Same in
theorem chords_ends (R : OnChords 0 K a y 0 K' a' y') (h2 : 2 ≤ K) (h2' : 2 ≤ K') (hi : ∀ i, 0 ≤ i → i + 1 < K → a i < a (i + 1))
    (hi' : ∀ i, 0 ≤ i → i + 1 < K' → a' i < a' (i + 1)) : a' 0 = a 0 ∧ a' (K' - 1) = a (K - 1) := by
  constructor
  · apply le_antisymm
    · obtain ⟨j, j1, j2, j3⟩ := R.keep 0 le_rfl (by omega)
      rw [← j3]; exact inc_le hi' 0 j le_rfl j1 j2
    · obtain ⟨i, i1, i2, i3, -⟩ := R.chord 0 le_rfl (by omega)
      exact (inc_le hi 0 i le_rfl i1 (by omega)).trans i3
  · apply le_antisymm
    · obtain ⟨i, i1, i2, -, i4, -⟩ := R.chord (K' - 1) (by omega) (by omega)
      exact i4.trans (inc_le hi (i + 1) (K - 1) (by omega) (by omega) (by omega))
    · obtain ⟨j, j1, j2, j3⟩ := R.keep (K - 1) (by omega) (by omega)
      rw [← j3]; exact inc_le hi' j (K' - 1) j1 (by omega) (by omega)

open Same in
/-- a piece of the finer cast lies in one piece of the coarser cast -/
theorem chords_piece (R : OnChords 0 K a y 0 K' a' y') (h2 : 2 ≤ K) (h2' : 2 ≤ K') (hi : ∀ i, 0 ≤ i → i + 1 < K → a i < a (i + 1))
    (hi' : ∀ i, 0 ≤ i → i + 1 < K' → a' i < a' (i + 1)) {j : ℕ} (hj : j + 1 < K') :
    ∃ i, i + 1 < K ∧ a i ≤ a' j ∧ a' (j + 1) ≤ a (i + 1) := by
  have e1 := (chords_ends R h2 h2' hi hi').2
  have hlt := hi' j (Nat.zero_le _) hj
  obtain ⟨i, i1, i2, i3, i4, -⟩ := R.chord j (Nat.zero_le _) (by omega)
  by_cases hc : a' (j + 1) ≤ a (i + 1)
  · exact ⟨i, i2, i3, hc⟩
  · rw [not_le] at hc
    obtain ⟨q, q1, q2, q3⟩ := R.keep (i + 1) (by omega) i2
    have hq : q < j + 1 := by
      by_contra hn
      have := inc_le hi' (j + 1) q (by omega) (by omega) q2
      rw [q3] at this
      linarith
    have hq' : a (i + 1) ≤ a' j := by
      rw [← q3]; exact inc_le hi' q j q1 (by omega) (by omega)
    have hK : i + 1 + 1 < K := by
      by_contra hn
      have : i + 1 = K - 1 := by omega
      rw [this, ← e1] at hc
      have := inc_le hi' (j + 1) (K' - 1) (by omega) (by omega) (by omega)
      linarith
    obtain ⟨u, u1, u2, u3⟩ := R.keep (i + 1 + 1) (by omega) hK
    refine ⟨i + 1, hK, hq', ?_⟩
    have hinc := hi (i + 1) (by omega) hK
    have hu : j < u := by
      by_contra hn
      have := inc_le hi' u j u1 (by omega) (by omega)
      rw [u3] at this
      linarith
    rw [← u3]
    exact inc_le hi' (j + 1) u (by omega) (by omega) u2

open Same in
/-- data of the finer cast in a given piece of the coarser cast -/
theorem chords_val (R : OnChords 0 K a y 0 K' a' y') (hi : ∀ i, 0 ≤ i → i + 1 < K → a i < a (i + 1)) {i q : ℕ} (hiK : i + 1 < K) (hq : q < K')
    (h1 : a i ≤ a' q) (h2 : a' q ≤ a (i + 1)) : y' q = y i + chord a y i * (a' q - a i) := by
  obtain ⟨r, r1, r2, r3, r4, r5⟩ := R.chord q (Nat.zero_le _) hq
  have di := hi i (Nat.zero_le _) hiK
  have dr := hi r (Nat.zero_le _) r2
  unfold chord
  rw [r5]
  rcases lt_trichotomy i r with h | h | h
  · have h3 := inc_le hi (i + 1) r (by omega) (by omega) (by omega)
    have e : a' q = a (i + 1) := le_antisymm h2 (h3.trans r3)
    have e' : a' q = a r := le_antisymm (h2.trans h3) r3
    have : r = i + 1 := by
      by_contra hn
      have := inc_lt hi (i + 1) r (by omega) (by omega) (by omega)
      linarith
    subst this
    rw [e, sub_self, zero_mul, add_zero, div_mul_cancel₀ _ (by linarith)]
    ring
  · subst h; ring
  · have h3 := inc_le hi (r + 1) i (by omega) (by omega) (by omega)
    have e : a' q = a (r + 1) := le_antisymm r4 (h3.trans h1)
    have : i = r + 1 := by
      by_contra hn
      have := inc_lt hi (r + 1) i (by omega) (by omega) (by omega)
      linarith
    subst this
    rw [e, sub_self, mul_zero, add_zero, mul_div_cancel₀ _ (by linarith)]
    ring

end pieces

/-- The linear interpolant of the model and its slope, by pieces. -/
theorem lin_ppval (H : Profile P S T K a s t) {i : ℕ} (hi : i + 1 < K) {x : ℝ} (h1 : a i ≤ x) (hs : i = 0 ∨ a i < x) (h2 : x ≤ a (i + 1)) :
    ppval1 (fin x) P (linearCoeffs1 P S) 0 = fin (s i + chord a s i * (x - a i)) ∧
    ppval1 (fin x) P (linearCoeffs1 P T) 0 = fin (t i + chord a t i * (x - a i)) ∧
    ppval1 (fin x) P (linearCoeffs1 P S) 1 = fin (chord a s i) ∧ ppval1 (fin x) P (linearCoeffs1 P T) 1 = fin (chord a t i) := by
  have B := H.linCast
  have g3 : (linearCoeffs1 P S).lastCol.get = S.get := by rw [linearCoeffs1_lastCol]
  have g4 : (linearCoeffs1 P T).lastCol.get = T.get := by rw [linearCoeffs1_lastCol]
  have hvr : validRange2 P (linearCoeffs1 P S).lastCol = validRange2 P (linearCoeffs1 P T).lastCol := by
    rw [H.BS.vr_table g3, H.BT.vr_table g4]
  have hsz := B.size
  have hx0 : a 0 ≤ x := (B.mono 0 i (Nat.zero_le _) (by omega)).trans h1
  have hx1 : x ≤ a (K - 1) := le_trans h2 (B.mono (i + 1) (K - 1) (by omega) (by omega))
  have v0 := B.ppval H g3 hx0 hx1 0
  have v1 := B.ppval H g3 hx0 hx1 1
  rw [ppval1Two_eq hvr] at v0 v1
  simp only [Prod.mk.injEq] at v0 v1
  obtain ⟨r1, r2, r3, r4, r5⟩ := pieceEnd_spec B hx0 hx1
  have hl : pieceEnd P (fin x) = i + 1 := by
    generalize pieceEnd P (fin x) = l at *
    rcases lt_trichotomy l (i + 1) with h | h | h
    · have := B.mono l i (by omega) (by omega)
      rcases hs with h0 | h0
      · omega
      · linarith
    · exact h
    · rcases r5 with h5 | h5
      · omega
      · have := B.mono (i + 1) (l - 1) (by omega) (by omega)
        linarith
  rw [hl, Nat.add_sub_cancel] at v0 v1
  refine ⟨v0.1.trans ?_, v0.2.trans ?_, v1.1.trans ?_, v1.2.trans ?_⟩
  · rw [Function.iterate_zero, id, linP_eval]
  · rw [Function.iterate_zero, id, linP_eval]
  · rw [Function.iterate_one, linP_deriv]
  · rw [Function.iterate_one, linP_deriv]

/-- Bottles added on the chords do not change the interpolated data and their slopes. -/
theorem refine_ppval (H : Profile P S T K a s t) (H' : Profile P' S' T' K' a' s' t') (RS : Same.OnChords 0 K a s 0 K' a' s')
    (RT : Same.OnChords 0 K a t 0 K' a' t') {x : ℝ} (h0 : a 0 ≤ x) (h1 : x ≤ a (K - 1)) :
    ppval1 (fin x) P' (linearCoeffs1 P' S') 0 = ppval1 (fin x) P (linearCoeffs1 P S) 0 ∧
    ppval1 (fin x) P' (linearCoeffs1 P' T') 0 = ppval1 (fin x) P (linearCoeffs1 P T) 0 ∧
    ppval1 (fin x) P' (linearCoeffs1 P' S') 1 = ppval1 (fin x) P (linearCoeffs1 P S) 1 ∧
    ppval1 (fin x) P' (linearCoeffs1 P' T') 1 = ppval1 (fin x) P (linearCoeffs1 P T) 1 := by
  have tw := H.BS.two
  have tw' := H'.BS.two
  obtain ⟨e0, e1⟩ := chords_ends RS (by omega) (by omega) H.BS.inc H'.BS.inc
  obtain ⟨r1, r2, r3, r4, r5⟩ := pieceEnd_spec H'.linCast (p := x) (by rw [e0]; exact h0) (by rw [e1]; exact h1)
  generalize pieceEnd P' (fin x) = l at *
  obtain ⟨j, rfl⟩ : ∃ j, l = j + 1 := ⟨l - 1, by omega⟩
  rw [Nat.add_sub_cancel] at r4 r5
  obtain ⟨i, i1, i2, i3⟩ := chords_piece RS (by omega) (by omega) H.BS.inc H'.BS.inc r2
  have hlt := H'.BS.inc j (Nat.zero_le _) r2
  have hs : i = 0 ∨ a i < x := by
    rcases r5 with h | h
    · have : j = 0 := by omega
      subst this
      rw [e0] at i2
      left
      by_contra hn
      have := Same.inc_lt H.BS.inc 0 i le_rfl (by omega) (by omega)
      linarith
    · right; linarith
  obtain ⟨u1, u2, u3, u4⟩ := lin_ppval H' r2 r4 (by rcases r5 with h | h; exact Or.inl (by omega); exact Or.inr h) r3
  obtain ⟨v1, v2, v3, v4⟩ := lin_ppval H i1 (i2.trans r4) hs (r3.trans i3)
  have cS0 := chords_val RS H.BS.inc i1 (q := j) (by omega) i2 (by linarith)
  have cS1 := chords_val RS H.BS.inc i1 (q := j + 1) r2 (by linarith) i3
  have cT0 := chords_val RT H.BS.inc i1 (q := j) (by omega) i2 (by linarith)
  have cT1 := chords_val RT H.BS.inc i1 (q := j + 1) r2 (by linarith) i3
  have hd : a' (j + 1) - a' j ≠ 0 := by linarith
  have dS : chord a' s' j = chord a s i := by
    rw [show chord a' s' j = (s' (j + 1) - s' j) / (a' (j + 1) - a' j) from rfl, cS0, cS1, div_eq_iff hd]; ring
  have dT : chord a' t' j = chord a t i := by
    rw [show chord a' t' j = (t' (j + 1) - t' j) / (a' (j + 1) - a' j) from rfl, cT0, cT1, div_eq_iff hd]; ring
  rw [u1, u2, u3, u4, v1, v2, v3, v4, dS, dT, cS0, cT0]
  refine ⟨?_, ?_, rfl, rfl⟩ <;> congr 1 <;> ring

theorem lin_good : Good (α := ℝ) linC := good_linear

/-- **C180** With linear interpolation in exact arithmetic, bottles added on the chords between the bottles of a cast change the Veronis density by at most
twice the error bound of the trapezoidal rule. -/
theorem veronis_refine (H : Profile P S T K a s t) (H' : Profile P' S' T' K' a' s' t') (RS : Same.OnChords 0 K a s 0 K' a' s')
    (RT : Same.OnChords 0 K a t 0 K' a' t') (hR : FinRho eos ρ) (hE : FinEos eosST rs rt) (hc : ContEos rs rt) {g : ℝ → ℝ}
    (hg : VertGrad linC rs rt P S T (a 0) (a (K - 1)) g) {ζ dp h : ℝ} (hζ : 0 ≤ ζ) (hdp : 0 < dp) (hn : Curved g ζ K a) (hh : ∀ k, k + 1 < K → a (k + 1) - a k ≤ h)
    {b pref p0 p1 : ℝ} (h0 : a 0 ≤ p0 ∧ p0 ≤ a (K - 1)) (h1 : a 0 ≤ p1 ∧ p1 ≤ a (K - 1)) :
    ∃ V V' : ℝ, veronis linC eos eosST S T P (fin p1) (some (fin p0)) (fin pref) (fin b) (fin dp) = some (fin V) ∧
      veronis linC eos eosST S' T' P' (fin p1) (some (fin p0)) (fin pref) (fin b) (fin dp) = some (fin V') ∧
      |V' - V| ≤ |b| * (ζ / 6 * dp ^ 2 * (|p1 - p0| + 2 * h)) := by
  have tw := H.BS.two
  have tw' := H'.BS.two
  obtain ⟨e0, e1⟩ := chords_ends RS (by omega) (by omega) H.BS.inc H'.BS.inc
  obtain ⟨Sc, Tc, s0, t0, V, f1, f2, f3, f4, f5, f6⟩ := veronis_accuracy H lin_good hR hE hc hg hζ hdp hn hh (b := b) (pref := pref) h0 h1
  have hg' : VertGrad linC rs rt P' S' T' (a' 0) (a' (K' - 1)) g := by
    obtain ⟨Sc, Tc, sf, tf, sf', tf', w1, w2, w3⟩ := hg
    obtain rfl := Option.some.inj w1
    obtain rfl := Option.some.inj w2
    refine ⟨_, _, sf, tf, sf', tf', rfl, rfl, fun x hx hx' => ?_⟩
    rw [e0] at hx
    rw [e1] at hx'
    obtain ⟨u1, u2, u3, u4⟩ := refine_ppval H H' RS RT hx.le hx'
    rw [u1, u2, u3, u4]
    exact w3 x hx hx'
  have hn' : Curved g ζ K' a' := by
    intro j hj p hp u x v q1 q2 q3 q4
    obtain ⟨i, i1, i2, i3⟩ := chords_piece RS (by omega) (by omega) H.BS.inc H'.BS.inc hj
    exact hn i i1 p (by linarith) u x v q1 q2 q3 (q4.trans i3)
  have hh' : ∀ k, k + 1 < K' → a' (k + 1) - a' k ≤ h := by
    intro j hj
    obtain ⟨i, i1, i2, i3⟩ := chords_piece RS (by omega) (by omega) H.BS.inc H'.BS.inc hj
    have := hh i i1
    linarith
  obtain ⟨Sc', Tc', s0', t0', V', f1', f2', f3', f4', f5', f6'⟩ := veronis_accuracy H' lin_good hR hE hc hg' hζ hdp hn' hh' (b := b) (pref := pref)
    (by rw [e0, e1]; exact h0) (by rw [e0, e1]; exact h1)
  obtain rfl := Option.some.inj f1
  obtain rfl := Option.some.inj f2
  obtain rfl := Option.some.inj f1'
  obtain rfl := Option.some.inj f2'
  obtain ⟨u1, u2, -, -⟩ := refine_ppval H H' RS RT h0.1 h0.2
  rw [u1, f3] at f3'
  rw [u2, f4] at f4'
  obtain rfl := Fl.fin.inj f3'
  obtain rfl := Fl.fin.inj f4'
  refine ⟨V, V', f5, f5', ?_⟩
  have e : V' - V = (V' - (ρ s0 t0 pref + b * ∫ x in p0..p1, g x)) - (V - (ρ s0 t0 pref + b * ∫ x in p0..p1, g x)) := by ring
  rw [e]
  refine (abs_sub _ _).trans ?_
  nlinarith

/-- **C180** (limit). For any continuous equation of state, the label on the cast with and without the added bottles has the same limit as the step size goes to
zero. -/
theorem veronis_refine_limit (H : Profile P S T K a s t) (H' : Profile P' S' T' K' a' s' t') (RS : Same.OnChords 0 K a s 0 K' a' s')
    (RT : Same.OnChords 0 K a t 0 K' a' t') (hR : FinRho eos ρ) (hE : FinEos eosST rs rt) (hc : ContEos rs rt)
    {b pref p0 p1 : ℝ} (h0 : a 0 ≤ p0 ∧ p0 ≤ a (K - 1)) (h1 : a 0 ≤ p1 ∧ p1 ≤ a (K - 1)) :
    ∃ (V V' : ℝ → ℝ) (L : ℝ), (∀ dp, 0 < dp →
        veronis linC eos eosST S T P (fin p1) (some (fin p0)) (fin pref) (fin b) (fin dp) = some (fin (V dp)) ∧
        veronis linC eos eosST S' T' P' (fin p1) (some (fin p0)) (fin pref) (fin b) (fin dp) = some (fin (V' dp))) ∧
      Tendsto V (𝓝[>] 0) (𝓝 L) ∧ Tendsto V' (𝓝[>] 0) (𝓝 L) := by
  have tw := H.BS.two
  have tw' := H'.BS.two
  obtain ⟨e0, e1⟩ := chords_ends RS (by omega) (by omega) H.BS.inc H'.BS.inc
  obtain ⟨Sc, Tc, sf, tf, sd, td, V, f1, f2, f3, f4, f5⟩ := veronis_converges H lin_good hR hE hc (b := b) (pref := pref) h0 h1
  obtain ⟨Sc', Tc', sf', tf', sd', td', V', f1', f2', f3', f4', f5'⟩ := veronis_converges H' lin_good hR hE hc (b := b) (pref := pref)
    (by rw [e0, e1]; exact h0) (by rw [e0, e1]; exact h1)
  obtain rfl := Option.some.inj f1
  obtain rfl := Option.some.inj f2
  obtain rfl := Option.some.inj f1'
  obtain rfl := Option.some.inj f2'
  have key : ∀ x, a 0 ≤ x → x ≤ a (K - 1) → sf' x = sf x ∧ tf' x = tf x ∧ sd' x = sd x ∧ td' x = td x := by
    intro x hx hx'
    obtain ⟨u1, u2, u3, u4⟩ := refine_ppval H H' RS RT hx hx'
    obtain ⟨v1, v2, v3, v4⟩ := f3 x hx hx'
    obtain ⟨w1, w2, w3, w4⟩ := f3' x (by rw [e0]; exact hx) (by rw [e1]; exact hx')
    rw [u1, v1] at w1
    rw [u2, v2] at w2
    rw [u3, v3] at w3
    rw [u4, v4] at w4
    exact ⟨(Fl.fin.inj w1).symm, (Fl.fin.inj w2).symm, (Fl.fin.inj w3).symm, (Fl.fin.inj w4).symm⟩
  refine ⟨V, V', _, fun dp hdp => ⟨f4 dp hdp, f4' dp hdp⟩, f5, ?_⟩
  have hint : (∫ x in p0..p1, (rs (sf' x) (tf' x) x * sd' x + rt (sf' x) (tf' x) x * td' x)) =
      ∫ x in p0..p1, (rs (sf x) (tf x) x * sd x + rt (sf x) (tf x) x * td x) := by
    apply integral_congr
    intro x hx
    obtain ⟨k1, k2, k3, k4⟩ := key x ((le_min h0.1 h1.1).trans hx.1) (hx.2.trans (max_le h0.2 h1.2))
    simp only [k1, k2, k3, k4]
  rw [hint, (key p0 h0.1 h0.2).1, (key p0 h0.1 h0.2).2.1] at f5'
  exact f5'

/-! ## The theorems apply; the labels do differ -/

/-- The cast of C152 with the bottle in the middle added. -/
def mArr (f : ℕ → ℝ) : Arr (Fl ℝ) := ⟨3, fun i => fin (f i)⟩

theorem mProfile : Profile (mArr fun i => i) (mArr fun i => 34 + i) (mArr fun _ => 0) 3 (fun i => i) (fun i => 34 + i) (fun _ => 0) := by
  have B : ∀ y : ℕ → ℝ, Block (mArr fun i => i) (mArr y) 0 3 (fun i => i) y := by
    intro y
    have C : Traj.Col (mArr fun i => i) (mArr y) 0 3 (fun i => i) y := ⟨rfl, by omega, le_refl _, fun i hi => absurd hi (by omega),
      fun h => absurd h (lt_irrefl 3), fun _ _ _ => rfl, fun i _ hi => rfl, fun i _ _ => by push_cast; linarith⟩
    exact ⟨C.size.symm, C.vr.1, C.two, C.hX, C.hY, C.inc⟩
  exact ⟨fun _ _ => rfl, fun i _ => by push_cast; linarith, B _, B _⟩

theorem mChords (c m : ℝ) : Same.OnChords 0 2 (fun i => 2 * (1 : ℝ) * i) (fun i => c + 2 * (m * i)) 0 3 (fun i => (i : ℝ)) (fun i => c + m * i) := by
  constructor
  · intro i _ hi
    exact ⟨2 * i, by omega, by omega, by push_cast; ring⟩
  · intro j _ hj
    refine ⟨0, le_rfl, by omega, by simp, ?_, ?_⟩
    · have : (j : ℝ) ≤ 2 := by exact_mod_cast (by omega : j ≤ 2)
      push_cast; linarith
    · push_cast; ring

/-- Two bottles at 0 and 2 dbar and a third in the middle: the labels differ by at most 1/30 where the step size is 1/10. -/
example {p1 : ℝ} (h1 : 0 ≤ p1) (h2 : p1 ≤ 2) : ∃ V V' : ℝ,
    veronis linC (jEos 1) (jST 1) jS jT (jP 1) (fin p1) (some (fin 0)) (fin 0) (fin 1) (fin (1 / 10)) = some (fin V) ∧
    veronis linC (jEos 1) (jST 1) (mArr fun i => 34 + i) (mArr fun _ => 0) (mArr fun i => i) (fin p1) (some (fin 0)) (fin 0) (fin 1) (fin (1 / 10)) = some (fin V') ∧
    |V' - V| ≤ 1 / 30 := by
  have RS := mChords 34 1
  have RT := mChords 0 0
  simp only [one_mul, zero_mul, mul_zero, add_zero] at RS RT
  have h1' := jProfile (d := 1) one_pos
  have hg := jGrad (d := 1) one_pos
  have hc := jCurved (d := 1) one_pos
  simp only [mul_one] at h1' hg hc RS RT
  obtain ⟨V, V', e1, e2, e3⟩ := veronis_refine h1' mProfile RS RT jRho jFin jCont hg (by norm_num) (dp := 1 / 10) (by norm_num) hc (h := 2)
    (fun k hk => by push_cast; linarith) (b := 1) (pref := 0) (p0 := 0) (p1 := p1) (by norm_num) (by norm_num; exact ⟨h1, h2⟩)
  refine ⟨V, V', e1, e2, e3.trans ?_⟩
  rw [sub_zero, abs_of_nonneg h1]
  norm_num
  linarith

example {p1 : ℝ} (h1 : 0 ≤ p1) (h2 : p1 ≤ 2) : ∃ (V V' : ℝ → ℝ) (L : ℝ), (∀ dp, 0 < dp →
    veronis linC (jEos 1) (jST 1) jS jT (jP 1) (fin p1) (some (fin 0)) (fin 0) (fin 1) (fin dp) = some (fin (V dp)) ∧
    veronis linC (jEos 1) (jST 1) (mArr fun i => 34 + i) (mArr fun _ => 0) (mArr fun i => i) (fin p1) (some (fin 0)) (fin 0) (fin 1) (fin dp) = some (fin (V' dp))) ∧
    Tendsto V (𝓝[>] 0) (𝓝 L) ∧ Tendsto V' (𝓝[>] 0) (𝓝 L) := by
  have RS := mChords 34 1
  have RT := mChords 0 0
  simp only [one_mul, zero_mul, mul_zero, add_zero] at RS RT
  have h1' := jProfile (d := 1) one_pos
  simp only [mul_one] at h1'
  simp only [mul_one] at RS RT
  exact veronis_refine_limit h1' mProfile RS RT jRho jFin jCont (by norm_num) (by norm_num; exact ⟨h1, h2⟩)

/-- **C180** The label does change: with the bottle in the middle and a step as long as the cast, the label of the bottom bottle is 39 and not 40. -/
theorem veronis_refine_differs :
    veronis (F := Fl ℚ) linC (fun s _ _ => s) (fun _ _ p => (Fl.fin 1 + p * p, Fl.fin 0)) ⟨2, fun i => Fl.fin (34 + 2 * i)⟩ ⟨2, fun _ => Fl.fin 0⟩ ⟨2, fun i => Fl.fin (2 * i)⟩
      (Fl.fin 2) (some (Fl.fin 0)) (Fl.fin 0) (Fl.fin 1) (Fl.fin 2) = some (Fl.fin 40) ∧
    veronis (F := Fl ℚ) linC (fun s _ _ => s) (fun _ _ p => (Fl.fin 1 + p * p, Fl.fin 0)) ⟨3, fun i => Fl.fin (34 + i)⟩ ⟨3, fun _ => Fl.fin 0⟩ ⟨3, fun i => Fl.fin i⟩
      (Fl.fin 2) (some (Fl.fin 0)) (Fl.fin 0) (Fl.fin 1) (Fl.fin 2) = some (Fl.fin 39) := by
  decide +kernel

end Label
