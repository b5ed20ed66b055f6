import Verif.Props.Tiles

/-! # How potential density and anomaly surfaces move with their pin (C187) -/

set_option linter.unusedSectionVars false

namespace Isopycnal
open FloatLike Fzero Interp Traj VertSolve Same Lib
open Fl hiding nan

variable {eos : Fl ℝ → Fl ℝ → Fl ℝ → Fl ℝ} {e : ℝ → ℝ → ℝ → ℝ} {smin : ℝ} {kind : PPKind} {f : ℝ → ℝ → ℝ → ℝ} {m L tol v v' : ℝ} {n N : ℕ}
  {casts : ℕ → Cast (Fl ℝ)} {ty : Ans} {ref : RefArg (Fl ℝ)}

/-- Two solutions on one cast for isovalues `v ≤ v'`: their distance is that of the isovalues over the stratification. -/
theorem Solved.between {c : Cast (Fl ℝ)} {A B : ℝ} (H : Strat kind f m L smin tol n c A B) (hm : 0 < m) (hL : 0 < L) (hv : v ≤ v') {r r' : Fl ℝ × Fl ℝ × Fl ℝ}
    (h : Solved kind c A B (fun s t p => f s t p - v) tol r) (h' : Solved kind c A B (fun s t p => f s t p - v') tol r') {p p' : ℝ} (hp : r.2.2 = fin p) (hp' : r'.2.2 = fin p') :
    (v' - v) / L - acc tol p - acc tol p' ≤ p' - p ∧ p' - p ≤ (v' - v) / m + acc tol p + acc tol p' := by
  obtain ⟨gS, gT, hi, h⟩ := h
  obtain ⟨gS', gT', hi', h'⟩ := h'
  rcases h with ⟨rfl, -⟩ | ⟨q, z, rfl, a1, a2, a3, a4, a5, a6⟩
  · cases hp
  rcases h' with ⟨rfl, -⟩ | ⟨q', z', rfl, b1, b2, b3, b4, b5, b6⟩
  · cases hp'
  cases hp
  cases hp'
  have hz : z ≤ z' := by
    by_contra hlt
    rw [not_le] at hlt
    have := (H.rate z' z _ _ _ _ b3 hlt.le a4 (hi' z' b3 b4) (hi z a3 a4)).1
    have h1 : 0 < m * (z - z') := mul_pos hm (by linarith)
    linarith
  obtain ⟨r1, r2⟩ := H.rate z z' _ _ _ _ a3 hz b4 (hi z a3 a4) (hi' z' b3 b4)
  have e1 : f (gS' z') (gT' z') z' - f (gS z) (gT z) z = v' - v := by linarith
  rw [e1] at r1 r2
  have l1 : (v' - v) / L ≤ z' - z := by rw [div_le_iff₀ hL]; linarith
  have l2 : z' - z ≤ (v' - v) / m := by rw [le_div_iff₀ hm]; linarith
  have a6 : |z - p| ≤ acc tol p := a6
  have b6 : |z' - p'| ≤ acc tol p' := b6
  rw [abs_le] at a6 b6
  constructor <;> linarith

/-- **C187.** Two surfaces with the same reference pinned on one cast at pressures `x ≤ x'`.  Where both are found on another cast, the second is deeper, by at least `m / L` and at most
`L / m` times `x' - x`, up to the accuracy of the root finder; and where the first is found, at least so far above the bottom, the second is found too. -/
theorem isopycnal_pins (E : EosOn eos e smin) (hV : Constant e smin f ty ref) (htol : 0 < tol) (hm : 0 < m) (hL : 0 < L)
    (hc : ∀ j < N, Few (casts j) ∨ ∃ A B, Strat kind f m L smin tol n (casts j) A B) {j0 : ℕ} (hj0 : j0 < N) {A0 B0 : ℝ} (H0 : Strat kind f m L smin tol n (casts j0) A0 B0)
    {x x' : ℝ} (hA : A0 ≤ x) (hx : x ≤ x') (hB : x' ≤ B0) :
    ∃ stp stp' v v',
      isopycnal (n + 13) (fin tol) kind eos ty ref none (some (j0 : ℤ)) (.float (fin x)) casts N = .ok (stp, ref, fin v) ∧
      isopycnal (n + 13) (fin tol) kind eos ty ref none (some (j0 : ℤ)) (.float (fin x')) casts N = .ok (stp', ref, fin v') ∧
      m * (x' - x) ≤ v' - v ∧ v' - v ≤ L * (x' - x) ∧
      ∀ j < N, ∀ A B, Strat kind f m L smin tol n (casts j) A B → ∀ s t p, stp j = (fin s, fin t, fin p) →
        (∀ s' t' p', stp' j = (fin s', fin t', fin p') →
          m / L * (x' - x) - acc tol p - acc tol p' ≤ p' - p ∧ p' - p ≤ L / m * (x' - x) + acc tol p + acc tol p') ∧
        (p + L / m * (x' - x) + acc tol p ≤ B → ∃ s' t' p', stp' j = (fin s', fin t', fin p')) := by
  obtain ⟨s, t, -, g2, -⟩ := (pin_at H0 x).1 ⟨hA, hx.trans hB⟩
  obtain ⟨s', t', -, g2', -⟩ := (pin_at H0 x').1 ⟨hA.trans hx, hB⟩
  obtain ⟨stp, h1, h2⟩ := isopycnal_pin_returns E hV htol hc hj0 H0 ⟨hA, hx.trans hB⟩ g2
  obtain ⟨stp', h1', h2'⟩ := isopycnal_pin_returns E hV htol hc hj0 H0 ⟨hA.trans hx, hB⟩ g2'
  obtain ⟨r1, r2⟩ := H0.rate x x' _ _ _ _ hA hx hB g2 g2'
  have hv : f s t x ≤ f s' t' x' := by
    have := mul_nonneg hm.le (sub_nonneg.2 hx)
    linarith
  refine ⟨stp, stp', _, _, h1, h1', r1, r2, ?_⟩
  have hm' : (f s' t' x' - f s t x) / m ≤ L / m * (x' - x) := by
    rw [div_le_iff₀ hm]
    calc _ ≤ L * (x' - x) := r2
      _ = L / m * (x' - x) * m := by field_simp
  have hL' : m / L * (x' - x) ≤ (f s' t' x' - f s t x) / L := by
    rw [le_div_iff₀ hL]
    calc m / L * (x' - x) * L = m * (x' - x) := by field_simp
      _ ≤ _ := r1
  intro j hj A B H s1 t1 p hp
  have S1 := isopycnal_at E hV htol h1 (Or.inl rfl) hj H hp
  constructor
  · intro s2 t2 p' hp'
    have S2 := isopycnal_at E hV htol h1' (Or.inl rfl) hj H hp'
    obtain ⟨w1, w2⟩ := Solved.between H hm hL hv S1 S2 (p := p) (p' := p') (by rw [hp]) (by rw [hp'])
    constructor <;> linarith
  · intro hB'
    by_cases hjj : j = j0
    · subst hjj; exact ⟨_, _, _, h2'⟩
    obtain ⟨zf, z1, z2⟩ := isopycnal_zero h1'
    obtain ⟨r, q1, q2⟩ := solved_of_solve E hV htol z1 H
    have e1 := z2 j hj (by
      rintro i - hi hi'
      cases hi
      rw [npIdx_nat hj0] at hi'
      exact hjj (Option.some.inj hi').symm)
    rw [q1] at e1
    cases e1
    obtain ⟨gS', gT', hi', hr⟩ := q2
    rcases hr with ⟨-, hpos⟩ | ⟨_, _, hq, -⟩
    · exfalso
      obtain ⟨gS, gT, hi, hr⟩ := S1
      rcases hr with ⟨hn, -⟩ | ⟨q, z, hq, a1, a2, a3, a4, a5, a6⟩
      · rw [hp] at hn; cases hn
      rw [hp] at hq
      cases hq
      have a6 : |z - p| ≤ acc tol p := a6
      rw [abs_le] at a6
      have hAB : A ≤ B := a3.trans a4
      have l1 := (H.rate A z _ _ _ _ le_rfl a3 a4 (hi' A le_rfl hAB) (hi z a3 a4)).1
      have l2 := (H.rate z B _ _ _ _ a3 a4 le_rfl (hi z a3 a4) (hi' B hAB le_rfl)).1
      have n1 : 0 ≤ m * (z - A) := mul_nonneg hm.le (by linarith)
      have n2 : f s' t' x' - f s t x ≤ m * (B - z) := by
        have := (div_le_iff₀ hm).1 (hm'.trans (show L / m * (x' - x) ≤ B - z by linarith))
        linarith
      have p1 : f (gS' A) (gT' A) A - f s' t' x' ≤ 0 := by linarith
      have p2 : 0 ≤ f (gS' B) (gT' B) B - f s' t' x' := by linarith
      exact absurd hpos (not_lt.2 (mul_nonpos_of_nonpos_of_nonneg p1 p2))
    · exact ⟨_, _, _, hq⟩

/-- The surfaces through pressures 2 and 4 of the first of seven casts. -/
example (kind : PPKind) : ∃ stp stp' v v', isopycnal 25 (fin 1) kind (fun s t _ => s - t) .potential (.float (fin 0)) none (some (0 : ℕ)) (.float (fin 2)) rpCasts 7 =
      .ok (stp, .float (fin 0), fin v) ∧
    isopycnal 25 (fin 1) kind (fun s t _ => s - t) .potential (.float (fin 0)) none (some (0 : ℕ)) (.float (fin 4)) rpCasts 7 = .ok (stp', .float (fin 0), fin v') ∧
    v' - v = 6 ∧ ∀ j < 7, ∀ s t p s' t' p', stp j = (fin s, fin t, fin p) → stp' j = (fin s', fin t', fin p') → |p' - p - 2| ≤ acc 1 p + acc 1 p' := by
  obtain ⟨stp, stp', v, v', h1, h2, h3, h4, h5⟩ := isopycnal_pins (L := 3) exEos (ty := .potential) (ref := .float (fin 0)) ⟨0, rfl, rfl⟩ one_pos (by norm_num : (0:ℝ) < 3) (by norm_num)
    (fun j _ => Or.inr ⟨0, 6, (rp_strat kind j).1⟩) (N := 7) (j0 := 0) (by omega) (rp_strat kind 0).1 (x := 2) (x' := 4) (by norm_num) (by norm_num) (by norm_num)
  refine ⟨stp, stp', v, v', h1, h2, by linarith, ?_⟩
  intro j hj s t p s' t' p' e e'
  obtain ⟨k1, k2⟩ := (h5 j hj 0 6 (rp_strat kind j).1 s t p e).1 s' t' p' e'
  rw [abs_le]
  constructor <;> linarith

end Isopycnal
