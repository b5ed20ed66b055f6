import Verif.Props.Order
import Verif.Lemmas.Rounding
set_option linter.unusedSectionVars false

/-!
# Neutral links and trajectories keep their order (C161)

Where the vertical stratification exceeds the thermobaric effect; a counterexample where it does not.
-/

namespace VertSolve
open FloatLike Fzero Interp Traj
open Fl hiding nan

variable {c : Cast (Fl ℝ)} {k K : ℕ} {a s t : ℕ → ℝ} {eos : Fl ℝ → Fl ℝ → Fl ℝ → Fl ℝ} {e : ℝ → ℝ → ℝ → ℝ} {smin : ℝ}

/-- **C161.** Two points of a cast, the first not deeper, are linked to points of the next cast which are in the same order, up to the accuracy of the two
solves; their distance is between `m/L` and `L/m` times that of the two points, up to the accuracy. -/
theorem ntp_order_partial (kind : PPKind) (E : EosOn eos e smin) {c1 c2 : Cast (Fl ℝ)} {A1 B1 : ℝ} {k2 K2 : ℕ} {a2 s2 t2 : ℕ → ℝ}
    (G2 : GoodCast c2 k2 K2 a2 s2 t2) (hs2 : ∀ i, k2 ≤ i → i < K2 → smin ≤ s2 i)
    {tol m L : ℝ} (htol : 0 < tol) (hm : 0 < m) (hL : 0 < L) (n : ℕ) (hn2 : 2 * (a2 (K2 - 1) - a2 k2) / tol ≤ n)
    (hD : Sloped e kind c1 c2 A1 B1 (a2 k2) (a2 (K2 - 1)) m L) (hD' : Sloped e kind c2 c1 (a2 k2) (a2 (K2 - 1)) A1 B1 m L)
    {p σ τ p' σ' τ' q q' : ℝ} {x y x' y' : Fl ℝ} (h1 : A1 ≤ p) (hpp : p ≤ p') (h1' : p' ≤ B1) (hp : At kind c1 p σ τ) (hp' : At kind c1 p' σ' τ')
    (hσ : smin ≤ σ) (hσ' : smin ≤ σ')
    (hl : ntpBottleToCast (n + 13) (fin tol) eos kind (fin σ) (fin τ) (fin p) c2 = .ret (x, y, fin q))
    (hl' : ntpBottleToCast (n + 13) (fin tol) eos kind (fin σ') (fin τ') (fin p') c2 = .ret (x', y', fin q')) :
    m / L * (p' - p) - (acc tol q + acc tol q') ≤ q' - q ∧ q' - q ≤ L / m * (p' - p) + (acc tol q + acc tol q') := by
  obtain ⟨gS, gT, hi, g⟩ := ntp_spec kind E G2 hs2 (sB := σ) (tB := τ) (pB := p) hσ htol n hn2
  obtain ⟨gS', gT', hi', g'⟩ := ntp_spec kind E G2 hs2 (sB := σ') (tB := τ') (pB := p') hσ' htol n hn2
  rcases g with ⟨g, -⟩ | ⟨q1, z, g, b1, b2, b3, b4, b5, b6⟩
  · rw [hl] at g; cases g
  rcases g' with ⟨g', -⟩ | ⟨q1', z', g', d1, d2, d3, d4, d5, d6⟩
  · rw [hl'] at g'; cases g'
  rw [hl] at g
  cases g
  rw [hl'] at g'
  cases g'
  -- the difference of the point `p'` and the point `z`
  have l1 := hD.lower p p' z _ _ _ _ _ _ h1 hpp h1' b3 b4 hp hp' (hi z b3 b4)
  have u1 := hD'.upper z p p' _ _ _ _ _ _ b3 b4 h1 (hpp.trans h1') (h1.trans hpp) h1' (hi z b3 b4) hp hp'
  have u2 := hD.upper p' z z' _ _ _ _ _ _ (h1.trans hpp) h1' b3 b4 d3 d4 hp' (hi z b3 b4) (hi' z' d3 d4)
  rw [b5, sub_self, sub_zero] at l1
  rw [add_comm z p', add_comm z p, b5, sub_self, sub_zero, abs_of_nonneg (by linarith : 0 ≤ p' - p), abs_sub_comm] at u1
  rw [d5, sub_self, zero_sub, abs_neg] at u2
  set X := e σ' τ' ((p' + z) / 2) - e (gS z) (gT z) ((p' + z) / 2) with hX
  have hX0 : 0 ≤ X := (mul_nonneg hm.le (by linarith)).trans l1
  rw [abs_of_nonneg hX0] at u1 u2
  have hzz : z ≤ z' := by
    by_contra h
    have l2 := hD'.lower z' z p' _ _ _ _ _ _ d3 (not_le.1 h).le b4 (h1.trans hpp) h1' (hi' z' d3 d4) (hi z b3 b4) hp'
    rw [add_comm z p', add_comm z' p', d5, sub_self, sub_zero] at l2
    have : 0 < m * (z - z') := mul_pos hm (by linarith [not_le.1 h])
    linarith
  rw [abs_of_nonneg (by linarith : 0 ≤ z' - z)] at u2
  have l3 := hD'.lower z z' p' _ _ _ _ _ _ b3 hzz d4 (h1.trans hpp) h1' (hi z b3 b4) (hi' z' d3 d4) hp'
  rw [add_comm z p', add_comm z' p', d5, sub_self, zero_sub] at l3
  have e1 : m / L * (p' - p) ≤ z' - z := by
    rw [div_mul_eq_mul_div, div_le_iff₀ hL]
    linarith
  have e2 : z' - z ≤ L / m * (p' - p) := by
    rw [div_mul_eq_mul_div, le_div_iff₀ hm]
    linarith
  unfold acc
  rw [abs_le] at b6 d6
  constructor <;> linarith [b6.1, b6.2, d6.1, d6.2]

/-- The points of a trajectory which exists on all casts, and its links. -/
theorem trajectory_points {kind : PPKind} {tol m L ε : ℝ} {n N : ℕ} {c : ℕ → Cast (Fl ℝ)} {A B : ℕ → ℝ} (E : EosOn eos e smin)
    (htol : 0 < tol) (hS : Section eos e smin kind tol m L ε n N c A B) {p0 : ℝ} (h0 : A 0 ≤ p0) (h0' : p0 ≤ B 0)
    {out : List (Fl ℝ × Fl ℝ × Fl ℝ)} (hout : neutralTrajectory (n + 13) (fin tol) eos kind (fin p0) ((List.range (N + 1)).map c) = .ret out)
    {p : ℕ → ℝ} (hp : ∀ i, i ≤ N → ∃ x y, out[i]? = some (x, y, fin (p i))) :
    p 0 = p0 ∧ ∃ σ τ : ℕ → ℝ, (∀ i, i ≤ N → A i ≤ p i ∧ p i ≤ B i ∧ At kind (c i) (p i) (σ i) (τ i)) ∧
      ∀ i, i < N → ntpBottleToCast (n + 13) (fin tol) eos kind (fin (σ i)) (fin (τ i)) (fin (p i)) (c (i + 1)) =
        .ret (fin (σ (i + 1)), fin (τ (i + 1)), fin (p (i + 1))) := by
  have hran : (List.range (N + 1)).map c = c 0 :: ((List.range N).map (· + 1)).map c := by
    rw [List.range_succ_eq_map]; rfl
  rw [hran] at hout
  obtain ⟨s0, t0, rest, rfl, hlk⟩ := trajectory_spec (by rfl) hout
  have hout' := hout
  unfold neutralTrajectory at hout'
  obtain ⟨b0, hst0, -⟩ := bind_ret hout'
  have hlen : rest.length = N := by
    have := hlk.length
    simpa using this
  have hfin : ∀ x ∈ (s0, t0, fin p0) :: rest, isNaN x.2.2 = false := by
    intro x hx
    obtain ⟨i, hi, rfl⟩ := List.mem_iff_getElem.mp hx
    obtain ⟨u, v, h⟩ := hp i (by simp [hlen] at hi; omega)
    rw [List.getElem?_eq_getElem hi] at h
    rw [Option.some.inj h]
    rfl
  obtain ⟨-, hlinks⟩ := linked_links c _ _ _ hlk hfin
  -- each point of the way there is on its cast
  have hpt : ∀ i, i ≤ N → ∃ σ τ, ((s0, t0, fin p0) :: rest)[i]? = some (fin σ, fin τ, fin (p i)) ∧ A i ≤ p i ∧ p i ≤ B i ∧ At kind (c i) (p i) σ τ := by
    intro i
    induction i with
    | zero =>
      intro _
      obtain ⟨k, K, a, s, t, G, hs, e1, e2⟩ := hS.good 0 (Nat.zero_le _)
      obtain ⟨σ, τ, hat, hst⟩ := curves_at (x := p0) kind G hs (by rw [e1]; exact h0) (by rw [e2]; exact h0')
      obtain ⟨x, y, h⟩ := hp 0 (Nat.zero_le _)
      simp only [List.getElem?_cons_zero, Option.some.injEq, Prod.mk.injEq, Fl.fin.injEq] at h
      have hb : b0 = (s0, t0, fin p0) := by
        have h2 := hout
        simp only [neutralTrajectory] at h2
        rw [hst0] at h2
        simp only [Outcome.bind] at h2
        split_ifs at h2
        · cases h2; rfl
        · obtain ⟨r, -, h2⟩ := bind_ret (o := trajLoop (n + 13) (fin tol) eos kind b0 _) h2
          cases h2; rfl
      rw [hst, hb] at hst0
      cases hst0
      refine ⟨σ, τ, ?_, ?_, ?_, ?_⟩
      · rw [← h.2.2]; rfl
      all_goals rw [← h.2.2]
      exacts [h0, h0', hat]
    | succ i ih =>
      intro hi
      obtain ⟨σ, τ, g1, g2, g3, g4⟩ := ih (by omega)
      obtain ⟨x, y, e1, e2, e3⟩ := hlinks i (by simp; omega)
      rw [g1] at e1
      cases e1
      simp only [List.getElem_map, List.getElem_range] at e3
      obtain ⟨x', y', h⟩ := hp (i + 1) hi
      rw [List.getElem?_cons_succ, e2] at h
      cases h
      obtain ⟨k, K, a, s, t, G, hs, f1, f2⟩ := hS.good (i + 1) hi
      obtain ⟨k', K', a', s', t', G', hs', f1', f2'⟩ := hS.good i (by omega)
      have hf := hS.fuel (i + 1) hi
      rw [← f1, ← f2] at hf
      have hsB : smin ≤ σ := at_smin kind G' hs' (by rw [f1']; exact g2) (by rw [f2']; exact g3) g4
      obtain ⟨σ1, τ1, rfl, rfl, q1, q2, q3⟩ := link_at kind E G hs hsB htol n hf e3
      rw [f1] at q2
      rw [f2] at q3
      exact ⟨σ1, τ1, by rw [List.getElem?_cons_succ, e2], q2, q3, q1⟩
  have hpt' : ∀ i, ∃ σ τ, i ≤ N → ((s0, t0, fin p0) :: rest)[i]? = some (fin σ, fin τ, fin (p i)) ∧ A i ≤ p i ∧ p i ≤ B i ∧ At kind (c i) (p i) σ τ := by
    intro i
    by_cases hi : i ≤ N
    · obtain ⟨σ, τ, h⟩ := hpt i hi
      exact ⟨σ, τ, fun _ => h⟩
    · exact ⟨0, 0, fun h => absurd h hi⟩
  choose σ τ hpt using hpt'
  have hl : ∀ i, i < N → ntpBottleToCast (n + 13) (fin tol) eos kind (fin (σ i)) (fin (τ i)) (fin (p i)) (c (i + 1)) =
      .ret (fin (σ (i + 1)), fin (τ (i + 1)), fin (p (i + 1))) := by
    intro i hi
    obtain ⟨x, y, e1, e2, e3⟩ := hlinks i (by simpa using hi)
    rw [(hpt i hi.le).1] at e1
    cases e1
    have h := (hpt (i + 1) hi).1
    rw [List.getElem?_cons_succ, e2] at h
    cases h
    simpa using e3
  refine ⟨?_, σ, τ, fun i hi => (hpt i hi).2, hl⟩
  obtain ⟨x, y, h⟩ := hp 0 (Nat.zero_le _)
  simp only [List.getElem?_cons_zero, Option.some.injEq, Prod.mk.injEq, Fl.fin.injEq] at h
  exact h.2.2.symm

/-- Largest distance after `i` links, from `d`. -/
def farthest (ε ρ : ℝ) : ℕ → ℝ → ℝ
  | 0, d => d
  | i + 1, d => ρ * farthest ε ρ i d + 2 * ε

/-- Smallest distance after `i` links, from `d`, as long as it is not negative. -/
def nearest (ε ρ : ℝ) : ℕ → ℝ → ℝ
  | 0, d => d
  | i + 1, d => ρ * nearest ε ρ i d - 2 * ε

theorem farthest_nonneg {ε ρ d : ℝ} (hε : 0 ≤ ε) (hρ : 0 ≤ ρ) (hd : 0 ≤ d) : ∀ i, 0 ≤ farthest ε ρ i d
  | 0 => hd
  | i + 1 => by
    have := mul_nonneg hρ (farthest_nonneg hε hρ hd i)
    show 0 ≤ ρ * farthest ε ρ i d + 2 * ε
    linarith

/-- **C161.** Two trajectories along the same casts, the first starting not deeper than the second: they do not cross by more than the solvers' errors, they do not
get farther apart than predicted, and they do not cross at all as long as the predicted smallest distance is not negative. -/
theorem trajectory_order_partial {kind : PPKind} {tol m L ε : ℝ} {n N : ℕ} {c : ℕ → Cast (Fl ℝ)} {A B : ℕ → ℝ} (E : EosOn eos e smin)
    (htol : 0 < tol) (hm : 0 < m) (hL : 0 < L) (hS : Section eos e smin kind tol m L ε n N c A B)
    (hback : ∀ i, i < N → Sloped e kind (c (i + 1)) (c i) (A (i + 1)) (B (i + 1)) (A i) (B i) m L)
    {p0 p0' : ℝ} (h0 : A 0 ≤ p0) (h00 : p0 ≤ p0') (h0' : p0' ≤ B 0) {out out' : List (Fl ℝ × Fl ℝ × Fl ℝ)}
    (hout : neutralTrajectory (n + 13) (fin tol) eos kind (fin p0) ((List.range (N + 1)).map c) = .ret out)
    (hout' : neutralTrajectory (n + 13) (fin tol) eos kind (fin p0') ((List.range (N + 1)).map c) = .ret out')
    {p p' : ℕ → ℝ} (hp : ∀ i, i ≤ N → ∃ x y, out[i]? = some (x, y, fin (p i))) (hp' : ∀ i, i ≤ N → ∃ x y, out'[i]? = some (x, y, fin (p' i))) :
    ∀ i, i ≤ N → -farthest ε (L / m) i 0 ≤ p' i - p i ∧ p' i - p i ≤ farthest ε (L / m) i (p0' - p0) ∧
      ((∀ j, j < i → 0 ≤ nearest ε (m / L) j (p0' - p0)) → nearest ε (m / L) i (p0' - p0) ≤ p' i - p i) := by
  obtain ⟨e0, σ, τ, hpt, hl⟩ := trajectory_points E htol hS h0 (h00.trans h0') hout hp
  obtain ⟨e0', σ', τ', hpt', hl'⟩ := trajectory_points E htol hS (h0.trans h00) h0' hout' hp'
  have hρ : 0 ≤ L / m := (div_pos hL hm).le
  have hε : 0 ≤ ε := by
    refine le_trans ?_ (hS.acc 0 (Nat.zero_le _) _ (hpt 0 (Nat.zero_le _)).1 (hpt 0 (Nat.zero_le _)).2.1)
    unfold acc
    positivity
  -- one link, in either order
  have step : ∀ i, i < N →
      (0 ≤ p' i - p i → m / L * (p' i - p i) - 2 * ε ≤ p' (i + 1) - p (i + 1) ∧ p' (i + 1) - p (i + 1) ≤ L / m * (p' i - p i) + 2 * ε) ∧
      (p' i - p i ≤ 0 → L / m * (p' i - p i) - 2 * ε ≤ p' (i + 1) - p (i + 1) ∧ p' (i + 1) - p (i + 1) ≤ m / L * (p' i - p i) + 2 * ε) := by
    intro i hi
    obtain ⟨k, K, a, s, t, G, hs, f1, f2⟩ := hS.good (i + 1) hi
    obtain ⟨k0, K0, a0, s0, t0, G0, hs0, g1, g2⟩ := hS.good i hi.le
    have hf := hS.fuel (i + 1) hi
    have hD := hS.sloped i hi
    have hD' := hback i hi
    rw [← f1, ← f2] at hf hD hD'
    obtain ⟨a1, a2, a3⟩ := hpt i hi.le
    obtain ⟨b1, b2, b3⟩ := hpt' i hi.le
    have hsm : smin ≤ σ i := at_smin kind G0 hs0 (by rw [g1]; exact a1) (by rw [g2]; exact a2) a3
    have hsm' : smin ≤ σ' i := at_smin kind G0 hs0 (by rw [g1]; exact b1) (by rw [g2]; exact b2) b3
    have c1 := hS.acc (i + 1) hi _ (hpt (i + 1) hi).1 (hpt (i + 1) hi).2.1
    have c2 := hS.acc (i + 1) hi _ (hpt' (i + 1) hi).1 (hpt' (i + 1) hi).2.1
    constructor
    · intro h
      have := ntp_order_partial kind E G hs htol hm hL n hf hD hD' a1 (by linarith) b2 a3 b3 hsm hsm' (hl i hi) (hl' i hi)
      constructor <;> linarith [this.1, this.2]
    · intro h
      have := ntp_order_partial kind E G hs htol hm hL n hf hD hD' b1 (by linarith) a2 b3 a3 hsm' hsm (hl' i hi) (hl i hi)
      have z1 : L / m * (p i - p' i) = -(L / m * (p' i - p i)) := by ring
      have z2 : m / L * (p i - p' i) = -(m / L * (p' i - p i)) := by ring
      rw [z1, z2] at this
      constructor <;> linarith [this.1, this.2]
  intro i
  induction i with
  | zero =>
    intro _
    rw [e0, e0']
    refine ⟨?_, le_rfl, fun _ => le_rfl⟩
    show -(0 : ℝ) ≤ _
    linarith
  | succ i ih =>
    intro hi
    obtain ⟨i1, i2, i3⟩ := ih (by omega)
    obtain ⟨s1, s2⟩ := step i hi
    have n0 := farthest_nonneg hε hρ le_rfl i
    have nd := farthest_nonneg (d := p0' - p0) hε hρ (by linarith) i
    have w1 : farthest ε (L / m) (i + 1) 0 = L / m * farthest ε (L / m) i 0 + 2 * ε := rfl
    have w2 : farthest ε (L / m) (i + 1) (p0' - p0) = L / m * farthest ε (L / m) i (p0' - p0) + 2 * ε := rfl
    have w3 : nearest ε (m / L) (i + 1) (p0' - p0) = m / L * nearest ε (m / L) i (p0' - p0) - 2 * ε := rfl
    have hr : 0 ≤ m / L := (div_pos hm hL).le
    rcases le_total 0 (p' i - p i) with h | h
    · obtain ⟨t1, t2⟩ := s1 h
      have v1 := mul_nonneg hr h
      have v2 := mul_nonneg hρ n0
      have v3 := mul_le_mul_of_nonneg_left i2 hρ
      refine ⟨by linarith, by linarith, fun hj => ?_⟩
      have v4 := mul_le_mul_of_nonneg_left (i3 fun j hj' => hj j (by omega)) hr
      linarith
    · obtain ⟨t1, t2⟩ := s2 h
      have v1 := mul_nonpos_of_nonneg_of_nonpos hr h
      have v2 := mul_nonneg hρ nd
      have v3 := mul_le_mul_of_nonneg_left i1 hρ
      refine ⟨by linarith, by linarith, fun hj => ?_⟩
      have v4 := i3 fun j hj' => hj j (by omega)
      have v5 := hj i (by omega)
      have v6 : p' i - p i = 0 := by linarith
      have v7 : nearest ε (m / L) i (p0' - p0) = 0 := by linarith
      rw [v6, mul_zero] at t1
      rw [w3, v7, mul_zero]
      linarith

/-! ## Examples -/

theorem exSloped : Sloped (fun s t _ => s - t) .linear exCast exCast 0 3 0 3 1 2 := (exSection 1).sloped 0 (by omega)

/-- A trajectory over two copies of a cast exists from every pressure between 1/2 and 5/2. -/
theorem exTrajectory {x : ℝ} (h1 : 1 / 2 ≤ x) (h2 : x ≤ 5 / 2) : ∃ out p1,
    neutralTrajectory (600 + 13) (fin (1/100)) (fun s t _ => s - t) .linear (fin x) ((List.range (1 + 1)).map fun _ => exCast) = .ret out ∧
    ∀ i, i ≤ 1 → ∃ s t, out[i]? = some (s, t, fin (if i = 0 then x else p1)) := by
  obtain ⟨σ, τ, hat, hst⟩ := curves_at (x := x) .linear exGood (smin := 0) (fun i _ _ => by split_ifs <;> norm_num) (by norm_num; linarith) (by norm_num; linarith)
  have hx := exLinear (by linarith) (by linarith) hat
  obtain ⟨s', t', p1, hl, -, -⟩ := ntp_finds .linear exEos exGood (fun i _ _ => by split_ifs <;> norm_num) (sB := σ) (tB := τ) (pB := x) (tol := 1 / 100)
    (at_smin .linear exGood (smin := 0) (fun i _ _ => by split_ifs <;> norm_num) (by norm_num; linarith) (by norm_num; linarith) hat) (by norm_num) 600 (by norm_num)
    (by
      rw [hx]
      refine mul_nonpos_of_nonneg_of_nonpos ?_ ?_ <;> norm_num <;> split_ifs <;> linarith)
  refine ⟨[(fin σ, fin τ, fin x), (fin s', fin t', fin p1)], p1, ?_, fun i hi => ?_⟩
  · show neutralTrajectory _ _ _ _ _ [exCast, exCast] = _
    simp only [neutralTrajectory, hst, Outcome.bind, trajLoop, hl, isNaN_fin]
    rfl
  · have : i = 0 ∨ i = 1 := by omega
    rcases this with rfl | rfl
    · exact ⟨_, _, rfl⟩
    · exact ⟨_, _, rfl⟩

/-- The trajectories from 1 and 2 over two copies of a cast stay apart. -/
example : ∃ out out' p p',
    neutralTrajectory (600 + 13) (fin (1/100)) (fun s t _ => s - t) .linear (fin 1) ((List.range (1 + 1)).map fun _ => exCast) = .ret out ∧
    neutralTrajectory (600 + 13) (fin (1/100)) (fun s t _ => s - t) .linear (fin 2) ((List.range (1 + 1)).map fun _ => exCast) = .ret out' ∧
    (∃ s t, out[1]? = some (s, t, fin p)) ∧ (∃ s t, out'[1]? = some (s, t, fin p')) ∧ 9 / 20 ≤ p' - p ∧ p' - p ≤ 41 / 20 := by
  obtain ⟨out, p, ho, hp⟩ := exTrajectory (x := 1) (by norm_num) (by norm_num)
  obtain ⟨out', p', ho', hp'⟩ := exTrajectory (x := 2) (by norm_num) (by norm_num)
  obtain ⟨-, h2, h3⟩ := trajectory_order_partial (N := 1) exEos (by norm_num) one_pos two_pos (exSection 1) (fun i hi => (exSection (i + 1)).sloped i (by omega))
    (by norm_num) (by norm_num) (by norm_num) ho ho' hp hp' 1 le_rfl
  have h3 := h3 (by intro j hj; obtain rfl : j = 0 := by omega
                    show (0 : ℝ) ≤ 2 - 1; norm_num)
  norm_num [farthest, nearest] at h2 h3
  exact ⟨out, out', p, p', ho, ho', hp 1 le_rfl, hp' 1 le_rfl, by linarith, by linarith⟩

/-! ## Where the thermobaric effect is stronger than the stratification -/

/-- salinity `s₀ + p`, temperature `t` at pressures 0, 10 -/
def tbCast (s0 t : ℚ) : Cast (Rfl Rounding53.rnd53) :=
  ⟨⟨2, fun i => Rfl.fin (if i = 0 then s0 else s0 + 10)⟩, ⟨2, fun _ => Rfl.fin t⟩, ⟨2, fun i => Rfl.fin (if i = 0 then 0 else 10)⟩⟩

/-- **C161** (violation) With the density `s + t p` both casts are stably stratified at every reference pressure (salinity increases downwards at one temperature), and
yet, in double precision, the trajectory that starts at 0 goes almost to 4, and the one that starts deeper, at 3, goes to 3, above the other. -/
theorem trajectory_order_false :
    neutralTrajectory 60 (Rfl.fin (1 / 10000)) (fun s t p => s + t * p) .linear (Rfl.fin 0) [tbCast 30 0, tbCast 18 4] =
      .ret [(Rfl.fin 30, Rfl.fin 0, Rfl.fin 0), (Rfl.fin 22, Rfl.fin 4, Rfl.fin (4 - 1 / 2 ^ 51))] ∧
    neutralTrajectory 60 (Rfl.fin (1 / 10000)) (fun s t p => s + t * p) .linear (Rfl.fin 3) [tbCast 30 0, tbCast 18 4] =
      .ret [(Rfl.fin 33, Rfl.fin 0, Rfl.fin 3), (Rfl.fin 21, Rfl.fin 4, Rfl.fin 3)] := by
  constructor <;> decide +kernel

end VertSolve
