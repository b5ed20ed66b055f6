import Verif.Props.Window
import Verif.Props.Perturb
set_option linter.unusedSectionVars false

/-!
# Data far from a neutral trajectory do not matter (C181)
-/

namespace VertSolve
open FloatLike Interp Traj Same
open Fl (fin isNaN_fin)

variable {eos : Fl ℝ → Fl ℝ → Fl ℝ → Fl ℝ} {e : ℝ → ℝ → ℝ → ℝ} {smin : ℝ}

theorem at_unique {kind : PPKind} {c : Cast (Fl ℝ)} {x s t s' t' : ℝ} (h : At kind c x s t) (h' : At kind c x s' t') : s' = s ∧ t' = t :=
  ⟨Fl.fin.inj (Option.some.inj (h'.1.symm.trans h.1)), Fl.fin.inj (Option.some.inj (h'.2.symm.trans h.2))⟩

/-- Specification: the casts `c` and `c'` are well formed, with data from `A` to `B` and from `A'` to `B'`, and have the bottles used by the interpolation
between `lo` and `hi` in common. -/
def ShareCasts (kind : PPKind) (smin : ℝ) (c c' : Cast (Fl ℝ)) (A B A' B' lo hi : ℝ) : Prop :=
  ∃ k K a s t k' K' a' s' t', GoodCast c k K a s t ∧ GoodCast c' k' K' a' s' t' ∧ (∀ j, k ≤ j → j < K → smin ≤ s j) ∧ (∀ j, k' ≤ j → j < K' → smin ≤ s' j) ∧
    a k = A ∧ a (K - 1) = B ∧ a' k' = A' ∧ a' (K' - 1) = B' ∧ Shares kind k K a s t k' K' a' s' t' lo hi

/-- Specification: the difference of density between water of cast 2 and a point of cast 1, both brought to the midpoint pressure, increases with the pressure on
cast 2. -/
def StratifiedOn (e : ℝ → ℝ → ℝ → ℝ) (kind : PPKind) (c1 c2 : Cast (Fl ℝ)) (A1 B1 A2 B2 : ℝ) : Prop :=
  ∀ y σ τ, A1 ≤ y → y ≤ B1 → At kind c1 y σ τ → ∀ x x' s t s' t', A2 ≤ x → x < x' → x' ≤ B2 → At kind c2 x s t → At kind c2 x' s' t' →
    e s t ((y + x) / 2) - e σ τ ((y + x) / 2) < e s' t' ((y + x') / 2) - e σ τ ((y + x') / 2)

theorem Shares.mono {kind : PPKind} {k K k' K' : ℕ} {a s t a' s' t' : ℕ → ℝ} {lo hi lo' hi' : ℝ} (h : Shares kind k K a s t k' K' a' s' t' lo hi) (h1 : lo ≤ lo') (h2 : hi' ≤ hi) :
    Shares kind k K a s t k' K' a' s' t' lo' hi' := by
  obtain ⟨l, l', n, w, b0, b1, b2, b3, b4, b5, b6, b7, b8⟩ := h
  exact ⟨l, l', n, w, b0, b1, b2, b3, b4, b5, b6, b7.imp (fun h => h.trans_le h1) id, b8.imp (fun h => ⟨h.1, h2.trans h.2⟩) id⟩

theorem trajLoop_window {kind : PPKind} {tol m L ε : ℝ} {n N : ℕ} {c c' : ℕ → Cast (Fl ℝ)} {A B A' B' : ℕ → ℝ} (E : EosOn eos e smin)
    (htol : 0 < tol) (hm : 0 < m) (hL : 0 ≤ L) (hS : Section eos e smin kind tol m L ε n N c A B)
    (hback : ∀ i, i < N → Sloped e kind (c (i + 1)) (c i) (A (i + 1)) (B (i + 1)) (A i) (B i) m L)
    (hfuel : ∀ i, i ≤ N → 2 * (B' i - A' i) / tol ≤ n) (hacc : ∀ i, i ≤ N → ∀ x, A' i ≤ x → x ≤ B' i → acc tol x ≤ ε)
    (hst : ∀ i, i < N → StratifiedOn e kind (c' i) (c' (i + 1)) (A' i) (B' i) (A' (i + 1)) (B' (i + 1)))
    {p σ τ D : ℕ → ℝ} (hD : ∀ i, i < N → D (i + 1) = L / m * D i + 4 * ε) (hp : ∀ i, i ≤ N → A i ≤ p i ∧ p i ≤ B i ∧ At kind (c i) (p i) (σ i) (τ i))
    (hl : ∀ i, i < N → ntpBottleToCast (n + 13) (fin tol) eos kind (fin (σ i)) (fin (τ i)) (fin (p i)) (c (i + 1)) =
      .ret (fin (σ (i + 1)), fin (τ (i + 1)), fin (p (i + 1))))
    (hsh : ∀ i, i ≤ N → ShareCasts kind smin (c i) (c' i) (A i) (B i) (A' i) (B' i) (p i - D i) (p i + D i))
    (hmar : ∀ i, i ≤ N → A i + D i ≤ p i ∧ p i + D i ≤ B i) :
    ∀ (M i : ℕ), i + M = N → ∀ (q σ' τ' : ℝ), At kind (c' i) q σ' τ' → |q - p i| ≤ D i →
    ∃ r : List (Fl ℝ × Fl ℝ × Fl ℝ), trajLoop (n + 13) (fin tol) eos kind (fin σ', fin τ', fin q) ((List.range M).map fun j => c' (i + 1 + j)) = .ret r ∧ r.length = M ∧
      ∀ j, j < M → ∃ x y q', r[j]? = some (x, y, fin q') ∧ |q' - p (i + 1 + j)| ≤ D (i + 1 + j) := by
  intro M
  induction M with
  | zero => intro i _ q σ' τ' _ _; exact ⟨[], rfl, rfl, fun j hj => absurd hj (by omega)⟩
  | succ M ih =>
    intro i hi q σ' τ' hat hd
    obtain ⟨k1, K1, a1, s1, t1, k1', K1', a1', s1', t1', G1, G1', hs1, hs1', e1, e2, e3, e4, sh1⟩ := hsh i (by omega)
    obtain ⟨k2, K2, a2, s2, t2, k2', K2', a2', s2', t2', G2, G2', hs2, hs2', f1, f2, f3, f4, sh2⟩ := hsh (i + 1) (by omega)
    obtain ⟨p1, p2, p3⟩ := hp i (by omega)
    obtain ⟨p1', p2', p3'⟩ := hp (i + 1) (by omega)
    obtain ⟨m1, m2⟩ := hmar i (by omega)
    obtain ⟨m1', m2'⟩ := hmar (i + 1) (by omega)
    have hda := abs_le.mp hd
    have hqA : A i ≤ q := by linarith [hda.1]
    have hqB : q ≤ B i := by linarith [hda.2]
    -- the water at `q` is the same on both casts
    obtain ⟨u, v, huv, -⟩ := curves_at (x := q) kind G1 hs1 (by rw [e1]; exact hqA) (by rw [e2]; exact hqB)
    obtain ⟨huv', hq1, hq2⟩ := sh1.at G1 G1' (x := q) (by linarith [hda.1]) (by linarith [hda.2]) (by rw [e1]; exact hqA) (by rw [e2]; exact hqB) huv
    rw [e3] at hq1
    rw [e4] at hq2
    obtain ⟨rfl, rfl⟩ := at_unique huv' hat
    have hσ : smin ≤ σ i := at_smin kind G1 hs1 (by rw [e1]; exact p1) (by rw [e2]; exact p2) p3
    have hσ' : smin ≤ σ' := at_smin kind G1 hs1 (by rw [e1]; exact hqA) (by rw [e2]; exact hqB) huv
    -- the link on the first cast
    have hf := hS.fuel (i + 1) (by omega)
    have hsl := hback i (by omega)
    rw [← f1, ← f2] at hf hsl
    have hc : ∀ (c : Cast (Fl ℝ)) A B lo hi, Close e kind c c A B lo hi 0 := by
      intro c A B lo hi x s t s' t' p _ _ g1 g2 _ _
      obtain ⟨rfl, rfl⟩ := at_unique g1 g2
      simp
    obtain ⟨r, hr, hr1, hr2⟩ := ntp_perturbed kind E G2 hs2 G2 hs2 rfl rfl htol hm n hf hsl (hc (c i) (A i) (B i) (min (A i) (a2 k2)) (max (B i) (a2 (K2 - 1)))) (hc _ _ _ _ _)
      ⟨min_le_left _ _, min_le_right _ _⟩ ⟨le_max_left _ _, le_max_right _ _⟩ p1 p2 hqA hqB p3 huv huv hσ hσ' (hl i (by omega))
    have hε := hS.acc (i + 1) (by omega) _ p1' p2'
    have hε0 : 0 ≤ acc tol (p (i + 1)) := by unfold acc; positivity
    have hle : (0 + 0 + L * |q - p i|) / m ≤ L / m * D i := by
      rw [zero_add, zero_add, mul_div_right_comm]
      exact mul_le_mul_of_nonneg_left hd (div_nonneg hL hm.le)
    have hDi := hD i (by omega)
    rw [hDi] at m1' m2' sh2
    obtain ⟨q1, hq1'⟩ := hr2 (by rw [f1]; linarith) (by rw [f2]; linarith)
    obtain ⟨x, y, z⟩ := r
    simp only at hq1'
    subst hq1'
    have hdd := hr1 q1 rfl
    obtain ⟨-, -, -, -, -, b1, b2⟩ := link_at kind E G2 hs2 hσ' htol n hf hr
    rw [f1] at b1
    rw [f2] at b2
    have hε1 := hS.acc (i + 1) (by omega) _ b1 b2
    have hd1 := abs_le.mp (show |q1 - p (i + 1)| ≤ L / m * D i + 2 * ε by linarith)
    -- the link on the second cast
    have hf' := hfuel (i + 1) (by omega)
    rw [← f3, ← f4] at hf'
    obtain ⟨r, r', h1, h1', hw⟩ := ntp_window kind E G2 G2' hs2 hs2' (sB := σ') (tB := τ') (pB := q) hσ' htol n hf hf'
      (by rw [f3, f4]; exact hst i (by omega) q σ' τ' hq1 hq2 hat)
    rw [hr] at h1
    cases h1
    obtain ⟨q2, g1, g2⟩ := hw q1 rfl (sh2.mono (by linarith [hd1.1]) (by linarith [hd1.2]))
    obtain ⟨x', y', z'⟩ := r'
    simp only at g1
    subst g1
    obtain ⟨σ1, τ1, rfl, rfl, hat1, b1', b2'⟩ := link_at kind E G2' hs2' hσ' htol n hf' h1'
    rw [f3] at b1'
    rw [f4] at b2'
    have hε2 := hacc (i + 1) (by omega) _ b1' b2'
    have hd' : |q2 - p (i + 1)| ≤ D (i + 1) := by
      rw [hDi, show q2 - p (i + 1) = (q2 - q1) + (q1 - p (i + 1)) by ring]
      refine (abs_add_le _ _).trans ?_
      linarith
    obtain ⟨rs, hrs, hlen, hall⟩ := ih (i + 1) (by omega) q2 σ1 τ1 hat1 hd'
    have hlist : (List.range (M + 1)).map (fun j => c' (i + 1 + j)) = c' (i + 1) :: (List.range M).map fun j => c' (i + 1 + 1 + j) := by
      rw [List.range_succ_eq_map, List.map_cons, List.map_map]
      congr 1
      apply List.map_congr_left
      intro j _
      show c' (i + 1 + (j + 1)) = _
      rw [show i + 1 + (j + 1) = i + 1 + 1 + j by omega]
    refine ⟨(fin σ1, fin τ1, fin q2) :: rs, ?_, by simp [hlen], fun j hj => ?_⟩
    · rw [hlist]
      simp only [trajLoop, h1', Fzero.Outcome.bind, isNaN_fin, hrs]
      rfl
    · cases j with
      | zero => exact ⟨_, _, q2, rfl, hd'⟩
      | succ j =>
        obtain ⟨x, y, q', g1, g2⟩ := hall j (by omega)
        rw [show i + 1 + (j + 1) = i + 1 + 1 + j by omega]
        exact ⟨x, y, q', by simpa using g1, g2⟩

/-- **C181** A neutral trajectory over the casts `c`, at the pressures `p`, and casts `c'` that have the bottles near the trajectory in common with them: up to a distance
`drift` that starts from zero and grows at each cast by four times the accuracy of the solver and the ratio `L / m`.  Whatever the rest of the casts `c'` is, as long
as they are stratified, the trajectory over them exists on all casts, within this distance. -/
theorem trajectory_window {kind : PPKind} {tol m L ε : ℝ} {n N : ℕ} {c c' : ℕ → Cast (Fl ℝ)} {A B A' B' : ℕ → ℝ} (E : EosOn eos e smin)
    (htol : 0 < tol) (hm : 0 < m) (hL : 0 ≤ L) (hS : Section eos e smin kind tol m L ε n N c A B)
    (hback : ∀ i, i < N → Sloped e kind (c (i + 1)) (c i) (A (i + 1)) (B (i + 1)) (A i) (B i) m L)
    (hfuel : ∀ i, i ≤ N → 2 * (B' i - A' i) / tol ≤ n) (hacc : ∀ i, i ≤ N → ∀ x, A' i ≤ x → x ≤ B' i → acc tol x ≤ ε)
    (hst : ∀ i, i < N → StratifiedOn e kind (c' i) (c' (i + 1)) (A' i) (B' i) (A' (i + 1)) (B' (i + 1)))
    {p0 : ℝ} (h0 : A 0 ≤ p0) (h0' : p0 ≤ B 0)
    {out : List (Fl ℝ × Fl ℝ × Fl ℝ)} (hout : neutralTrajectory (n + 13) (fin tol) eos kind (fin p0) ((List.range (N + 1)).map c) = .ret out)
    {p D : ℕ → ℝ} (hp : ∀ i, i ≤ N → ∃ x y, out[i]? = some (x, y, fin (p i))) (hD0 : D 0 = 0) (hD : ∀ i, i < N → D (i + 1) = L / m * D i + 4 * ε)
    (hsh : ∀ i, i ≤ N → ShareCasts kind smin (c i) (c' i) (A i) (B i) (A' i) (B' i) (p i - D i) (p i + D i))
    (hmar : ∀ i, i ≤ N → A i + D i ≤ p i ∧ p i + D i ≤ B i) :
    ∃ out' : List (Fl ℝ × Fl ℝ × Fl ℝ), neutralTrajectory (n + 13) (fin tol) eos kind (fin p0) ((List.range (N + 1)).map c') = .ret out' ∧ out'.length = N + 1 ∧
      out'[0]? = out[0]? ∧ ∀ i, i ≤ N → ∃ x y q, out'[i]? = some (x, y, fin q) ∧ |q - p i| ≤ D i := by
  obtain ⟨e0, σ, τ, hpt, hl⟩ := trajectory_points E htol hS h0 h0' hout hp
  obtain ⟨k, K, a, s, t, k', K', a', s', t', G, G', hs, hs', f1, f2, f3, f4, sh⟩ := hsh 0 (Nat.zero_le _)
  rw [e0, hD0, sub_zero, add_zero] at sh
  obtain ⟨u, v, huv, hst0⟩ := curves_at (x := p0) kind G hs (by rw [f1]; exact h0) (by rw [f2]; exact h0')
  obtain ⟨huv', w1, w2⟩ := sh.at G G' le_rfl le_rfl (by rw [f1]; exact h0) (by rw [f2]; exact h0') huv
  obtain ⟨σ0, τ0, hat, hst'⟩ := curves_at (x := p0) kind G' hs' w1 w2
  obtain ⟨rfl, rfl⟩ := at_unique huv' hat
  obtain ⟨r, r1, r2, r3⟩ := trajLoop_window E htol hm hL hS hback hfuel hacc hst hD hpt hl hsh hmar N 0 (by omega) p0 σ0 τ0 hat (by rw [e0, hD0]; simp)
  have hlist : ∀ c : ℕ → Cast (Fl ℝ), (List.range (N + 1)).map c = c 0 :: (List.range N).map fun j => c (0 + 1 + j) := by
    intro c
    rw [List.range_succ_eq_map, List.map_cons, List.map_map]
    congr 1
    apply List.map_congr_left
    intro j _
    show c (j + 1) = _
    rw [show 0 + 1 + j = j + 1 by omega]
  refine ⟨(fin σ0, fin τ0, fin p0) :: r, ?_, by simp [r2], ?_, fun i hi => ?_⟩
  · rw [hlist]
    simp only [neutralTrajectory, hst', Fzero.Outcome.bind, isNaN_fin, r1]
    rfl
  · rw [hlist] at hout
    simp only [neutralTrajectory, hst0, Fzero.Outcome.bind, isNaN_fin] at hout
    rw [if_neg (by simp)] at hout
    split at hout <;> cases hout
    rfl
  · cases i with
    | zero => exact ⟨_, _, p0, rfl, by rw [e0, hD0]; simp⟩
    | succ i =>
      obtain ⟨x, y, q, g1, g2⟩ := r3 i (by omega)
      rw [show 0 + 1 + i = i + 1 by omega] at g2
      exact ⟨x, y, q, by simpa using g1, g2⟩

/-! Example: `exCast`, with bottles at 0, 1 and 3, and a cast with the same bottles at 1 and 3 but another above them, at 1/2. -/

noncomputable def topCast : Cast (Fl ℝ) := ⟨Arr.ofList [fin 20, fin 36, fin 37], Arr.ofList [fin 5, fin 4, fin 3], Arr.ofList [fin (1 / 2), fin 1, fin 3]⟩

theorem topGood : GoodCast topCast 0 3 (fun i => if i = 0 then 1 / 2 else if i = 1 then 1 else 3)
    (fun i => if i = 0 then 20 else if i = 1 then 36 else 37) (fun i => if i = 0 then 5 else if i = 1 then 4 else 3) := by
  constructor
  all_goals
    refine ⟨rfl, by omega, by decide, fun i hi => by omega, fun h => absurd h (by decide), ?_, ?_, ?_⟩
    · intro i h1 h2
      have : i = 0 ∨ i = 1 ∨ i = 2 := by omega
      rcases this with rfl | rfl | rfl <;> rfl
    · intro i h1 h2
      have : i = 0 ∨ i = 1 ∨ i = 2 := by omega
      rcases this with rfl | rfl | rfl <;> rfl
    · intro i h1 h2
      have : i = 0 ∨ i = 1 := by omega
      rcases this with rfl | rfl <;> norm_num

theorem topLinear {x s t : ℝ} (hx : 1 / 2 ≤ x) (hx' : x ≤ 3) (h : At .linear topCast x s t) : s - t = if x ≤ 1 then 15 + (x - 1 / 2) * 34 else 31 + x := by
  have G := topGood
  split_ifs with hc
  · have e1 := Col_chord G.S (i := 0) le_rfl (by omega) (x := x) (by simpa using hx) (by simpa using hc)
    have e2 := Col_chord G.T (i := 0) le_rfl (by omega) (x := x) (by simpa using hx) (by simpa using hc)
    rw [Fl.fin.inj (Option.some.inj (h.1.symm.trans e1)), Fl.fin.inj (Option.some.inj (h.2.symm.trans e2))]
    norm_num [chordAt]
    ring
  · rw [not_le] at hc
    have e1 := Col_chord G.S (i := 1) (by omega) (by omega) (x := x) (by simpa using hc.le) (by simpa using hx')
    have e2 := Col_chord G.T (i := 1) (by omega) (by omega) (x := x) (by simpa using hc.le) (by simpa using hx')
    rw [Fl.fin.inj (Option.some.inj (h.1.symm.trans e1)), Fl.fin.inj (Option.some.inj (h.2.symm.trans e2))]
    norm_num [chordAt]
    ring

theorem topShares {lo hi : ℝ} (h1 : 1 < lo) (h3 : hi ≤ 3) : ShareCasts .linear 0 exCast topCast 0 3 (1 / 2) 3 lo hi := by
  refine ⟨1, 4, _, _, _, 0, 3, _, _, _, exGood, topGood, fun i _ _ => by split_ifs <;> norm_num, fun i _ _ => by split_ifs <;> norm_num, by norm_num, by norm_num, by norm_num, by norm_num,
    2, 1, 1, 0, by simp, by omega, by omega, by omega, by omega, by omega, ?_, Or.inl (by norm_num; exact h1), Or.inl ⟨by omega, by norm_num; exact h3⟩⟩
  intro j hj
  interval_cases j <;> norm_num

/-- Trajectories from pressure 2 over two copies of each of the casts. -/
example : ∃ (out out' : List (Fl ℝ × Fl ℝ × Fl ℝ)) (x y x' y' : Fl ℝ) (p q : ℝ),
    neutralTrajectory (600 + 13) (fin (1/100)) (fun s t _ => s - t) .linear (fin 2) ((List.range (1 + 1)).map fun _ => exCast) = .ret out ∧
    neutralTrajectory (600 + 13) (fin (1/100)) (fun s t _ => s - t) .linear (fin 2) ((List.range (1 + 1)).map fun _ => topCast) = .ret out' ∧
    out[1]? = some (x, y, fin p) ∧ out'[1]? = some (x', y', fin q) ∧ |q - p| ≤ 1 / 10 := by
  obtain ⟨out, p, ho, hp⟩ := exTrajectory (x := 2) (by norm_num) (by norm_num)
  have h1 : |p - 2| ≤ 3 / 50 := by
    obtain ⟨e0, σ, τ, hpt, hl⟩ := trajectory_points exEos (by norm_num) (exSection 1) (by norm_num) (by norm_num) ho hp
    have hs := hl 0 one_pos
    obtain ⟨gS, gT, hi, g⟩ := ntp_spec .linear exEos exGood (fun i _ _ => by split_ifs <;> norm_num) (sB := σ 0) (tB := τ 0) (pB := 2) (tol := 1 / 100)
      (at_smin .linear exGood (smin := 0) (fun i _ _ => by split_ifs <;> norm_num) (by norm_num) (by norm_num) (hpt 0 (by omega)).2.2) (by norm_num) 600 (by norm_num)
    rcases g with ⟨g, -⟩ | ⟨q1, z, g, b1, b2, b3, b4, b5, b6⟩
    · exact absurd (hs.symm.trans g) (by simp)
    · have := hs.symm.trans g
      simp only [Fzero.Outcome.ret.injEq, Prod.mk.injEq, Fl.fin.injEq] at this
      obtain rfl : p = q1 := by simpa using this.2.2
      norm_num at b3 b4 b1 b2 hi
      have q1 := exLinear b3 b4 (hi z b3 b4)
      have q0 := exLinear (by norm_num) (by norm_num) (hpt 0 (by omega)).2.2
      norm_num at q0
      have hz : z = 2 := by
        rw [← b5, q0] at q1
        split_ifs at q1 <;> linarith
      rw [hz] at b6
      rw [abs_sub_comm]
      refine b6.trans ?_
      rw [abs_of_nonneg b1]
      norm_num
      linarith
  rw [abs_le] at h1
  obtain ⟨out', ho', -, -, h⟩ := trajectory_window (N := 1) (c' := fun _ => topCast) (A' := fun _ => 1 / 2) (B' := fun _ => 3) (D := fun i => i * (1 / 10)) exEos (by norm_num) one_pos
    two_pos.le (exSection 1) (fun i hi => (exSection (i + 1)).sloped i (by omega)) (fun i _ => by norm_num)
    (fun i hi x g1 g2 => (exSection 1).acc i hi x (by linarith) g2)
    (fun i hi y σ τ _ _ _ x x' s t s' t' g1 g2 g3 g4 g5 => by
      have q1 := topLinear g1 (g2.le.trans g3) g4
      have q2 := topLinear (g1.trans g2.le) g3 g5
      show s - t - (σ - τ) < s' - t' - (σ - τ)
      rw [q1, q2]
      split_ifs <;> linarith)
    (by norm_num) (by norm_num) ho hp (by norm_num) (fun i hi => by
      obtain rfl : i = 0 := by omega
      norm_num)
    (fun i hi => by
      have : i = 0 ∨ i = 1 := by omega
      rcases this with rfl | rfl
      · exact topShares (by norm_num) (by norm_num)
      · exact topShares (by norm_num; linarith [h1.1]) (by norm_num; linarith [h1.2]))
    (fun i hi => by
      have : i = 0 ∨ i = 1 := by omega
      rcases this with rfl | rfl
      · norm_num
      · norm_num; constructor <;> linarith [h1.1, h1.2])
  obtain ⟨x, y, e1⟩ := hp 1 le_rfl
  obtain ⟨x', y', q, e2, e3⟩ := h 1 le_rfl
  norm_num at e3
  exact ⟨out, out', x, y, x', y', p, q, ho, ho', by simpa using e1, e2, by linarith⟩

end VertSolve
