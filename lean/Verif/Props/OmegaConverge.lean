import Verif.Props.OmegaLinear
import Verif.Props.OmegaDiag

/-!
# Convergence of `omega_surf` where thermobaricity is weak (C148)

The density is a quadratic function of salinity and temperature, plus salinity and temperature times functions of pressure, plus a function of pressure (the
simplified equation of state of NEMO is of this form).  If the thermobaric terms vary little over the region of the surface, compared with the stratification, the corrections
of successive passes decrease geometrically, down to a level given by the accuracies of the solvers; the region stays the same.
-/

namespace OmegaMat
open Finset FloatLike
open Fl hiding nan

set_option linter.unusedSectionVars false

variable {α : Type*} [Field α] [LinearOrder α] [IsStrictOrderedRing α]
variable {E : List ((ℕ × ℕ) × α)} {m m' : List ℕ} {mref : ℕ} {eos : Ntp.EosST (Fl α)} {s t p s' t' p' : ℕ → Fl α} {ε ε' : ℕ × ℕ → α}

theorem inner_congr (h : ∀ n, n ∈ m ↔ n ∈ m') : inner E m = inner E m' := by
  unfold inner
  congr 1
  funext x
  exact decide_eq_decide.2 (and_congr (h _) (h _))

theorem balanced_congr (h : ∀ n, n ∈ m ↔ n ∈ m') {φ : ℕ → α} (hφ : Balanced E m ε φ) : Balanced E m' ε φ := by
  intro n hn
  rw [← inner_congr h]
  exact hφ n ((h n).2 hn)

theorem region_congr (h : ∀ n, n ∈ m ↔ n ∈ m') (hn : m'.Nodup) (he : ∀ n ∈ m, s n = s' n ∧ t n = t' n ∧ p n = p' n) (H : Region E m mref eos s t p ε) :
    Region E m' mref eos s' t' p' ε := by
  refine ⟨hn, (h _).1 H.ref, ?_, ?_, ?_, ?_⟩
  · rw [← ((List.perm_ext_iff_of_nodup H.nodup hn).2 h).length_eq]; exact H.two
  · rw [← inner_congr h]; exact H.pos
  · intro n hn
    have := H.conn n ((h n).2 hn)
    exact Relation.ReflTransGen.mono (show Joined E m ≤ Joined E m' from fun i j hij => ⟨(h _).1 hij.1, (h _).1 hij.2.1, hij.2.2⟩) _ _ this
  · rw [← inner_congr h]
    intro x hx
    obtain ⟨-, h1, h2⟩ := mem_inner hx
    rw [← H.err x hx]
    obtain ⟨a1, a2, a3⟩ := he _ h1
    obtain ⟨b1, b2, b3⟩ := he _ h2
    unfold Ntp.epsErr
    rw [a1, a2, a3, b1, b2, b3]

/-- The next correction: if the errors after a pass differ from those expected, after changes `χ` of the density, by at most `κ` times the changes, then the next correction is
small. -/
theorem next_correction (H : Region E m mref eos s t p ε) {ψ ψ' χ : ℕ → α} (hψ : Balanced E m ε ψ) (hψ' : Balanced E m ε' ψ') (h0 : ψ mref = 0)
    (h0' : ψ' mref = 0) (hχ0 : χ mref = 0) {κ M : α} (hκ : 0 ≤ κ)
    (hr : ∀ x ∈ inner E m, |ε' x.1 - (ε x.1 + χ x.1.2 - χ x.1.1)| ≤ κ * (|χ x.1.1| + |χ x.1.2|)) (hM : ∀ n ∈ m, |χ n| ≤ M)
    {n k : ℕ} {R : α} (h : Route E m mref n k R) :
    |ψ' n| ≤ |χ n - ψ n| + 4 * κ * R * ((inner E m).map Prod.snd).sum * M := by
  have hb : Balanced E m (fun x => ε x + χ x.2 - χ x.1) fun n => ψ n - χ n := by
    have e : ∀ x, corr (fun x => ε x + χ x.2 - χ x.1) (fun n => ψ n - χ n) x = corr ε ψ x := by
      intro x; unfold corr; ring
    intro n hn
    simp only [e]
    exact hψ n hn
  have hs := correction_sensitivity H.nodup H.pos H.ref hψ' hb h
  have hR := h.nonneg H.pos
  have hsum : ((inner E m).map fun x => x.2 * |(fun x : ℕ × ℕ => ε x + χ x.2 - χ x.1) x.1 - ε' x.1|).sum ≤ ((inner E m).map Prod.snd).sum * (κ * (2 * M)) := by
    have : ∀ l : List ((ℕ × ℕ) × α), (∀ x ∈ l, x ∈ inner E m) →
        (l.map fun x => x.2 * |(fun x : ℕ × ℕ => ε x + χ x.2 - χ x.1) x.1 - ε' x.1|).sum ≤ (l.map Prod.snd).sum * (κ * (2 * M)) := by
      intro l
      induction l with
      | nil => simp
      | cons x l ih =>
        intro hl
        have ih := ih fun y hy => hl y (List.mem_cons_of_mem _ hy)
        have hx := hl x List.mem_cons_self
        simp only [List.map_cons, List.sum_cons]
        obtain ⟨-, i1, i2⟩ := mem_inner hx
        have h1 : |ε x.1 + χ x.1.2 - χ x.1.1 - ε' x.1| ≤ κ * (2 * M) := by
          rw [abs_sub_comm]
          refine (hr x hx).trans (mul_le_mul_of_nonneg_left ?_ hκ)
          linarith [hM _ i1, hM _ i2]
        have h2 := mul_le_mul_of_nonneg_left h1 (H.pos x hx).le
        dsimp only at ih ⊢
        linarith [add_mul x.2 (List.map Prod.snd l).sum (κ * (2 * M))]
    exact this _ fun _ h => h
  have hm := mul_le_mul_of_nonneg_left (mul_le_mul_of_nonneg_left hsum (zero_le_two (α := α))) hR
  have hs' := hs.trans hm
  rw [h0', h0, hχ0] at hs'
  have e : ψ' n = (χ n - ψ n) * -1 + (ψ' n - 0 - (ψ n - χ n - (0 - 0))) := by ring
  rw [e]
  refine (abs_add_le _ _).trans ?_
  rw [abs_mul, abs_neg, abs_one, mul_one]
  refine add_le_add_right (hs'.trans (le_of_eq ?_)) _
  ring

end OmegaMat

namespace Omega
open FloatLike Fzero Interp Traj VertSolve Bfs Lib
open Fl hiding nan

set_option linter.unusedSectionVars false

/-- The density `e` is the sum of a function `f` of salinity and temperature whose differences are those given by its partial derivatives midway (as for quadratics), of salinity and
temperature times functions `a` and `d` of pressure with Lipschitz constants `La` and `Ld`, and of a function of pressure; `eosST` are its partial derivatives. -/
structure Thermobaric (eosST : Ntp.EosST (Fl ℝ)) (e : ℝ → ℝ → ℝ → ℝ) (smin : ℝ) (f : ℝ → ℝ → ℝ) (a d : ℝ → ℝ) (La Ld : ℝ) : Prop where
  split : ∃ g : ℝ → ℝ, ∀ s t p, smin ≤ s → e s t p = f s t + a p * s + d p * t + g p
  mid : ∀ s0 t0 s1 t1 p, smin ≤ s0 → smin ≤ s1 → ∃ x y, eosST (fin ((s0 + s1) / 2)) (fin ((t0 + t1) / 2)) (fin p) = (fin (x + a p), fin (y + d p)) ∧
    f s1 t1 - f s0 t0 = x * (s1 - s0) + y * (t1 - t0)
  lipA : ∀ p q, |a p - a q| ≤ La * |p - q|
  lipD : ∀ p q, |d p - d q| ≤ Ld * |p - q|

/-- Every quadratic density with thermobaric terms linear in pressure, with its partial derivatives: the simplified equation of state of NEMO. -/
theorem seos_thermobaric (k ks kt kss kst ktt ms mt smin : ℝ) (g : ℝ → ℝ) {eosST : Ntp.EosST (Fl ℝ)}
    (h : ∀ s t p : ℝ, smin ≤ s → eosST (fin s) (fin t) (fin p) = (fin (ks + 2 * kss * s + kst * t + ms * p), fin (kt + kst * s + 2 * ktt * t + mt * p))) :
    Thermobaric eosST (fun s t p => k + ks * s + kt * t + kss * s ^ 2 + kst * s * t + ktt * t ^ 2 + ms * p * s + mt * p * t + g p) smin
      (fun s t => k + ks * s + kt * t + kss * s ^ 2 + kst * s * t + ktt * t ^ 2) (fun p => ms * p) (fun p => mt * p) |ms| |mt| where
  split := ⟨g, fun _ _ _ _ => rfl⟩
  mid := by
    intro s0 t0 s1 t1 p h0 h1
    exact ⟨_, _, h _ _ p (by linarith), by ring⟩
  lipA := fun p q => by rw [← mul_sub, abs_mul]
  lipD := fun p q => by rw [← mul_sub, abs_mul]

variable {c : Cfg (Fl ℝ)} {E : List ((ℕ × ℕ) × ℝ)} {eosST : Ntp.EosST (Fl ℝ)} {e : ℝ → ℝ → ℝ → ℝ} {smin tol : ℝ} {n : ℕ} {b : List ℕ → ℕ → ℝ}
  {f : ℝ → ℝ → ℝ} {a d : ℝ → ℝ} {La Ld : ℝ}

/-- One part of the remainder. -/
theorem remainder_part {a : ℝ → ℝ} {La : ℝ} (lip : ∀ p q, |a p - a q| ≤ La * |p - q|) {p1 p2 q1 q2 s1 s2 s1' s2' H Ds Ls : ℝ}
    (hD : |s2 - s1| ≤ Ds) (h1 : |s1' - s1| ≤ Ls * |q1 - p1|) (h2 : |s2' - s2| ≤ Ls * |q2 - p2|)
    (hH1 : |(q1 + q2) / 2 - p1| ≤ H) (hH2 : |(q1 + q2) / 2 - p2| ≤ H) :
    |a ((q1 + q2) / 2) * (s2' - s1') - a ((p1 + p2) / 2) * (s2 - s1) - a p2 * (s2' - s2) + a p1 * (s1' - s1)| ≤
      La * (Ds / 2 + Ls * H) * (|q1 - p1| + |q2 - p2|) := by
  have hLa : 0 ≤ La := by
    have := lip 0 1
    have h0 := abs_nonneg (a 0 - a 1)
    norm_num at this
    linarith
  have hmm : |(q1 + q2) / 2 - (p1 + p2) / 2| ≤ (|q1 - p1| + |q2 - p2|) / 2 := by
    rw [show (q1 + q2) / 2 - (p1 + p2) / 2 = ((q1 - p1) + (q2 - p2)) / 2 by ring, abs_div, abs_two]
    have := abs_add_le (q1 - p1) (q2 - p2)
    linarith
  rw [show a ((q1 + q2) / 2) * (s2' - s1') - a ((p1 + p2) / 2) * (s2 - s1) - a p2 * (s2' - s2) + a p1 * (s1' - s1) =
    (a ((q1 + q2) / 2) - a ((p1 + p2) / 2)) * (s2 - s1) + (a ((q1 + q2) / 2) - a p2) * (s2' - s2) - (a ((q1 + q2) / 2) - a p1) * (s1' - s1) by ring]
  have t1 : |(a ((q1 + q2) / 2) - a ((p1 + p2) / 2)) * (s2 - s1)| ≤ La * ((|q1 - p1| + |q2 - p2|) / 2) * Ds := by
    rw [abs_mul]
    refine mul_le_mul ((lip _ _).trans (mul_le_mul_of_nonneg_left hmm hLa)) hD (abs_nonneg _) ?_
    positivity
  have t2 : |(a ((q1 + q2) / 2) - a p2) * (s2' - s2)| ≤ La * H * (Ls * |q2 - p2|) := by
    rw [abs_mul]
    refine mul_le_mul ((lip _ _).trans (mul_le_mul_of_nonneg_left hH2 hLa)) h2 (abs_nonneg _) ?_
    exact mul_nonneg hLa ((abs_nonneg _).trans hH2)
  have t3 : |(a ((q1 + q2) / 2) - a p1) * (s1' - s1)| ≤ La * H * (Ls * |q1 - p1|) := by
    rw [abs_mul]
    refine mul_le_mul ((lip _ _).trans (mul_le_mul_of_nonneg_left hH1 hLa)) h1 (abs_nonneg _) ?_
    exact mul_nonneg hLa ((abs_nonneg _).trans hH1)
  refine (abs_sub _ _).trans ((add_le_add ((abs_add_le _ _).trans (add_le_add t1 t2)) t3).trans (le_of_eq ?_))
  ring

/-- The neutrality error between two points. -/
theorem thermobaric_err (hT : Thermobaric eosST e smin f a d La Ld) {s t p : ℕ → Fl ℝ} {i j : ℕ} {s1 t1 p1 s2 t2 p2 ε : ℝ}
    (h1 : s i = fin s1 ∧ t i = fin t1 ∧ p i = fin p1) (h2 : s j = fin s2 ∧ t j = fin t2 ∧ p j = fin p2) (g1 : smin ≤ s1) (g2 : smin ≤ s2)
    (he : Ntp.epsErr eosST s t p (i, j) = fin ε) :
    ε = f s2 t2 - f s1 t1 + a ((p1 + p2) / 2) * (s2 - s1) + d ((p1 + p2) / 2) * (t2 - t1) := by
  obtain ⟨x, y, hxy, hf⟩ := hT.mid s1 t1 s2 t2 ((p1 + p2) / 2) g1 g2
  unfold Ntp.epsErr at he
  have half : ∀ y : ℝ, ((1 / 2 : ℚ) : ℝ) * y = y / 2 := fun y => by push_cast; ring
  simp only [h1, h2, lit_eq, fin_add, fin_mul, fin_sub, half, hxy, Fl.fin.injEq] at he
  rw [← he]
  linear_combination -hf

/-- The changes of the errors are those expected, up to the thermobaric terms. -/
theorem thermobaric_change (hT : Thermobaric eosST e smin f a d La Ld) {s1 t1 p1 s2 t2 p2 r1 u1 q1 r2 u2 q2 ε ε' H Ds Ls Dt Lt : ℝ}
    (g1 : smin ≤ s1) (g2 : smin ≤ s2) (g3 : smin ≤ r1) (g4 : smin ≤ r2)
    (he : ε = f s2 t2 - f s1 t1 + a ((p1 + p2) / 2) * (s2 - s1) + d ((p1 + p2) / 2) * (t2 - t1))
    (he' : ε' = f r2 u2 - f r1 u1 + a ((q1 + q2) / 2) * (r2 - r1) + d ((q1 + q2) / 2) * (u2 - u1))
    (hDs : |s2 - s1| ≤ Ds) (hDt : |t2 - t1| ≤ Dt) (k1 : |r1 - s1| ≤ Ls * |q1 - p1|) (k2 : |r2 - s2| ≤ Ls * |q2 - p2|)
    (k3 : |u1 - t1| ≤ Lt * |q1 - p1|) (k4 : |u2 - t2| ≤ Lt * |q2 - p2|)
    (hH1 : |(q1 + q2) / 2 - p1| ≤ H) (hH2 : |(q1 + q2) / 2 - p2| ≤ H) :
    |ε' - (ε + (e r2 u2 p2 - e s2 t2 p2) - (e r1 u1 p1 - e s1 t1 p1))| ≤
      (La * (Ds / 2 + Ls * H) + Ld * (Dt / 2 + Lt * H)) * (|q1 - p1| + |q2 - p2|) := by
  obtain ⟨g, hg⟩ := hT.split
  rw [hg _ _ _ g1, hg _ _ _ g2, hg _ _ _ g3, hg _ _ _ g4, he, he']
  have A := remainder_part hT.lipA hDs k1 k2 hH1 hH2
  have B := remainder_part hT.lipD hDt k3 k4 hH1 hH2
  refine le_trans (le_of_eq ?_) ((abs_add_le _ _).trans ((add_le_add A B).trans (le_of_eq ?_)))
  · congr 1; ring
  · ring

/-- A cast, stably stratified at the reference pressures within `D` of `π`, whose data extend `D` beyond `π`: potential density increases with pressure by at least `N` and at most `U` per unit of pressure;
salinity and temperature change by at most `Ls` and `Lt`; `τ` is the accuracy in density of the vertical solver. -/
structure Stable (kind : PPKind) (c : Cast (Fl ℝ)) (e : ℝ → ℝ → ℝ → ℝ) (smin tol : ℝ) (n : ℕ) (π D N U Ls Lt τ : ℝ) : Prop where
  data : ∃ A B, Sea c smin tol n A B ∧ A ≤ π - D ∧ π + D ≤ B ∧ ∀ p, A ≤ p → p ≤ B → U * acc tol p ≤ τ
  strat : ∀ z z' s t s' t' p, z ≤ z' → On kind c s t z → On kind c s' t' z' → |p - π| ≤ D →
    N * (z' - z) ≤ e s' t' p - e s t p ∧ e s' t' p - e s t p ≤ U * (z' - z)
  lip : ∀ z z' s t s' t', On kind c s t z → On kind c s' t' z' → |s' - s| ≤ Ls * |z' - z| ∧ |t' - t| ≤ Lt * |z' - z|

theorem Stable.both {kind : PPKind} {c : Cast (Fl ℝ)} {π D N U Ls Lt τ : ℝ} (h : Stable kind c e smin tol n π D N U Ls Lt τ) (hN : 0 < N)
    {z z' s t s' t' p : ℝ} (h1 : On kind c s t z) (h2 : On kind c s' t' z') (hp : |p - π| ≤ D) :
    N * |z' - z| ≤ |e s' t' p - e s t p| ∧ |e s' t' p - e s t p| ≤ U * |z' - z| := by
  have main : ∀ {z z' s t s' t' : ℝ}, z ≤ z' → On kind c s t z → On kind c s' t' z' →
      N * |z' - z| ≤ |e s' t' p - e s t p| ∧ |e s' t' p - e s t p| ≤ U * |z' - z| := by
    intro z z' s t s' t' hz h1 h2
    obtain ⟨a1, a2⟩ := h.strat z z' s t s' t' p hz h1 h2 hp
    have a3 : 0 ≤ N * (z' - z) := mul_nonneg hN.le (sub_nonneg.2 hz)
    rw [abs_of_nonneg (sub_nonneg.2 hz), abs_of_nonneg (a3.trans a1)]
    exact ⟨a1, a2⟩
  rcases le_total z z' with hz | hz
  · exact main hz h1 h2
  · have := main hz h2 h1
    rwa [abs_sub_comm, abs_sub_comm (e s t p)] at this

/-- Data of a cast are unique. -/
theorem sea_unique {c : Cast (Fl ℝ)} {A B A' B' : ℝ} (h : Sea c smin tol n A B) (h' : Sea c smin tol n A' B') : A = A' ∧ B = B' := by
  obtain ⟨k, K, x, s, t, G, -, -, rfl, rfl⟩ := h
  obtain ⟨k', K', x', s', t', G', -, -, rfl, rfl⟩ := h'
  have := G.S.vr.1.symm.trans G'.S.vr.1
  simp only [Prod.mk.injEq] at this
  obtain ⟨rfl, rfl⟩ := this
  have h2 := G.S.two
  constructor
  · have := (G.S.hX k le_rfl (by omega)).symm.trans (G'.S.hX k le_rfl (by omega))
    exact Fl.fin.inj this
  · have := (G.S.hX (K - 1) (by omega) (by omega)).symm.trans (G'.S.hX (K - 1) (by omega) (by omega))
    exact Fl.fin.inj this

theorem sea_not_land {c : Cast (Fl ℝ)} {A B : ℝ} (h : Sea c smin tol n A B) : ¬ Land c := by
  obtain ⟨k, K, x, s, t, G, -, -, rfl, rfl⟩ := h
  rintro ⟨h1, -⟩
  rw [G.S.vr.2] at h1
  have := G.S.two
  dsimp only at h1
  omega

theorem on_not_land {kind : PPKind} {c : Cast (Fl ℝ)} {s t p : ℝ} (h : On kind c s t p) : ¬ Land c := by
  rintro ⟨-, h2⟩
  have hout : outside c.P (validRange2 c.P c.S).1 (validRange2 c.P c.S).2 (fin p) = true := by
    unfold outside
    rw [decide_eq_true (by omega)]; simp
  have h1 := h.1
  cases kind <;>
  · simp only [interpAt, linearInterp1, pchipInterp1, ppinterp1] at h1
    rw [if_pos hout] at h1
    cases h1

/-- The vertical solve on a stable cast: the point is found, the change of density is the correction up to the accuracy, and the change of pressure is bounded by it. -/
theorem stable_moves {kind : PPKind} {c : Cast (Fl ℝ)} {π D N U Ls Lt τ : ℝ} (h : Stable kind c e smin tol n π D N U Ls Lt τ) (hN : 0 < N) (hU : 0 ≤ U) (htol : 0 < tol)
    {s0 t0 p0 φ r : ℝ} (hs0 : smin ≤ s0) (hon : On kind c s0 t0 p0) (hr : |p0 - π| ≤ r) (hrD : r + |φ| / N ≤ D) {new : Fl ℝ × Fl ℝ × Fl ℝ}
    (hm : Moved kind c e smin tol n (fin s0, fin t0, fin p0) (fin φ) new) :
    ∃ s t p : ℝ, new = (fin s, fin t, fin p) ∧ smin ≤ s ∧ On kind c s t p ∧ |(e s t p0 - e s0 t0 p0) - φ| ≤ τ ∧ N * |p - p0| ≤ |e s t p0 - e s0 t0 p0| := by
  obtain ⟨A, B, hsea, hA, hB, hτ⟩ := h.data
  have hφN : 0 ≤ |φ| / N := by positivity
  have hpD : |p0 - π| ≤ D := by linarith
  have hp0 := abs_le.1 hr
  have hacc : ∀ p, 0 ≤ acc tol p := fun p => by unfold acc; positivity
  have hτ0 : 0 ≤ τ := (mul_nonneg hU (hacc p0)).trans (hτ p0 (by linarith [hp0.1]) (by linarith [hp0.2]))
  rcases hm with ⟨k1, k2⟩ | ⟨k1, -⟩ | ⟨s', t', p', φ', k1, k2, -, ⟨k3, k4⟩ | ⟨A', B', k3, gS, gT, k4, k5⟩⟩
  · rw [Fl.fin.injEq] at k1
    subst k1
    exact ⟨s0, t0, p0, k2, hs0, hon, by simpa using hτ0, by simp⟩
  · cases k1
  · exact absurd k3 (sea_not_land hsea)
  · cases k1
    rw [Fl.fin.injEq] at k2
    subst k2
    obtain ⟨rfl, rfl⟩ := sea_unique hsea k3
    have hAB : A ≤ B := by linarith [hp0.1, hp0.2]
    have hAp : A ≤ p0 := by linarith [hp0.1]
    have hpB : p0 ≤ B := by linarith [hp0.2]
    have hsm : ∀ x, A ≤ x → x ≤ B → smin ≤ gS x := by
      obtain ⟨k, K, x, sv, tv, G, hsv, -, rfl, rfl⟩ := hsea
      intro y hy hy'
      exact at_smin kind G hsv hy hy' (k4 y hy hy')
    rcases k5 with ⟨k5, k6⟩ | ⟨p, z, k5, q1, q2, z1, z2, hz, hd⟩
    · exfalso
      dsimp only at k6
      have hlo := (h.strat A p0 _ _ _ _ p0 hAp (k4 A le_rfl hAB) hon hpD).1
      have hhi := (h.strat p0 B _ _ _ _ p0 hpB hon (k4 B hAB le_rfl) hpD).1
      have e1 : |φ| ≤ N * (p0 - A) := by
        rw [mul_comm, ← div_le_iff₀ hN]; linarith [hp0.1]
      have e2 : |φ| ≤ N * (B - p0) := by
        rw [mul_comm, ← div_le_iff₀ hN]; linarith [hp0.2]
      have f1 : e (gS A) (gT A) p0 - (e s0 t0 p0 + φ) ≤ 0 := by linarith [neg_abs_le φ]
      have f2 : 0 ≤ e (gS B) (gT B) p0 - (e s0 t0 p0 + φ) := by linarith [le_abs_self φ]
      exact absurd k6 (not_lt.2 (mul_nonpos_of_nonpos_of_nonneg f1 f2))
    · dsimp only at hz
      have hb := (h.both hN (k4 z z1 z2) (k4 p q1 q2) hpD).2
      refine ⟨_, _, p, k5, hsm p q1 q2, k4 p q1 q2, ?_, (h.both hN hon (k4 p q1 q2) hpD).1⟩
      rw [show e (gS p) (gT p) p0 - e s0 t0 p0 - φ = e (gS p) (gT p) p0 - e (gS z) (gT z) p0 by linarith]
      refine hb.trans (le_trans (mul_le_mul_of_nonneg_left ?_ hU) (hτ p q1 q2))
      rw [abs_sub_comm]
      exact hd

/-- A region `R` of casts, stable within `D` of the pressures `π`, well below the mixed layer, without wetting.  `Ds`, `Dt` bound the differences of salinity and temperature between adjacent casts,
`H` those of pressure, `ρ` the resistance of the routes from the pinning cast. -/
structure Calm (c : Cfg (Fl ℝ)) (E : List ((ℕ × ℕ) × ℝ)) (e : ℝ → ℝ → ℝ → ℝ) (smin tol : ℝ) (n : ℕ) (R : List ℕ) (π : ℕ → ℝ)
    (D N U Ls Lt τ Ds Dt H ρ : ℝ) : Prop where
  nodup : R.Nodup
  pin : c.pin ∈ R
  other : ∃ m ∈ R, m ≠ c.pin
  casts : ∀ m ∈ R, Stable c.kind (c.casts m) e smin tol n (π m) D N U Ls Lt τ
  near : ∀ x ∈ OmegaMat.inner E R, |π x.1.1 - π x.1.2| + 2 * D ≤ H
  lateral : ∀ x ∈ OmegaMat.inner E R, ∀ s1 t1 p1 s2 t2 p2, On c.kind (c.casts x.1.1) s1 t1 p1 → |p1 - π x.1.1| ≤ D →
    On c.kind (c.casts x.1.2) s2 t2 p2 → |p2 - π x.1.2| ≤ D → |s2 - s1| ≤ Ds ∧ |t2 - t1| ≤ Dt
  below : ∀ m ∈ R, ∀ p, |p - π m| ≤ D → lt (fin p) (c.pml m) = false
  routes : ∀ m ∈ R, ∃ k ρ', OmegaMat.Route E R c.pin m k ρ' ∧ ρ' ≤ ρ
  /-- no wetting, or only land beside the region -/
  wetting : (∀ k ≤ c.iterMax, ¬ (c.startWet ≤ k ∧ k ≤ c.stopWet)) ∨ ∀ m ∈ R, ∀ k ∈ c.G.nbrs m, k ∈ R ∨ Land (c.casts k)

/-- The surface `stp` within `r` of the pressures `π` on the region `R`, which is what is connected with the pinning cast. -/
structure Near (c : Cfg (Fl ℝ)) (smin : ℝ) (R : List ℕ) (π : ℕ → ℝ) (r : ℝ) (stp : Surf (Fl ℝ)) : Prop where
  reach : ∀ m, m ∈ R ↔ Reach c.G (wet stp) c.pin m
  pt : ∀ m ∈ R, ∃ s t p : ℝ, stp m = (fin s, fin t, fin p) ∧ smin ≤ s ∧ On c.kind (c.casts m) s t p ∧ |p - π m| ≤ r

/-- The solution of the matrix problem for the surface is at most `M`. -/
def CorrLe (c : Cfg (Fl ℝ)) (E : List ((ℕ × ℕ) × ℝ)) (eosST : Ntp.EosST (Fl ℝ)) (R : List ℕ) (M : ℝ) (stp : Surf (Fl ℝ)) : Prop :=
  ∀ ε ψ, OmegaMat.Region E R c.pin eosST (fun m => (stp m).1) (fun m => (stp m).2.1) (fun m => (stp m).2.2) ε → OmegaMat.Balanced E R ε ψ → ψ c.pin = 0 →
    ∀ m ∈ R, |ψ m| ≤ M

/-- Thermobaricity relative to stratification. -/
noncomputable def kappa (La Ld N Ls Lt Ds Dt H : ℝ) : ℝ := (La * (Ds / 2 + Ls * H) + Ld * (Dt / 2 + Lt * H)) / N

/-- The factor by which corrections decrease. -/
noncomputable def factor (E : List ((ℕ × ℕ) × ℝ)) (R : List ℕ) (ρ κ : ℝ) : ℝ := 4 * κ * ρ * ((OmegaMat.inner E R).map Prod.snd).sum

theorem reach_mono {G : Csr} {good good' : ℕ → Bool} {root m : ℕ} (h : ∀ k, Reach G good root k → good' k = true) (hm : Reach G good root m) :
    Reach G good' root m := by
  obtain ⟨k, w⟩ := hm
  refine ⟨k, ?_⟩
  induction w with
  | root hg => exact .root (h _ ⟨_, .root hg⟩)
  | step w hn hg ih => exact .step ih hn (h _ ⟨_, .step w hn hg⟩)

variable {R : List ℕ} {π : ℕ → ℝ} {D N U Ls Lt τ Ds Dt H ρ β : ℝ}

theorem Near.removeML (Q : Calm c E e smin tol n R π D N U Ls Lt τ Ds Dt H ρ) {r : ℝ} (hr : r ≤ D) {iter : ℕ} {stp : Surf (Fl ℝ)} (h : Near c smin R π r stp) :
    (∀ m ∈ R, removeML c iter stp m = stp m) ∧ Near c smin R π r (removeML c iter stp) := by
  have hk : ∀ m ∈ R, Omega.removeML c iter stp m = stp m := by
    intro m hm
    obtain ⟨s, t, p, h1, -, -, h4⟩ := h.pt m hm
    unfold Omega.removeML
    split_ifs
    · dsimp only
      rw [if_neg]
      rw [h1]
      dsimp only
      rw [Q.below m hm p (h4.trans hr)]
      exact Bool.false_ne_true
    · rfl
  refine ⟨hk, fun m => ⟨fun hm => ?_, fun hm => ?_⟩, fun m hm => by rw [hk m hm]; exact h.pt m hm⟩
  · refine reach_mono (fun k hk' => ?_) ((h.reach m).1 hm)
    have hkR := (h.reach k).2 hk'
    unfold wet
    rw [hk k hkR]
    obtain ⟨_, w⟩ := hk'
    exact w.good
  · refine (h.reach m).2 (reach_mono (fun k hk' => ?_) hm)
    obtain ⟨_, w⟩ := hk'
    have := w.good
    revert this
    unfold wet Omega.removeML
    split_ifs
    · dsimp only
      split_ifs
      · intro h; cases h
      · exact id
    · exact id

/-- One pass on a calm region: the region stays the same, the corrections are bounded, the surface moves little; the density changes by `χ`, which is the solution `ψ` of the matrix problem up to the accuracies, and the new errors are
those expected from this change up to the thermobaric terms. -/
theorem pass_moves (W : World c E eosST e smin tol n b) (hT : Thermobaric eosST e smin f a d La Ld) (Q : Calm c E e smin tol n R π D N U Ls Lt τ Ds Dt H ρ)
    (hN : 0 < N) (hU : 0 ≤ U) (hτ : 0 ≤ τ) (hβ : ∀ q m, b q m ≤ β) (hβ0 : 0 ≤ β)
    (hκ : 0 ≤ kappa La Ld N Ls Lt Ds Dt H) {M r : ℝ} (hM0 : 0 ≤ M) (hrD : r + (M + β + τ) / N ≤ D)
    {iter : ℕ} (hi : iter ≤ c.iterMax) {stp : Surf (Fl ℝ)} (hnear : Near c smin R π r stp) (hM : CorrLe c E eosST R M stp)
    {x : Iter (Fl ℝ)} (hS : PassSpec c E eosST e smin tol n b iter stp x) (hpin : x.new c.pin = stp c.pin) :
    (∀ m, m ∈ x.qu ↔ m ∈ R) ∧ (∀ m ∈ R, ∃ φ : ℝ, x.phi m = fin φ ∧ |φ| ≤ M + β) ∧ Near c smin R π (r + (M + β + τ) / N) x.new ∧
      (∀ m ∈ R, ∃ p p' : ℝ, (stp m).2.2 = fin p ∧ (x.new m).2.2 = fin p' ∧ |p' - p| ≤ (M + β + τ) / N) ∧
      ∃ (ε : ℕ × ℕ → ℝ) (ψ χ : ℕ → ℝ), OmegaMat.Region E R c.pin eosST (fun m => (stp m).1) (fun m => (stp m).2.1) (fun m => (stp m).2.2) ε ∧
        OmegaMat.Balanced E R ε ψ ∧ ψ c.pin = 0 ∧ χ c.pin = 0 ∧ (∀ m ∈ R, |χ m - ψ m| ≤ β + τ ∧ |χ m| ≤ M + β + τ) ∧
        ∀ ε', OmegaMat.Region E R c.pin eosST (fun m => (x.new m).1) (fun m => (x.new m).2.1) (fun m => (x.new m).2.2) ε' →
          ∀ y ∈ OmegaMat.inner E R, |ε' y.1 - (ε y.1 + χ y.1.2 - χ y.1.1)| ≤ kappa La Ld N Ls Lt Ds Dt H * (|χ y.1.1| + |χ y.1.2|) := by
  have hpos : 0 ≤ (M + β + τ) / N := by positivity
  obtain ⟨hkeep, hnr⟩ := hnear.removeML Q (by linarith) (iter := iter)
  have hset : (∀ m ∈ R, x.old m = Omega.removeML c iter stp m) ∧ ∀ m, wet x.old m = true → wet (Omega.removeML c iter stp) m = true := by
    by_cases hw : c.startWet ≤ iter ∧ iter ≤ c.stopWet
    · have hland := Q.wetting.resolve_left fun h => h iter hi hw
      obtain ⟨V, hV, -⟩ := hS.wetted hw
      have hVe : V = [] := by
        rcases V with _ | ⟨v, V⟩
        · rfl
        exfalso
        obtain ⟨s, t, p, -, i1, i2, ns, g, hne, hsub, -, hns⟩ := hV.linked 0 v rfl
        obtain ⟨k, hk⟩ := List.exists_mem_of_ne_nil ns hne
        have hkr := (hns k hk).1.resolve_right (by simp)
        have hv := W.sym _ _ (hsub.subset hk)
        rcases hland k ((hnr.reach k).2 hkr) v hv with h | h
        · obtain ⟨_, w⟩ := (hnr.reach v).1 h
          have := w.good
          rw [(hV.was_dry v (by simp)).1] at this
          cases this
        · exact on_not_land ⟨i1, i2⟩ h
      refine ⟨fun m hm => hV.kept m ((hnr.reach m).1 hm), fun m hm => ?_⟩
      by_cases hr : Reach c.G (wet (Omega.removeML c iter stp)) c.pin m
      · obtain ⟨_, w⟩ := hr
        exact w.good
      · unfold wet at hm
        rw [hV.cut m hr (by rw [hVe]; simp)] at hm
        cases hm
    · have := (hS.old hw).1
      rw [this]
      exact ⟨fun _ _ => rfl, fun _ h => h⟩
  have hold : ∀ m ∈ R, x.old m = stp m := fun m hm => (hset.1 m hm).trans (hkeep m hm)
  have hqR : ∀ m, m ∈ x.qu ↔ m ∈ R := by
    intro m
    rw [hS.region, hnr.reach]
    refine ⟨reach_mono fun k hk => ?_, reach_mono fun k hk => ?_⟩
    · obtain ⟨_, w⟩ := hk
      exact hset.2 k w.good
    · have hkR := (hnr.reach k).2 hk
      obtain ⟨_, w⟩ := hk
      unfold wet
      rw [hset.1 k hkR]
      exact w.good
  have hlt : ∀ m ∈ R, m < c.N := fun m hm => bfs_in_range W.ok ((hnear.reach m).1 hm)
  -- the region, with the errors of the old surface
  obtain ⟨ε, H0⟩ : ∃ ε, OmegaMat.Region E x.qu c.pin eosST (fun m => (x.old m).1) (fun m => (x.old m).2.1) (fun m => (x.old m).2.2) ε := by
    rcases hS.posed with h | h
    · obtain ⟨m, hm, hne⟩ := Q.other
      have := (hqR m).2 hm
      rw [h, List.mem_singleton] at this
      exact absurd this hne
    · exact h
  have HR : OmegaMat.Region E R c.pin eosST (fun m => (stp m).1) (fun m => (stp m).2.1) (fun m => (stp m).2.2) ε :=
    OmegaMat.region_congr hqR Q.nodup (fun m hm => by rw [hold m ((hqR m).1 hm)]; exact ⟨rfl, rfl, rfl⟩) H0
  obtain ⟨ψ, p1, p2, -, -⟩ := OmegaMat.balanced_unique HR
  have hψM := hM ε ψ HR p2 p1
  have hphi : ∀ m ∈ R, ∃ φ : ℝ, x.phi m = fin φ ∧ |φ - ψ m| ≤ β := by
    intro m hm
    obtain ⟨φ, h1, h2⟩ := hS.solved ε ψ H0 (OmegaMat.balanced_congr (fun k => (hqR k).symm) p2) p1 m ((hqR m).2 hm)
    exact ⟨φ, h1, h2.trans (hβ _ _)⟩
  choose! φ f1 f2 using hphi
  have f3 : ∀ m ∈ R, |φ m| ≤ M + β := by
    intro m hm
    have := abs_add_le (φ m - ψ m) (ψ m)
    rw [sub_add_cancel] at this
    linarith [f2 m hm, hψM m hm]
  have hpt := hnear.pt
  choose! s t p h1 h2 h3 h4 using hpt
  have hmv : ∀ m ∈ R, ∃ s' t' p' : ℝ, x.new m = (fin s', fin t', fin p') ∧ smin ≤ s' ∧ On c.kind (c.casts m) s' t' p' ∧
      |(e s' t' (p m) - e (s m) (t m) (p m)) - φ m| ≤ τ ∧ N * |p' - p m| ≤ |e s' t' (p m) - e (s m) (t m) (p m)| := by
    intro m hm
    have hmoved := hS.moved m (hlt m hm)
    rw [hold m hm, h1 m hm, f1 m hm] at hmoved
    refine stable_moves (Q.casts m hm) hN hU W.tolPos (h2 m hm) (h3 m hm) (h4 m hm) ?_ hmoved
    refine le_trans (add_le_add_right (div_le_div_of_nonneg_right ?_ hN.le) _) hrD
    linarith [f3 m hm]
  choose! s' t' p' g1 g2 g3 g4 g5 using hmv
  obtain ⟨χ, hχ⟩ : ∃ χ : ℕ → ℝ, ∀ m, χ m = e (s' m) (t' m) (p m) - e (s m) (t m) (p m) := ⟨_, fun _ => rfl⟩
  have hχM : ∀ m ∈ R, |χ m| ≤ M + β + τ := by
    intro m hm
    have := abs_add_le (χ m - φ m) (φ m)
    rw [sub_add_cancel] at this
    have h := g4 m hm
    rw [← hχ] at h
    linarith [f3 m hm]
  have hdp : ∀ m ∈ R, |p' m - p m| ≤ |χ m| / N := by
    intro m hm
    rw [le_div_iff₀ hN, mul_comm, hχ]
    exact g5 m hm
  have hdp' : ∀ m ∈ R, |p' m - p m| ≤ (M + β + τ) / N := fun m hm => (hdp m hm).trans (div_le_div_of_nonneg_right (hχM m hm) hN.le)
  have hnew : ∀ m ∈ R, |p' m - π m| ≤ r + (M + β + τ) / N := by
    intro m hm
    have := abs_add_le (p' m - p m) (p m - π m)
    rw [sub_add_sub_cancel] at this
    linarith [hdp' m hm, h4 m hm]
  refine ⟨hqR, fun m hm => ⟨φ m, f1 m hm, f3 m hm⟩, ⟨fun m => ⟨fun hm => ?_, fun hm => ?_⟩, fun m hm => ⟨s' m, t' m, p' m, g1 m hm, g2 m hm, g3 m hm, hnew m hm⟩⟩,
    fun m hm => ⟨p m, p' m, by rw [h1 m hm], by rw [g1 m hm], hdp' m hm⟩, ?_⟩
  · refine reach_mono (fun k hk => ?_) ((hnear.reach m).1 hm)
    unfold wet
    rw [g1 k ((hnear.reach k).2 hk)]
    rfl
  · by_contra hmR
    have hmN := bfs_in_range W.ok hm
    obtain ⟨_, w⟩ := hm
    have hw := w.good
    have hp := (hS.phi m).2 fun h => hmR ((hqR m).1 h)
    have hm' := hS.moved m hmN
    rw [hp] at hm'
    unfold wet at hw
    rcases hm' with ⟨h, -⟩ | ⟨-, h⟩ | ⟨_, _, _, _, -, h, -⟩
    · cases h
    · rw [h] at hw; cases hw
    · cases h
  · have hχ0 : χ c.pin = 0 := by
      have h := g1 c.pin Q.pin
      rw [hpin, h1 c.pin Q.pin] at h
      simp only [Prod.mk.injEq, Fl.fin.injEq] at h
      rw [hχ, h.1, h.2.1, sub_self]
    have hin : ∀ y ∈ OmegaMat.inner E R, y.1.1 ∈ R ∧ y.1.2 ∈ R := fun y hy => (OmegaMat.mem_inner hy).2
    refine ⟨ε, ψ, χ, HR, p2, p1, hχ0, fun m hm => ⟨?_, hχM m hm⟩, ?_⟩
    · have := abs_add_le (χ m - φ m) (φ m - ψ m)
      rw [sub_add_sub_cancel] at this
      have h := g4 m hm
      rw [← hχ] at h
      linarith [f2 m hm]
    · intro ε' H' y hy
      obtain ⟨i1, i2⟩ := hin y hy
      have he := thermobaric_err hT (i := y.1.1) (j := y.1.2) (by rw [h1 _ i1]; exact ⟨rfl, rfl, rfl⟩) (by rw [h1 _ i2]; exact ⟨rfl, rfl, rfl⟩) (h2 _ i1) (h2 _ i2) (HR.err y hy)
      have he' := thermobaric_err hT (i := y.1.1) (j := y.1.2) (by rw [g1 _ i1]; exact ⟨rfl, rfl, rfl⟩) (by rw [g1 _ i2]; exact ⟨rfl, rfl, rfl⟩) (g2 _ i1) (g2 _ i2) (H'.err y hy)
      obtain ⟨l1, l2⟩ := Q.lateral y hy _ _ _ _ _ _ (h3 _ i1) ((h4 _ i1).trans (by linarith)) (h3 _ i2) ((h4 _ i2).trans (by linarith))
      obtain ⟨l3, l4⟩ := (Q.casts _ i1).lip _ _ _ _ _ _ (h3 _ i1) (g3 _ i1)
      obtain ⟨l5, l6⟩ := (Q.casts _ i2).lip _ _ _ _ _ _ (h3 _ i2) (g3 _ i2)
      have hnr := Q.near y hy
      have b1 := abs_le.1 (h4 _ i1)
      have b2 := abs_le.1 (h4 _ i2)
      have b3 := abs_le.1 (hnew _ i1)
      have b4 := abs_le.1 (hnew _ i2)
      have b5 := abs_le.1 (le_refl |π y.1.1 - π y.1.2|)
      have H1 : |(p' y.1.1 + p' y.1.2) / 2 - p y.1.1| ≤ H := by
        rw [abs_le]; constructor <;> linarith
      have H2 : |(p' y.1.1 + p' y.1.2) / 2 - p y.1.2| ≤ H := by
        rw [abs_le]; constructor <;> linarith
      have key := thermobaric_change hT (h2 _ i1) (h2 _ i2) (g2 _ i1) (g2 _ i2) he he' l1 l2 l3 l5 l4 l6 H1 H2
      have hk0 : 0 ≤ La * (Ds / 2 + Ls * H) + Ld * (Dt / 2 + Lt * H) := by
        have := mul_nonneg hκ hN.le
        unfold kappa at this
        rwa [div_mul_cancel₀ _ hN.ne'] at this
      rw [hχ, hχ]
      refine (le_trans (le_of_eq ?_) key).trans ?_
      · congr 1
      · unfold kappa
        rw [div_mul_eq_mul_div, mul_div_assoc]
        refine mul_le_mul_of_nonneg_left ?_ hk0
        rw [add_div, ← hχ, ← hχ]
        exact add_le_add (hdp _ i1) (hdp _ i2)

/-- **C148** One pass on a calm region: the region stays the same, the corrections are bounded, the surface moves little and the next corrections are smaller. -/
theorem pass_calm (W : World c E eosST e smin tol n b) (hT : Thermobaric eosST e smin f a d La Ld) (Q : Calm c E e smin tol n R π D N U Ls Lt τ Ds Dt H ρ)
    (hN : 0 < N) (hU : 0 ≤ U) (hτ : 0 ≤ τ) (hβ : ∀ q m, b q m ≤ β) (hβ0 : 0 ≤ β)
    (hκ : 0 ≤ kappa La Ld N Ls Lt Ds Dt H) {M r : ℝ} (hM0 : 0 ≤ M) (hrD : r + (M + β + τ) / N ≤ D)
    {iter : ℕ} (hi : iter ≤ c.iterMax) {stp : Surf (Fl ℝ)} (hnear : Near c smin R π r stp) (hM : CorrLe c E eosST R M stp)
    {x : Iter (Fl ℝ)} (hS : PassSpec c E eosST e smin tol n b iter stp x) (hpin : x.new c.pin = stp c.pin) :
    (∀ m, m ∈ x.qu ↔ m ∈ R) ∧ (∀ m ∈ R, ∃ φ : ℝ, x.phi m = fin φ ∧ |φ| ≤ M + β) ∧ Near c smin R π (r + (M + β + τ) / N) x.new ∧
      (∀ m ∈ R, ∃ p p' : ℝ, (stp m).2.2 = fin p ∧ (x.new m).2.2 = fin p' ∧ |p' - p| ≤ (M + β + τ) / N) ∧
      CorrLe c E eosST R (β + τ + factor E R ρ (kappa La Ld N Ls Lt Ds Dt H) * (M + β + τ)) x.new := by
  obtain ⟨h1, h2, h3, h4, ε, ψ, χ, HR, p2, p1, hχ0, hχ, hbd⟩ := pass_moves W hT Q hN hU hτ hβ hβ0 hκ hM0 hrD hi hnear hM hS hpin
  refine ⟨h1, h2, h3, h4, fun ε' ψ' H' hψ' h0' m hm => ?_⟩
  obtain ⟨k, ρ', hroute, hρ⟩ := Q.routes m hm
  have hnc := OmegaMat.next_correction HR p2 hψ' p1 h0' hχ0 hκ (hbd ε' H') (fun m hm => (hχ m hm).2) hroute
  refine hnc.trans (add_le_add (hχ m hm).1 ?_)
  unfold factor
  have hW : 0 ≤ ((OmegaMat.inner E R).map Prod.snd).sum := by
    apply List.sum_nonneg
    intro z hz
    obtain ⟨y, hy, rfl⟩ := List.mem_map.1 hz
    exact (HR.pos y hy).le
  gcongr

/-- The setting of the theorem: a well formed ocean, the seawater, a calm region, solvers with accuracies `β` (of the matrix problem) and `τ` (of the vertical solves, in density), corrections of the initial surface
at most `M`, a factor `q < 1`, and room to move. -/
structure Weak (c : Cfg (Fl ℝ)) (E : List ((ℕ × ℕ) × ℝ)) (eosST : Ntp.EosST (Fl ℝ)) (e : ℝ → ℝ → ℝ → ℝ) (smin tol : ℝ) (n : ℕ) (b : List ℕ → ℕ → ℝ)
    (f : ℝ → ℝ → ℝ) (a d : ℝ → ℝ) (La Ld : ℝ) (R : List ℕ) (π : ℕ → ℝ) (D N U Ls Lt τ Ds Dt H ρ β q M : ℝ) : Prop where
  world : World c E eosST e smin tol n b
  therm : Thermobaric eosST e smin f a d La Ld
  calm : Calm c E e smin tol n R π D N U Ls Lt τ Ds Dt H ρ
  N_pos : 0 < N
  U_nonneg : 0 ≤ U
  τ_nonneg : 0 ≤ τ
  β_nonneg : 0 ≤ β
  within : ∀ q m, b q m ≤ β
  κ_nonneg : 0 ≤ kappa La Ld N Ls Lt Ds Dt H
  q_nonneg : 0 ≤ q
  q_ge : factor E R ρ (kappa La Ld N Ls Lt Ds Dt H) ≤ q
  q_lt : q < 1
  M_nonneg : 0 ≤ M
  room : (M + 2 * c.iterMax * (β + τ)) / (1 - q) ≤ N * D

theorem CorrLe.mono {M M' : ℝ} (h : M ≤ M') {stp : Surf (Fl ℝ)} (H : CorrLe c E eosST R M stp) : CorrLe c E eosST R M' stp :=
  fun ε ψ a1 a2 a3 m hm => (H ε ψ a1 a2 a3 m hm).trans h

theorem Near.mono {r r' : ℝ} (h : r ≤ r') {stp : Surf (Fl ℝ)} (H : Near c smin R π r stp) : Near c smin R π r' stp :=
  ⟨H.reach, fun m hm => by obtain ⟨s, t, p, h1, h2, h3, h4⟩ := H.pt m hm; exact ⟨s, t, p, h1, h2, h3, h4.trans h⟩⟩

/-- Corrections of a surface with neutrality errors of at most `η`. -/
theorem corrLe_of_errors (Q : Calm c E e smin tol n R π D N U Ls Lt τ Ds Dt H ρ) {η : ℝ} {stp : Surf (Fl ℝ)}
    (h : ∀ x ∈ OmegaMat.inner E R, ∃ v : ℝ, Ntp.epsErr eosST (fun m => (stp m).1) (fun m => (stp m).2.1) (fun m => (stp m).2.2) x.1 = fin v ∧ |v| ≤ η) (hη : 0 ≤ η) :
    CorrLe c E eosST R (ρ * (2 * (((OmegaMat.inner E R).map Prod.snd).sum * η))) stp := by
  intro ε ψ HR hψ h0 m hm
  obtain ⟨k, ρ', hroute, hρ⟩ := Q.routes m hm
  have hz : OmegaMat.Balanced E R (fun _ => 0) fun _ => 0 := by
    intro i _
    simp [OmegaMat.corr]
  have hs := OmegaMat.correction_sensitivity HR.nodup HR.pos HR.ref hψ hz hroute
  rw [h0] at hs
  simp only [sub_zero, zero_sub, abs_neg] at hs
  have hsum : ∀ l : List ((ℕ × ℕ) × ℝ), (∀ y ∈ l, y ∈ OmegaMat.inner E R) → (l.map fun y => y.2 * |ε y.1|).sum ≤ (l.map Prod.snd).sum * η ∧ 0 ≤ (l.map Prod.snd).sum := by
    intro l
    induction l with
    | nil => simp
    | cons y l ih =>
      intro hl
      obtain ⟨ih, ih'⟩ := ih fun y hy => hl y (List.mem_cons_of_mem _ hy)
      have hy := hl y List.mem_cons_self
      have hp := HR.pos y hy
      simp only [List.map_cons, List.sum_cons]
      obtain ⟨v, v1, v2⟩ := h y hy
      rw [HR.err y hy, Fl.fin.injEq] at v1
      rw [← v1] at v2
      have := mul_le_mul_of_nonneg_left v2 hp.le
      exact ⟨by linarith [add_mul y.2 (List.map Prod.snd l).sum η], by linarith⟩
  obtain ⟨s1, s2⟩ := hsum _ fun _ h => h
  have hR := hroute.nonneg HR.pos
  refine hs.trans ((mul_le_mul_of_nonneg_left (mul_le_mul_of_nonneg_left s1 zero_le_two) hR).trans ?_)
  gcongr

variable {q M : ℝ}

/-- Bound on the corrections of pass `k + 1`. -/
noncomputable def level (q M η : ℝ) (k : ℕ) : ℝ := q ^ k * M + 2 * η / (1 - q)

/-- One pass of the run. -/
theorem one_calm (X : Weak c E eosST e smin tol n b f a d La Ld R π D N U Ls Lt τ Ds Dt H ρ β q M) {s0 t0 p0 : ℝ} (hml : lt (fin p0) (c.pml c.pin) = false)
    {k : ℕ} {stp : Surf (Fl ℝ)} (hk : k < c.iterMax) (hf : Fine c smin stp) (hp : stp c.pin = (fin s0, fin t0, fin p0))
    (i1 : Near c smin R π ((M * (1 - q ^ k) + 2 * k * (β + τ)) / (1 - q) / N) stp) (i2 : CorrLe c E eosST R (q ^ k * M + (β + τ) * (1 + q) / (1 - q)) stp)
    {r : Iter (Fl ℝ)} (hr : step c (fin p0) (k + 1) stp = .ok r) :
    (∀ m, m ∈ r.qu ↔ m ∈ R) ∧ (∀ m ∈ R, ∃ φ : ℝ, r.phi m = fin φ ∧ |φ| ≤ level q M (β + τ) k) ∧ Near c smin R π D r.new ∧
      (∀ m ∈ R, ∃ p p' : ℝ, (stp m).2.2 = fin p ∧ (r.new m).2.2 = fin p' ∧ |p' - p| ≤ level q M (β + τ) k / N) ∧
      Near c smin R π ((M * (1 - q ^ (k + 1)) + 2 * (k + 1 : ℕ) * (β + τ)) / (1 - q) / N) r.new ∧
      CorrLe c E eosST R (q ^ (k + 1) * M + (β + τ) * (1 + q) / (1 - q)) r.new := by
  have hq1 : 0 < 1 - q := by linarith [X.q_lt]
  have hη : 0 ≤ β + τ := add_nonneg X.β_nonneg X.τ_nonneg
  obtain ⟨r', h1, h2, h3⟩ := step_total X.world (k + 1) hf hp hml
  rw [hr] at h1
  cases h1
  have hM0 : 0 ≤ q ^ k * M + (β + τ) * (1 + q) / (1 - q) := by
    have := X.q_nonneg
    have := X.M_nonneg
    positivity
  have hlev : q ^ k * M + (β + τ) * (1 + q) / (1 - q) + β + τ = level q M (β + τ) k := by
    have := hq1.ne'
    unfold level
    field_simp
    ring
  have hinc : (M * (1 - q ^ k) + 2 * k * (β + τ)) / (1 - q) / N + (q ^ k * M + (β + τ) * (1 + q) / (1 - q) + β + τ) / N =
      (M * (1 - q ^ (k + 1)) + 2 * (k + 1 : ℕ) * (β + τ)) / (1 - q) / N := by
    have := X.N_pos.ne'
    have := hq1.ne'
    push_cast
    field_simp
    ring
  have hroom : (M * (1 - q ^ (k + 1)) + 2 * (k + 1 : ℕ) * (β + τ)) / (1 - q) / N ≤ D := by
    rw [div_le_iff₀ X.N_pos, mul_comm D]
    refine le_trans (div_le_div_of_nonneg_right ?_ hq1.le) X.room
    have e1 : 0 ≤ q ^ (k + 1) * M := mul_nonneg (pow_nonneg X.q_nonneg _) X.M_nonneg
    have e2 : ((k + 1 : ℕ) : ℝ) ≤ c.iterMax := by exact_mod_cast hk
    have e3 := mul_le_mul_of_nonneg_right e2 hη
    linarith
  obtain ⟨g1, g2, g3, g5, g4⟩ := pass_calm X.world X.therm X.calm X.N_pos X.U_nonneg X.τ_nonneg X.within X.β_nonneg X.κ_nonneg hM0 (by rw [hinc]; exact hroom) hk i1 i2 h2
    (h3.trans hp.symm)
  rw [hinc] at g3
  rw [hlev] at g5
  refine ⟨g1, fun m hm => ?_, g3.mono hroom, g5, g3, g4.mono ?_⟩
  · obtain ⟨φ, a1, a2⟩ := g2 m hm
    exact ⟨φ, a1, a2.trans (by rw [← hlev]; linarith [X.τ_nonneg])⟩
  · have h0 : 0 ≤ q ^ k * M + (β + τ) * (1 + q) / (1 - q) + β + τ := by linarith
    refine (add_le_add_right (mul_le_mul_of_nonneg_right X.q_ge h0) _).trans (le_of_eq ?_)
    have := hq1.ne'
    field_simp
    ring

/-- The surfaces before every pass. -/
theorem run_calm (X : Weak c E eosST e smin tol n b f a d La Ld R π D N U Ls Lt τ Ds Dt H ρ β q M) {s0 t0 p0 : ℝ} (hml : lt (fin p0) (c.pml c.pin) = false)
    {stp0 : Surf (Fl ℝ)} (hf : Fine c smin stp0) (hp : stp0 c.pin = (fin s0, fin t0, fin p0)) (hn : Near c smin R π 0 stp0) (hc : CorrLe c E eosST R M stp0)
    {k : ℕ} {stp : Surf (Fl ℝ)} (hk : k ≤ c.iterMax) (hb : Before c (fin p0) stp0 k stp) :
    Near c smin R π ((M * (1 - q ^ k) + 2 * k * (β + τ)) / (1 - q) / N) stp ∧ CorrLe c E eosST R (q ^ k * M + (β + τ) * (1 + q) / (1 - q)) stp := by
  have hq1 : 0 < 1 - q := by linarith [X.q_lt]
  have hη : 0 ≤ β + τ := add_nonneg X.β_nonneg X.τ_nonneg
  induction hb with
  | start =>
    refine ⟨?_, hc.mono ?_⟩
    · simpa using hn
    · have := X.q_nonneg
      have : 0 ≤ (β + τ) * (1 + q) / (1 - q) := by positivity
      simpa using this
  | @pass k stp r hb' hr ih =>
    obtain ⟨i1, i2⟩ := ih (by omega)
    obtain ⟨j1, j2⟩ := run_spec X.world hml hf hp (by omega) hb'
    obtain ⟨-, -, -, -, h1, h2⟩ := one_calm X hml (by omega) j1 j2 i1 i2 hr
    exact ⟨h1, h2⟩

/-- **C148** The passes on a calm region: the region stays the same, the corrections of pass `k + 1` are at most `q ^ k M + 2 (β + τ) / (1 - q)`, no cast moves by more than that over `N`, and the surface stays within `D` of
the initial one. -/
theorem passes_converge (X : Weak c E eosST e smin tol n b f a d La Ld R π D N U Ls Lt τ Ds Dt H ρ β q M) {s0 t0 p0 : ℝ} (hml : lt (fin p0) (c.pml c.pin) = false)
    {stp0 : Surf (Fl ℝ)} (hf : Fine c smin stp0) (hp : stp0 c.pin = (fin s0, fin t0, fin p0)) (hn : Near c smin R π 0 stp0) (hc : CorrLe c E eosST R M stp0)
    {k : ℕ} {stp : Surf (Fl ℝ)} (hk : k < c.iterMax) (hb : Before c (fin p0) stp0 k stp) {r : Iter (Fl ℝ)} (hr : step c (fin p0) (k + 1) stp = .ok r) :
    (∀ m, m ∈ r.qu ↔ m ∈ R) ∧ (∀ m ∈ R, ∃ φ : ℝ, r.phi m = fin φ ∧ |φ| ≤ level q M (β + τ) k) ∧ Near c smin R π D r.new ∧
      ∀ m ∈ R, ∃ p p' : ℝ, (stp m).2.2 = fin p ∧ (r.new m).2.2 = fin p' ∧ |p' - p| ≤ level q M (β + τ) k / N := by
  obtain ⟨i1, i2⟩ := run_calm X hml hf hp hn hc hk.le hb
  obtain ⟨j1, j2⟩ := run_spec X.world hml hf hp hk.le hb
  obtain ⟨h1, h2, h3, h4, -⟩ := one_calm X hml hk j1 j2 i1 i2 hr
  exact ⟨h1, h2, h3, h4⟩

/-- The mean absolute correction of a pass. -/
theorem phiMAV_le (W : World c E eosST e smin tol n b) (hpin : c.pin ∈ R) {iter : ℕ} {stp : Surf (Fl ℝ)} {r : Iter (Fl ℝ)}
    (hS : PassSpec c E eosST e smin tol n b iter stp r) (hq : ∀ m, m ∈ r.qu ↔ m ∈ R) {L : ℝ} (hφ : ∀ m ∈ R, ∃ φ : ℝ, r.phi m = fin φ ∧ |φ| ≤ L) :
    ∃ v : ℝ, phiMAV c r = fin v ∧ v ≤ L := by
  choose! φ h1 h2 using hφ
  have hH : Holds c.N r.qu.toFinset r.phi φ := by
    refine ⟨fun m hm => Finset.mem_range.2 (bfs_in_range W.ok ((hS.region m).1 (List.mem_toFinset.1 hm))), fun m hm => ⟨fun h => ?_, fun h => ?_⟩⟩
    · exact h1 m ((hq m).1 (List.mem_toFinset.1 h))
    · exact (hS.phi m).2 fun h' => h (List.mem_toFinset.2 h')
  have hne : r.qu.toFinset.Nonempty := ⟨c.pin, List.mem_toFinset.2 ((hq _).2 hpin)⟩
  refine ⟨_, nanmean_holds hH.abs hne, ?_⟩
  rw [div_le_iff₀ (by exact_mod_cast Finset.card_pos.2 hne)]
  refine (Finset.sum_le_card_nsmul _ _ L fun m hm => h2 m ((hq m).1 (List.mem_toFinset.1 hm))).trans (le_of_eq ?_)
  rw [nsmul_eq_mul, mul_comm]

/-- The loop stops at the latest with the first pass after `iterMin` whose correction must be below the tolerance. -/
theorem loop_stops {pinP : Fl ℝ} {stp0 : Surf (Fl ℝ)} {K : ℕ}
    (h : ∀ k stp r, k = K → Before c pinP stp0 k stp → step c pinP (k + 1) stp = .ok r → ∀ rms, converged c (k + 1) r rms = true) :
    ∀ (left k : ℕ) (s s' : State (Fl ℝ)), k ≤ K → K < k + left → Before c pinP stp0 k s.stp → loop c pinP left (k + 1) s = .ok s' → s'.last ≤ K + 1 := by
  intro left
  induction left with
  | zero => intro k s s' _ _; omega
  | succ left ih =>
    intro k s s' hk hK hb hl
    unfold loop at hl
    obtain ⟨r, hr, hl⟩ := bind_ok hl
    split_ifs at hl with hc
    · cases hl
      show k + 1 ≤ K + 1
      omega
    · by_cases hkK : k = K
      · exact absurd (h k s.stp r hkK hb hr _) hc
      · exact ih (k + 1) (after c (k + 1) s r) s' (by omega) (by omega) (.pass hb hr) hl

/-- The surface that the loop returns. -/
theorem loop_before {pinP : Fl ℝ} {stp0 : Surf (Fl ℝ)} :
    ∀ (left k : ℕ) (s s' : State (Fl ℝ)), Before c pinP stp0 k s.stp → loop c pinP left (k + 1) s = .ok s' → ∃ k' ≤ k + left, Before c pinP stp0 k' s'.stp := by
  intro left
  induction left with
  | zero =>
    intro k s s' hb hl
    unfold loop at hl
    cases hl
    exact ⟨k, by omega, hb⟩
  | succ left ih =>
    intro k s s' hb hl
    unfold loop at hl
    obtain ⟨r, hr, hl⟩ := bind_ok hl
    split_ifs at hl with hc
    · cases hl
      exact ⟨k + 1, by omega, .pass hb hr⟩
    · obtain ⟨k', h1, h2⟩ := ih (k + 1) (after c (k + 1) s r) s' (.pass hb hr) hl
      exact ⟨k', by omega, h2⟩

/-- **C148** A run on a calm region from an initial surface with neutrality errors of at most `η` returns; all passes keep the region and the corrections decrease geometrically; if the level that they reach is below the tolerance, the run stops. -/
theorem omega_converges {η : ℝ} (hη : 0 ≤ η)
    (X : Weak c E eosST e smin tol n b f a d La Ld R π D N U Ls Lt τ Ds Dt H ρ β q (ρ * (2 * (((OmegaMat.inner E R).map Prod.snd).sum * η))))
    {P : PInit (Fl ℝ)} {stp0 : Surf (Fl ℝ)} (hP : pinPOf c P = fin (π c.pin)) (h0 : init c P = .ok stp0) (hn : Near c smin R π 0 stp0)
    (herr : ∀ x ∈ OmegaMat.inner E R, ∃ v : ℝ, Ntp.epsErr eosST (fun m => (stp0 m).1) (fun m => (stp0 m).2.1) (fun m => (stp0 m).2.2) x.1 = fin v ∧ |v| ≤ η)
    (hd : c.diags = true → 1 ≤ c.iterMax) :
    ∃ s, omega c P = .ok s ∧ Near c smin R π D s.stp ∧
      (∀ k stp r, k < c.iterMax → Before c (fin (π c.pin)) stp0 k stp → step c (fin (π c.pin)) (k + 1) stp = .ok r →
        (∀ m, m ∈ r.qu ↔ m ∈ R) ∧ ∀ m ∈ R, ∃ φ p p' : ℝ, r.phi m = fin φ ∧ (stp m).2.2 = fin p ∧ (r.new m).2.2 = fin p' ∧
          |φ| ≤ level q (ρ * (2 * (((OmegaMat.inner E R).map Prod.snd).sum * η))) (β + τ) k ∧
          N * |p' - p| ≤ level q (ρ * (2 * (((OmegaMat.inner E R).map Prod.snd).sum * η))) (β + τ) k) ∧
      ∀ K T, c.tolPhi = fin T → level q (ρ * (2 * (((OmegaMat.inner E R).map Prod.snd).sum * η))) (β + τ) K < T → c.iterMin ≤ K + 1 → K + 1 ≤ c.iterMax →
        s.last ≤ K + 1 := by
  have hq1 : 0 < 1 - q := by linarith [X.q_lt]
  have hβτ : 0 ≤ β + τ := add_nonneg X.β_nonneg X.τ_nonneg
  have hD : 0 ≤ D := by
    have h1 : 0 ≤ (ρ * (2 * (((OmegaMat.inner E R).map Prod.snd).sum * η)) + 2 * c.iterMax * (β + τ)) / (1 - q) := by
      have := X.M_nonneg
      positivity
    exact nonneg_of_mul_nonneg_right (h1.trans X.room) X.N_pos
  have hself : |π c.pin - π c.pin| ≤ D := by simpa using hD
  obtain ⟨A, B, hsea, hA, hB, -⟩ := (X.calm.casts _ X.calm.pin).data
  obtain ⟨stp0', s0, t0, i1, hfine, hon, hpin⟩ := init_total X.world (P := P) hP ⟨A, B, hsea, by linarith, by linarith⟩
  rw [h0] at i1
  cases i1
  have hml := X.calm.below _ X.calm.pin _ hself
  have hc := corrLe_of_errors X.calm herr hη
  obtain ⟨s', g1, -, -, g4⟩ := loop_total X.world hml c.iterMax 0 ⟨stp0, lit 0, if c.diags then [diag0 c stp0] else [], 0⟩ (by omega) hfine hpin
  have hrun : omega c P = .ok s' := by
    unfold omega
    rw [h0]
    show (loop c (pinPOf c P) c.iterMax (0 + 1) _).bind _ = _
    rw [hP, g1]
    show (if (c.diags && decide (s'.last = 0)) = true then _ else _) = _
    rw [if_neg]
    intro hh
    rw [Bool.and_eq_true, decide_eq_true_eq] at hh
    have := hd hh.1
    rcases g4 with ⟨h, -⟩ | h <;> omega
  have hpass : ∀ {k stp r}, k < c.iterMax → Before c (fin (π c.pin)) stp0 k stp → step c (fin (π c.pin)) (k + 1) stp = .ok r → _ :=
    fun hk hb hr => passes_converge X hml hfine hpin hn hc hk hb hr
  refine ⟨s', hrun, ?_, ?_, ?_⟩
  · obtain ⟨k, hk, hb⟩ := loop_before c.iterMax 0 _ _ .start g1
    generalize s'.stp = fs at hb ⊢
    cases hb with
    | start => exact hn.mono hD
    | pass hb hr => exact (hpass (by omega) hb hr).2.2.1
  · intro k stp r hk hb hr
    obtain ⟨a1, a2, -, a4⟩ := hpass hk hb hr
    refine ⟨a1, fun m hm => ?_⟩
    obtain ⟨φ, b1, b2⟩ := a2 m hm
    obtain ⟨p, p', b3, b4, b5⟩ := a4 m hm
    refine ⟨φ, p, p', b1, b3, b4, b2, ?_⟩
    rw [le_div_iff₀ X.N_pos] at b5
    linarith
  · intro K T hT hK hmin hmax
    refine loop_stops ?_ c.iterMax 0 _ _ (by omega) (by omega) .start g1
    rintro k stp r rfl hb hr rms
    obtain ⟨a1, a2, -, -⟩ := hpass (by omega) hb hr
    obtain ⟨j1, j2⟩ := run_spec X.world hml hfine hpin (by omega) hb
    obtain ⟨r', c1, c2, c3⟩ := step_total X.world (k + 1) j1 j2 hml
    rw [hr] at c1
    cases c1
    obtain ⟨v, v1, v2⟩ := phiMAV_le X.world X.calm.pin c2 a1 a2
    unfold converged
    rw [v1, hT, lt_fin, decide_eq_true (lt_of_le_of_lt v2 hK), decide_eq_true hmin]
    rfl

/-! ## Example -/

/-- Salinity `35 + m + p` at pressures 0 to 100 of cast `m`. -/
noncomputable def thCast (m : ℕ) : Cast (Fl ℝ) :=
  ⟨Arr.ofList [fin (35 + m), fin (135 + m)], Arr.ofList [fin 0, fin 0], Arr.ofList [fin 0, fin 100]⟩

theorem thGood (m : ℕ) : GoodCast (thCast m) 0 2 (fun i => if i = 0 then 0 else 100) (fun i => if i = 0 then 35 + m else 135 + m) (fun _ => 0) := by
  constructor
  all_goals
    refine ⟨rfl, by omega, by simp [thCast, Arr.ofList], fun i hi => absurd hi (by omega), fun h => absurd h (by simp [thCast, Arr.ofList]), ?_, ?_, ?_⟩
    · intro i h1 h2
      have : i = 0 ∨ i = 1 := by omega
      rcases this with rfl | rfl <;> rfl
    · intro i h1 h2
      have : i = 0 ∨ i = 1 := by omega
      rcases this with rfl | rfl <;> rfl
    · intro i h1 h2
      have : i = 0 := by omega
      subst this
      norm_num

theorem thOn (m : ℕ) (s t p : ℝ) : On .linear (thCast m) s t p ↔ 0 ≤ p ∧ p ≤ 100 ∧ s = 35 + m + p ∧ t = 0 := by
  have BS : Block (thCast m).P (thCast m).S 0 2 _ _ := ⟨(thGood m).S.size.symm, (thGood m).S.vr.1, (thGood m).S.two, (thGood m).S.hX, (thGood m).S.hY, (thGood m).S.inc⟩
  have BT : Block (thCast m).P (thCast m).T 0 2 _ _ := ⟨(thGood m).T.size.symm, (thGood m).T.vr.1, (thGood m).T.two, (thGood m).T.hX, (thGood m).T.hY, (thGood m).T.inc⟩
  have key : 0 ≤ p → p ≤ 100 → interpAt .linear (fin p) (thCast m).P (thCast m).S = some (fin (35 + m + p)) ∧
      interpAt .linear (fin p) (thCast m).P (thCast m).T = some (fin 0) := by
    intro h0 h1
    have a1 := (linear_chord BS (i := 0) (x := p) (by omega) (by omega) (by simpa using h0) (by simpa using h1)).2.1
    have a2 := (linear_chord BT (i := 0) (x := p) (by omega) (by omega) (by simpa using h0) (by simpa using h1)).2.1
    constructor
    · show linearInterp1 _ _ _ _ = _
      rw [a1]
      norm_num
    · show linearInterp1 _ _ _ _ = _
      rw [a2]
      norm_num
  constructor
  · intro h
    obtain ⟨h0, h1⟩ := h.range (thGood m)
    have h0 : 0 ≤ p := by simpa using h0
    have h1 : p ≤ 100 := by simpa using h1
    obtain ⟨k1, k2⟩ := key h0 h1
    have e1 := k1.symm.trans h.1
    have e2 := k2.symm.trans h.2
    simp only [Option.some.injEq, Fl.fin.injEq] at e1 e2
    exact ⟨h0, h1, e1.symm, e2.symm⟩
  · rintro ⟨h0, h1, rfl, rfl⟩
    exact key h0 h1

/-- Two neighbouring casts. -/
def thPair : Csr := ⟨fun m => [0, 1, 2].getD m 2, fun i => [1, 0].getD i 0⟩

theorem thPair_nbrs (m : ℕ) : thPair.nbrs m = if m = 0 then [1] else if m = 1 then [0] else [] := by
  match m with
  | 0 => rfl
  | 1 => rfl
  | m + 2 =>
    have e : ∀ k, thPair.indptr (k + 2) = 2 := by
      intro k
      show [0, 1, 2].getD (k + 2) 2 = 2
      cases k <;> rfl
    unfold Csr.nbrs
    rw [e m, show m + 2 + 1 = (m + 1) + 2 by omega, e (m + 1)]
    rfl

/-- Density `s + p s / 1000`, from 50 dbar at the two casts; wetting in the first five passes. -/
noncomputable def thCfg (S : (ℕ → Fl ℝ) → (ℕ → Fl ℝ) → (ℕ → Fl ℝ) → List ℕ → ℕ → OmegaMat.Res (ℕ → Fl ℝ)) : Cfg (Fl ℝ) where
  N := 2
  G := thPair
  casts := thCast
  kind := .linear
  eos := fun s _ p => s + lit (1 / 1000) * p * s
  solver := S
  errs := fun _ => (Fl.nan, Fl.nan)
  sqrt := id
  pin := 0
  pml := fun _ => Fl.nan
  tol := fin (1 / 1000)
  tolPhi := fin 1
  tolP := fin 0
  diags := true
  iterMin := 1
  iterMax := 10
  startWet := 1
  stopWet := 5
  nrep := 100
  garbage := fun _ => 0
  fuel := 200000 + 13

/-- The example meets the hypotheses. -/
theorem thWeak : ∃ (S : (ℕ → Fl ℝ) → (ℕ → Fl ℝ) → (ℕ → Fl ℝ) → List ℕ → ℕ → OmegaMat.Res (ℕ → Fl ℝ)) (eosST : Ntp.EosST (Fl ℝ)) (e : ℝ → ℝ → ℝ → ℝ) (f : ℝ → ℝ → ℝ) (a d : ℝ → ℝ)
    (stp0 : Surf (Fl ℝ)), Weak (thCfg S) [((0, 1), (1 : ℝ))] eosST e 0 (1 / 1000) 200000 (fun _ _ => 0) f a d |1 / 1000| |0| [0, 1] (fun _ => 50) 50 1 (11 / 10) 1 0 (1 / 100) 101 0 100 1 0 (301 / 500)
      (1 * (2 * (((OmegaMat.inner [((0, 1), (1 : ℝ))] [0, 1]).map Prod.snd).sum * 2))) ∧
    init (thCfg S) (.array fun _ => fin 50) = .ok stp0 ∧ Near (thCfg S) 0 [0, 1] (fun _ => 50) 0 stp0 ∧
    ∀ x ∈ OmegaMat.inner [((0, 1), (1 : ℝ))] [0, 1], ∃ v : ℝ, Ntp.epsErr eosST (fun m => (stp0 m).1) (fun m => (stp0 m).2.1) (fun m => (stp0 m).2.2) x.1 = fin v ∧ |v| ≤ 2 := by
  obtain ⟨⟨spsolve, hs⟩, -⟩ := OmegaMat.exact_solvers_exist (α := ℝ)
  set eosST : Ntp.EosST (Fl ℝ) := fun _ _ p => (lit 1 + lit (1 / 1000) * p, lit 0) with hST
  obtain ⟨S, P⟩ : ∃ S, OmegaMat.Solver [((0, 1), (1 : ℝ))] eosST S := ⟨_, OmegaMat.poisson_solver _ eosST hs⟩
  set e : ℝ → ℝ → ℝ → ℝ := fun s t p => 0 + 1 * s + 0 * t + 0 * s ^ 2 + 0 * s * t + 0 * t ^ 2 + 1 / 1000 * p * s + 0 * p * t + (fun _ => 0) p with he
  have hsea : ∀ m, Sea (thCast m) 0 (1 / 1000) 200000 0 100 := fun m =>
    ⟨0, 2, _, _, _, thGood m, fun i _ _ => by split_ifs <;> positivity, by norm_num, by simp, by simp⟩
  have W : World (thCfg S) [((0, 1), (1 : ℝ))] eosST e 0 (1 / 1000) 200000 (fun _ _ => 0) := {
    ok := ⟨by
      intro m hm k hk
      change k ∈ thPair.nbrs m at hk
      rw [thPair_nbrs] at hk
      split_ifs at hk <;> simp at hk <;> subst hk <;> (show _ < 2) <;> norm_num, by show 0 < 2; norm_num, by show 2 < 200013; norm_num⟩
    tolEq := rfl
    tolPos := by norm_num
    fuel := rfl
    eos := ⟨fun s t p _ => by
      show fin s + lit (1 / 1000) * fin p * fin s = _
      simp [he, lit_eq], by rw [he]; fun_prop⟩
    der := fun s t p _ => ⟨1 + 1 / 1000 * p, 0, by rw [hST]; simp⟩
    casts := fun m _ => .inr ⟨0, 100, hsea m⟩
    edges := by
      intro a ha b hb
      refine ⟨_, List.mem_singleton.2 rfl, ?_⟩
      change b ∈ thPair.nbrs a at hb
      rw [thPair_nbrs] at hb
      split_ifs at hb with h1 h2 <;> simp at hb
      · left; rw [h1, hb]
      · right; rw [h2, hb]
    sym := by
      intro a b hb
      change b ∈ thPair.nbrs a at hb
      show a ∈ thPair.nbrs b
      rw [thPair_nbrs] at hb ⊢
      split_ifs at hb with h1 h2 <;> simp at hb
      · simp [h1, hb]
      · simp [h2, hb]
    weights := by simp
    solver := P.within }
  have T : Thermobaric eosST e 0 _ _ _ _ _ := seos_thermobaric 0 1 0 0 0 0 (1 / 1000) 0 0 (fun _ => 0) (by
    intro s t p _
    rw [hST]
    simp)
  have hin : OmegaMat.inner [((0, 1), (1 : ℝ))] [0, 1] = [((0, 1), 1)] := by simp [OmegaMat.inner]
  have Q : Calm (thCfg S) [((0, 1), (1 : ℝ))] e 0 (1 / 1000) 200000 [0, 1] (fun _ => 50) 50 1 (11 / 10) 1 0 (1 / 100) 101 0 100 1 := {
    nodup := by simp
    pin := by show 0 ∈ [0, 1]; simp
    other := ⟨1, by simp, by show 1 ≠ 0; norm_num⟩
    casts := by
      intro m _
      refine ⟨⟨0, 100, hsea m, by norm_num, by norm_num, fun p h0 h1 => ?_⟩, ?_, ?_⟩
      · unfold acc
        rw [abs_of_nonneg h0]
        linarith
      · intro z z' s t s' t' p hz h h' hp
        obtain ⟨-, -, rfl, rfl⟩ := (thOn m _ _ _).1 h
        obtain ⟨-, -, rfl, rfl⟩ := (thOn m _ _ _).1 h'
        rw [abs_le] at hp
        rw [he]
        dsimp only
        constructor <;> nlinarith
      · intro z z' s t s' t' h h'
        obtain ⟨-, -, rfl, rfl⟩ := (thOn m _ _ _).1 h
        obtain ⟨-, -, rfl, rfl⟩ := (thOn m _ _ _).1 h'
        constructor
        · rw [one_mul]; apply le_of_eq; congr 1; ring
        · simp
    near := by intro x _; norm_num
    lateral := by
      intro x hx s1 t1 p1 s2 t2 p2 h1 _ h2 _
      rw [hin, List.mem_singleton] at hx
      subst hx
      obtain ⟨a1, a2, rfl, rfl⟩ := (thOn 0 _ _ _).1 h1
      obtain ⟨b1, b2, rfl, rfl⟩ := (thOn 1 _ _ _).1 h2
      refine ⟨abs_le.2 ⟨?_, ?_⟩, by simp⟩ <;> push_cast <;> linarith
    below := fun m _ p _ => rfl
    routes := by
      intro m hm
      have : m = 0 ∨ m = 1 := by simpa using hm
      rcases this with rfl | rfl
      · exact ⟨0, 0, .here, by norm_num⟩
      · exact ⟨1, 0 + 1 / 1, .along .here (x := ((0, 1), 1)) (by rw [hin]; simp) (.inl rfl), by norm_num⟩
    wetting := by
      right
      intro m _ k hk
      left
      change k ∈ thPair.nbrs m at hk
      rw [thPair_nbrs] at hk
      split_ifs at hk <;> simp at hk <;> subst hk <;> simp }
  have hk : kappa |1 / 1000| |0| 1 1 0 101 0 100 = 301 / 2000 := by unfold kappa; norm_num [abs_of_pos]
  have hon : ∀ m : ℕ, On .linear (thCast m) (85 + m) 0 50 := fun m => (thOn m _ _ _).2 ⟨by norm_num, by norm_num, by ring, rfl⟩
  have hi : ∀ m : ℕ, interpTwo (thCfg S) (fin 50) m = some (fin (85 + (m : ℝ)), fin 0) := by
    intro m
    have hv : validRange2 (thCast m).P (thCast m).S = validRange2 (thCast m).P (thCast m).T := by rw [(thGood m).S.vr.1, (thGood m).T.vr.1]
    exact (ppinterp1Two_eq hv _ _ _ _).2 (hon m)
  have h0 : init (thCfg S) (.array fun _ => fin 50) = .ok fun m => if m < 2 then (fin (85 + (m : ℝ)), fin 0, fin 50) else (Fl.nan, Fl.nan, Fl.nan) := by
    unfold init initRaw
    simp only [hi]
    rw [if_pos (by intro n _; rfl)]
    simp only [Res.bind, Option.getD_some]
    rw [if_neg (by show ¬ isNaN (fin (85 + ((0 : ℕ) : ℝ)) : Fl ℝ) = true; simp)]
    congr 1
    funext m
    have hN : (thCfg S).N = 2 := rfl
    rw [hN]
    by_cases hm : m < 2
    · simp [hm]
    · simp only [hm, if_false]
      rfl
  have hn : Near (thCfg S) 0 [0, 1] (fun _ => 50) 0 fun m => if m < 2 then (fin (85 + (m : ℝ)), fin 0, fin 50) else (Fl.nan, Fl.nan, Fl.nan) := by
    refine ⟨fun m => ⟨fun hm => ?_, ?_⟩, fun m hm => ?_⟩
    · have : m = 0 ∨ m = 1 := by simpa using hm
      have w0 : Walk (thCfg S).G (wet fun m => if m < 2 then (fin (85 + (m : ℝ)), fin 0, fin 50) else (Fl.nan, Fl.nan, Fl.nan)) (thCfg S).pin 0 0 := .root (by rfl)
      rcases this with rfl | rfl
      · exact ⟨0, w0⟩
      · exact ⟨1, .step w0 (by show 1 ∈ thPair.nbrs 0; decide) (by rfl)⟩
    · rintro ⟨k, w⟩
      have := w.good
      unfold wet at this
      by_cases hm : m < 2
      · simp; omega
      · simp [hm] at this
    · have : m < 2 := by
        have : m = 0 ∨ m = 1 := by simpa using hm
        omega
      exact ⟨85 + m, 0, 50, by simp [this], by positivity, hon m, by simp⟩
  have X : Weak (thCfg S) [((0, 1), (1 : ℝ))] eosST e 0 (1 / 1000) 200000 (fun _ _ => 0) _ _ _ |1 / 1000| |0| [0, 1] (fun _ => 50) 50 1 (11 / 10) 1 0 (1 / 100) 101 0 100 1 0 (301 / 500)
      (1 * (2 * (((OmegaMat.inner [((0, 1), (1 : ℝ))] [0, 1]).map Prod.snd).sum * 2))) := {
    world := W
    therm := T
    calm := Q
    N_pos := by norm_num
    U_nonneg := by norm_num
    τ_nonneg := by norm_num
    β_nonneg := by norm_num
    within := fun _ _ => le_refl _
    κ_nonneg := by rw [hk]; norm_num
    q_nonneg := by norm_num
    q_ge := by rw [hk]; unfold factor; rw [hin]; norm_num
    q_lt := by norm_num
    M_nonneg := by rw [hin]; norm_num
    room := by
      rw [hin]
      show (_ + 2 * ((10 : ℕ) : ℝ) * _) / _ ≤ _
      norm_num }
  refine ⟨S, eosST, e, _, _, _, _, X, h0, hn, ?_⟩
  intro x hx
  rw [hin, List.mem_singleton] at hx
  subst hx
  refine ⟨21 / 20, ?_, by norm_num [abs_of_pos]⟩
  rw [hST]
  simp [Ntp.epsErr, lit_eq]
  norm_num

theorem thInner : OmegaMat.inner [((0, 1), (1 : ℝ))] [0, 1] = [((0, 1), 1)] := by simp [OmegaMat.inner]

example : ∃ (c : Cfg (Fl ℝ)) (s : State (Fl ℝ)), c.startWet = 1 ∧ c.iterMax = 10 ∧ omega c (.array fun _ => fin 50) = .ok s ∧ s.last ≤ 4 := by
  obtain ⟨S, eosST, e, f, a, d, stp0, X, h0, hn, he⟩ := thWeak
  obtain ⟨s, h1, -, -, h4⟩ := omega_converges (by norm_num) X rfl h0 hn he (fun _ => by show 1 ≤ 10; norm_num)
  refine ⟨_, s, rfl, rfl, h1, h4 3 1 rfl ?_ (by show 1 ≤ 4; norm_num) (by show 4 ≤ 10; norm_num)⟩
  rw [thInner]
  unfold level
  norm_num

end Omega
