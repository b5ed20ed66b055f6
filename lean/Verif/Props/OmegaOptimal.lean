import Verif.Props.OmegaConverge
import Mathlib.Analysis.SpecialFunctions.Sqrt

/-!
# Passes of `omega_surf` and the neutrality errors (C150)

With strong thermobaricity a pass can increase the errors (a witness).  Where thermobaricity is weak, the root sum of squares of the errors after a pass is at most that of the best possible first order correction plus a remainder, and the surface
returned at the end is optimal to first order: no change of its density lowers the sum of squares by more than a bound that vanishes with the accuracies of the solvers and the number of passes.
-/

namespace OmegaMat
open Finset FloatLike
open Fl hiding nan

set_option linter.unusedSectionVars false

theorem list_cauchy {ι : Type*} (l : List ι) (w a b : ι → ℝ) (hw : ∀ x ∈ l, 0 ≤ w x) :
    (l.map fun x => w x * a x * b x).sum ^ 2 ≤ (l.map fun x => w x * a x ^ 2).sum * (l.map fun x => w x * b x ^ 2).sum ∧ 0 ≤ (l.map fun x => w x * a x ^ 2).sum := by
  induction l with
  | nil => simp
  | cons y l ih =>
    obtain ⟨i1, i2⟩ := ih fun x hx => hw x (List.mem_cons_of_mem _ hx)
    have hy := hw y List.mem_cons_self
    simp only [List.map_cons, List.sum_cons]
    generalize (l.map fun x => w x * a x * b x).sum = S at *
    generalize (l.map fun x => w x * a x ^ 2).sum = A at *
    have hB : 0 ≤ (l.map fun x => w x * b x ^ 2).sum := by
      apply List.sum_nonneg
      intro z hz
      obtain ⟨x, hx, rfl⟩ := List.mem_map.1 hz
      exact mul_nonneg (hw x (List.mem_cons_of_mem _ hx)) (sq_nonneg _)
    generalize (l.map fun x => w x * b x ^ 2).sum = B at *
    refine ⟨?_, by positivity⟩
    have h1 : 2 * S * (a y * b y) ≤ a y ^ 2 * B + A * b y ^ 2 := by
      have h2 : |S| ≤ Real.sqrt A * Real.sqrt B := by
        rw [← Real.sqrt_mul i2, ← Real.sqrt_sq_eq_abs]
        exact Real.sqrt_le_sqrt i1
      have h3 := mul_le_mul_of_nonneg_right h2 (abs_nonneg (a y * b y))
      have h4 := le_abs_self (S * (a y * b y))
      rw [abs_mul] at h4
      have h5 := sq_nonneg (|a y| * Real.sqrt B - Real.sqrt A * |b y|)
      have e1 := Real.sq_sqrt i2
      have e2 := Real.sq_sqrt hB
      have e3 := sq_abs (a y)
      have e4 := sq_abs (b y)
      rw [abs_mul] at h3 h4
      have : (|a y| * Real.sqrt B - Real.sqrt A * |b y|) ^ 2 = a y ^ 2 * B + A * b y ^ 2 - 2 * (Real.sqrt A * Real.sqrt B * (|a y| * |b y|)) := by
        rw [← e3, ← e4]
        calc _ = |a y| ^ 2 * Real.sqrt B ^ 2 + Real.sqrt A ^ 2 * |b y| ^ 2 - 2 * (Real.sqrt A * Real.sqrt B * (|a y| * |b y|)) := by ring
          _ = _ := by rw [e1, e2]
      linarith
    have h6 := mul_le_mul_of_nonneg_left h1 hy
    linarith [sq (w y * a y * b y + S)]

/-- Triangle inequality for weighted root sums of squares. -/
theorem list_minkowski {ι : Type*} (l : List ι) (w a b : ι → ℝ) (hw : ∀ x ∈ l, 0 ≤ w x) :
    Real.sqrt (l.map fun x => w x * (a x + b x) ^ 2).sum ≤ Real.sqrt (l.map fun x => w x * a x ^ 2).sum + Real.sqrt (l.map fun x => w x * b x ^ 2).sum := by
  obtain ⟨h1, h2⟩ := list_cauchy l w a b hw
  have h3 := (list_cauchy l w b a hw).2
  have e : (l.map fun x => w x * (a x + b x) ^ 2).sum = (l.map fun x => w x * a x ^ 2).sum + 2 * (l.map fun x => w x * a x * b x).sum + (l.map fun x => w x * b x ^ 2).sum := by
    clear h1 h2 h3 hw
    induction l with
    | nil => simp
    | cons y l ih => simp only [List.map_cons, List.sum_cons, ih]; ring
  rw [e]
  refine Real.sqrt_le_iff.2 ⟨by positivity, ?_⟩
  rw [add_sq, Real.sq_sqrt h2, Real.sq_sqrt h3]
  have : (l.map fun x => w x * a x * b x).sum ≤ Real.sqrt (l.map fun x => w x * a x ^ 2).sum * Real.sqrt (l.map fun x => w x * b x ^ 2).sum := by
    rw [← Real.sqrt_mul h2]
    exact Real.le_sqrt_of_sq_le h1
  linarith

theorem list_sq_le {ι : Type*} (l : List ι) (w b : ι → ℝ) (hw : ∀ x ∈ l, 0 ≤ w x) {B : ℝ} (hb : ∀ x ∈ l, |b x| ≤ B) :
    (l.map fun x => w x * b x ^ 2).sum ≤ (l.map w).sum * B ^ 2 := by
  induction l with
  | nil => simp
  | cons y l ih =>
    have := ih (fun x hx => hw x (List.mem_cons_of_mem _ hx)) fun x hx => hb x (List.mem_cons_of_mem _ hx)
    have h1 := mul_le_mul_of_nonneg_left (sq_le_sq' (by linarith [neg_abs_le (b y), hb y List.mem_cons_self]) ((le_abs_self _).trans (hb y List.mem_cons_self))) (hw y List.mem_cons_self)
    simp only [List.map_cons, List.sum_cons]
    linarith [add_mul (w y) (l.map w).sum (B ^ 2)]

variable {E : List ((ℕ × ℕ) × ℝ)} {m : List ℕ} {mref : ℕ} {eos : Ntp.EosST (Fl ℝ)} {s t p : ℕ → Fl ℝ} {ε ε' : ℕ × ℕ → ℝ}

/-- The errors after a change `χ` of the density, close to the solution `ψ` of the matrix problem. -/
theorem next_cost (H : Region E m mref eos s t p ε) {ψ χ : ℕ → ℝ} {κ δ M : ℝ} (hκ : 0 ≤ κ) (hδ : 0 ≤ δ) (hM0 : 0 ≤ M)
    (hr : ∀ x ∈ inner E m, |ε' x.1 - (ε x.1 + χ x.1.2 - χ x.1.1)| ≤ κ * (|χ x.1.1| + |χ x.1.2|)) (hχ : ∀ n ∈ m, |χ n - ψ n| ≤ δ ∧ |χ n| ≤ M) :
    Real.sqrt (cost E m ε' fun _ => 0) ≤ Real.sqrt (cost E m ε ψ) + Real.sqrt ((inner E m).map Prod.snd).sum * (2 * δ + 2 * κ * M) := by
  have hw : ∀ x ∈ inner E m, 0 ≤ x.2 := fun x hx => (H.pos x hx).le
  have hm := list_minkowski (inner E m) Prod.snd (fun x => corr ε ψ x.1) (fun x => ε' x.1 - corr ε ψ x.1) hw
  have hb := list_sq_le (inner E m) Prod.snd (fun x => ε' x.1 - corr ε ψ x.1) hw (B := 2 * δ + 2 * κ * M) (by
    intro x hx
    obtain ⟨-, i1, i2⟩ := mem_inner hx
    have h1 := hr x hx
    obtain ⟨a1, a2⟩ := hχ _ i1
    obtain ⟨b1, b2⟩ := hχ _ i2
    have h2 : κ * (|χ x.1.1| + |χ x.1.2|) ≤ 2 * κ * M := by
      have := mul_le_mul_of_nonneg_left (add_le_add a2 b2) hκ
      linarith
    rw [abs_le] at h1 a1 b1 ⊢
    unfold corr
    constructor <;> linarith)
  have e : cost E m ε' (fun _ => 0) = ((inner E m).map fun x => x.2 * (corr ε ψ x.1 + (ε' x.1 - corr ε ψ x.1)) ^ 2).sum := by
    unfold cost
    congr 2
    funext x
    unfold corr
    ring
  rw [e]
  refine hm.trans (add_le_add_right ?_ _)
  refine (Real.sqrt_le_sqrt hb).trans (le_of_eq ?_)
  rw [Real.sqrt_mul (List.sum_nonneg (by
    intro z hz
    obtain ⟨x, hx, rfl⟩ := List.mem_map.1 hz
    exact hw x hx)), Real.sqrt_sq (by positivity)]

/-- If the solution of the matrix problem is small, the surface is optimal to first order. -/
theorem small_correction_optimal (H : Region E m mref eos s t p ε) {ψ : ℕ → ℝ} (hψ : Balanced E m ε ψ) {M : ℝ} (hM : ∀ n ∈ m, |ψ n| ≤ M) (φ : ℕ → ℝ) :
    cost E m ε (fun _ => 0) ≤ cost E m ε φ + ((inner E m).map Prod.snd).sum * (2 * M) ^ 2 := by
  have h1 := (poisson_minimises H hψ φ).1
  have h2 := cost_split H.nodup hψ fun _ => 0
  have h3 : energy (rowsOf E m ε) (vec m fun n => (fun _ => (0 : ℝ)) n - ψ n) = ((inner E m).map fun x => x.2 * (ψ x.1.2 - ψ x.1.1) ^ 2).sum := by
    unfold energy rowsOf
    rw [List.map_map]
    congr 1
    refine List.map_congr_left fun x hx => ?_
    obtain ⟨-, i1, i2⟩ := mem_inner hx
    simp only [Function.comp, vec_idx _ i1, vec_idx _ i2]
    ring
  have h4 := list_sq_le (inner E m) Prod.snd (fun x => ψ x.1.2 - ψ x.1.1) (fun x hx => (H.pos x hx).le) (B := 2 * M) (by
    intro x hx
    obtain ⟨-, i1, i2⟩ := mem_inner hx
    refine (abs_sub _ _).trans ?_
    linarith [hM _ i1, hM _ i2])
  rw [h2, h3]
  linarith

end OmegaMat

namespace Omega
open FloatLike Fzero Interp Traj VertSolve Bfs Lib
open Fl hiding nan

set_option linter.unusedSectionVars false

variable {c : Cfg (Fl ℝ)} {E : List ((ℕ × ℕ) × ℝ)} {eosST : Ntp.EosST (Fl ℝ)} {e : ℝ → ℝ → ℝ → ℝ} {smin tol : ℝ} {n : ℕ} {b : List ℕ → ℕ → ℝ}
  {f : ℝ → ℝ → ℝ} {a d : ℝ → ℝ} {La Ld : ℝ} {R : List ℕ} {π : ℕ → ℝ} {D N U Ls Lt τ Ds Dt H ρ β q M : ℝ}

/-- Specification: `ε` are the neutrality errors of the surface on the edges of the region `R`. -/
def Errors (E : List ((ℕ × ℕ) × ℝ)) (eosST : Ntp.EosST (Fl ℝ)) (R : List ℕ) (stp : Surf (Fl ℝ)) (ε : ℕ × ℕ → ℝ) : Prop :=
  ∀ x ∈ OmegaMat.inner E R, Ntp.epsErr eosST (fun m => (stp m).1) (fun m => (stp m).2.1) (fun m => (stp m).2.2) x.1 = fin (ε x.1)

/-- Specification: weighted root sum of squares of errors on the edges of the region. -/
noncomputable def rss (E : List ((ℕ × ℕ) × ℝ)) (R : List ℕ) (ε : ℕ × ℕ → ℝ) : ℝ := Real.sqrt ((OmegaMat.inner E R).map fun x => x.2 * ε x.1 ^ 2).sum

/-- On a calm region the matrix problem is posed. -/
theorem near_region (W : World c E eosST e smin tol n b) (hR : R.Nodup) (hp : c.pin ∈ R) (ho : ∃ m ∈ R, m ≠ c.pin) {r : ℝ} {stp : Surf (Fl ℝ)} (hf : Fine c smin stp) (hn : Near c smin R π r stp) :
    ∃ ε, OmegaMat.Region E R c.pin eosST (fun m => (stp m).1) (fun m => (stp m).2.1) (fun m => (stp m).2.2) ε := by
  have hw : wet stp c.pin = true := by
    obtain ⟨k, w⟩ := (hn.reach _).1 hp
    exact w.good
  rcases region_posed W hf hw hR hn.reach with h | h
  · obtain ⟨m, hm, hne⟩ := ho
    rw [h, List.mem_singleton] at hm
    exact absurd hm hne
  · exact h

theorem region_errors {stp : Surf (Fl ℝ)} {ε ε' : ℕ × ℕ → ℝ} (H : OmegaMat.Region E R c.pin eosST (fun m => (stp m).1) (fun m => (stp m).2.1) (fun m => (stp m).2.2) ε)
    (h : Errors E eosST R stp ε') : OmegaMat.Region E R c.pin eosST (fun m => (stp m).1) (fun m => (stp m).2.1) (fun m => (stp m).2.2) ε' :=
  ⟨H.nodup, H.ref, H.two, H.pos, H.conn, h⟩

theorem rss_cost (ε : ℕ × ℕ → ℝ) : rss E R ε = Real.sqrt (OmegaMat.cost E R ε fun _ => 0) := by
  unfold rss OmegaMat.cost OmegaMat.corr
  congr 3
  funext x
  ring

/-- **C150 (partial: weak thermobaricity)** The root sum of squares of the errors after a pass is at most that of the errors corrected to first order in any way at all, plus a remainder: the accuracies of the solvers, and the
thermobaricity `κ` times the size of the corrections.  In particular (`φ = 0`) a pass increases the errors by at most the remainder.  Missing: strong thermobaricity, where it is false (`pass_reduces_false`). -/
theorem pass_reduces_partial (X : Weak c E eosST e smin tol n b f a d La Ld R π D N U Ls Lt τ Ds Dt H ρ β q M) {r : ℝ} (hrD : r + (M + β + τ) / N ≤ D)
    {s0 t0 p0 : ℝ} (hml : lt (fin p0) (c.pml c.pin) = false) {iter : ℕ} (hi : iter ≤ c.iterMax) {stp : Surf (Fl ℝ)} (hf : Fine c smin stp) (hp : stp c.pin = (fin s0, fin t0, fin p0))
    (hn : Near c smin R π r stp) (hc : CorrLe c E eosST R M stp) {x : Iter (Fl ℝ)} (hx : step c (fin p0) iter stp = .ok x) :
    ∃ ε ε' : ℕ × ℕ → ℝ, Errors E eosST R stp ε ∧ Errors E eosST R x.new ε' ∧ ∀ φ : ℕ → ℝ,
      rss E R ε' ≤ rss E R (fun y => ε y + φ y.2 - φ y.1) +
        Real.sqrt ((OmegaMat.inner E R).map Prod.snd).sum * (2 * (β + τ) + 2 * kappa La Ld N Ls Lt Ds Dt H * (M + β + τ)) := by
  obtain ⟨x', h1, h2, h3⟩ := step_total X.world iter hf hp hml
  rw [hx] at h1
  cases h1
  obtain ⟨-, -, g3, -, ε, ψ, χ, HR, hψ, -, -, hχ, hbd⟩ := pass_moves X.world X.therm X.calm X.N_pos X.U_nonneg X.τ_nonneg X.within X.β_nonneg X.κ_nonneg X.M_nonneg hrD hi hn hc h2 (h3.trans hp.symm)
  obtain ⟨ε', HR'⟩ := near_region X.world X.calm.nodup X.calm.pin X.calm.other h2.fine g3
  refine ⟨ε, ε', HR.err, HR'.err, fun φ => ?_⟩
  have h0 := add_nonneg X.β_nonneg X.τ_nonneg
  have := OmegaMat.next_cost HR X.κ_nonneg h0 (by linarith [X.M_nonneg]) (hbd ε' HR') hχ
  rw [rss_cost]
  refine this.trans (add_le_add_left ?_ _)
  exact Real.sqrt_le_sqrt ((OmegaMat.poisson_minimises HR hψ φ).1)

theorem loop_before_last {pinP : Fl ℝ} {stp0 : Surf (Fl ℝ)} :
    ∀ (left k : ℕ) (s s' : State (Fl ℝ)), s.last = k → Before c pinP stp0 k s.stp → loop c pinP left (k + 1) s = .ok s' → s'.last ≤ k + left ∧ Before c pinP stp0 s'.last s'.stp := by
  intro left
  induction left with
  | zero =>
    intro k s s' hk hb hl
    unfold loop at hl
    cases hl
    exact ⟨by omega, by rw [hk]; exact hb⟩
  | succ left ih =>
    intro k s s' hk hb hl
    unfold loop at hl
    obtain ⟨r, hr, hl⟩ := bind_ok hl
    split_ifs at hl with hc
    · cases hl
      refine ⟨?_, ?_⟩
      · show k + 1 ≤ _
        omega
      · exact .pass hb hr
    · obtain ⟨h1, h2⟩ := ih (k + 1) (after c (k + 1) s r) s' rfl (.pass hb hr) hl
      exact ⟨by omega, h2⟩

/-- **C150** Under the hypotheses of `omega_converges`, the surface returned after `K` passes is optimal to first order: for every change `φ` of the densities, the weighted sum of squares of the changed errors is at least that of the errors of the surface,
less a bound that decreases like `q ^ (2 K)` down to a level given by the accuracies of the solvers. -/
theorem omega_optimal {η : ℝ} (hη : 0 ≤ η)
    (X : Weak c E eosST e smin tol n b f a d La Ld R π D N U Ls Lt τ Ds Dt H ρ β q (ρ * (2 * (((OmegaMat.inner E R).map Prod.snd).sum * η))))
    {P : PInit (Fl ℝ)} {stp0 : Surf (Fl ℝ)} (hP : pinPOf c P = fin (π c.pin)) (h0 : init c P = .ok stp0) (hn : Near c smin R π 0 stp0)
    (herr : ∀ x ∈ OmegaMat.inner E R, ∃ v : ℝ, Ntp.epsErr eosST (fun m => (stp0 m).1) (fun m => (stp0 m).2.1) (fun m => (stp0 m).2.2) x.1 = fin v ∧ |v| ≤ η)
    (hd : c.diags = true → 1 ≤ c.iterMax) :
    ∃ s ε, omega c P = .ok s ∧ Errors E eosST R s.stp ε ∧ ∀ φ : ℕ → ℝ,
      ((OmegaMat.inner E R).map fun x => x.2 * ε x.1 ^ 2).sum ≤ ((OmegaMat.inner E R).map fun x => x.2 * (ε x.1 + φ x.1.2 - φ x.1.1) ^ 2).sum +
        ((OmegaMat.inner E R).map Prod.snd).sum * (2 * (q ^ s.last * (ρ * (2 * (((OmegaMat.inner E R).map Prod.snd).sum * η))) + (β + τ) * (1 + q) / (1 - q))) ^ 2 := by
  obtain ⟨s, h1, h2, -, -⟩ := omega_converges hη X hP h0 hn herr hd
  have hq1 : 0 < 1 - q := by linarith [X.q_lt]
  have hβτ : 0 ≤ β + τ := add_nonneg X.β_nonneg X.τ_nonneg
  have hD : 0 ≤ D := by
    have h1 : 0 ≤ (ρ * (2 * (((OmegaMat.inner E R).map Prod.snd).sum * η)) + 2 * c.iterMax * (β + τ)) / (1 - q) := by
      have := X.M_nonneg
      positivity
    exact nonneg_of_mul_nonneg_right (h1.trans X.room) X.N_pos
  have hself : |π c.pin - π c.pin| ≤ D := by simpa using hD
  obtain ⟨A, B, hsea, hA, hB, -⟩ := (X.calm.casts _ X.calm.pin).data
  obtain ⟨stp0', s0, t0, i1, hfine, hon, hpin⟩ := init_total X.world (P := P) hP ⟨A, B, hsea, by linarith, by linarith⟩
  rw [h0] at i1
  cases i1
  have hml := X.calm.below _ X.calm.pin _ hself
  have hc := corrLe_of_errors X.calm herr hη
  have hloop : loop c (fin (π c.pin)) c.iterMax (0 + 1) ⟨stp0, lit 0, if c.diags then [diag0 c stp0] else [], 0⟩ = .ok s := by
    unfold omega at h1
    rw [h0] at h1
    change (loop c (pinPOf c P) c.iterMax (0 + 1) _).bind _ = _ at h1
    rw [hP] at h1
    obtain ⟨s', l1, l2⟩ := bind_ok h1
    split_ifs at l2
    cases l2
    exact l1
  obtain ⟨hlast, hb⟩ := loop_before_last c.iterMax 0 _ _ rfl .start hloop
  rw [zero_add] at hlast
  obtain ⟨-, hcor⟩ := run_calm X hml hfine hpin hn hc hlast hb
  obtain ⟨hfin, -⟩ := run_spec X.world hml hfine hpin hlast hb
  obtain ⟨ε, HR⟩ := near_region X.world X.calm.nodup X.calm.pin X.calm.other hfin h2
  obtain ⟨ψ, p1, p2, -, -⟩ := OmegaMat.balanced_unique HR
  refine ⟨s, ε, h1, HR.err, fun φ => ?_⟩
  have := OmegaMat.small_correction_optimal HR p2 (hcor ε ψ HR p2 p1) φ
  unfold OmegaMat.cost OmegaMat.corr at this
  simpa only [add_zero, sub_zero] using this

/-- The example of `omega_converges`. -/
example : ∃ (c : Cfg (Fl ℝ)) (s : State (Fl ℝ)) (eosST : Ntp.EosST (Fl ℝ)) (ε : ℕ × ℕ → ℝ), omega c (.array fun _ => fin 50) = .ok s ∧
    Errors [((0, 1), 1)] eosST [0, 1] s.stp ε ∧ ε (0, 1) ^ 2 ≤ (2 * ((301 / 500) ^ s.last * 4 + (1 / 100) * (801 / 199))) ^ 2 := by
  obtain ⟨S, eosST, e, f, a, d, stp0, X, h0, hn, he⟩ := thWeak
  obtain ⟨s, ε, h1, h2, h3⟩ := omega_optimal (by norm_num) X rfl h0 hn he (fun _ => by show 1 ≤ 10; norm_num)
  refine ⟨_, s, eosST, ε, h1, h2, ?_⟩
  have := h3 fun m => if m = 0 then ε (0, 1) else 0
  rw [thInner] at this
  norm_num at this ⊢
  linarith

/-! ## Strong thermobaricity -/

/-- Salinity `200 - 99 m + p` at pressures 0 to 100 of cast `m`. -/
noncomputable def trCast (m : ℕ) : Cast (Fl ℝ) :=
  ⟨Arr.ofList [fin (200 - 99 * m), fin (300 - 99 * m)], Arr.ofList [fin 0, fin 0], Arr.ofList [fin 0, fin 100]⟩

theorem trGood (m : ℕ) : GoodCast (trCast m) 0 2 (fun i => if i = 0 then 0 else 100) (fun i => if i = 0 then 200 - 99 * m else 300 - 99 * m) (fun _ => 0) := by
  constructor
  all_goals
    refine ⟨rfl, by omega, by simp [trCast, Arr.ofList], fun i hi => absurd hi (by omega), fun h => absurd h (by simp [trCast, Arr.ofList]), ?_, ?_, ?_⟩
    · intro i h1 h2
      have : i = 0 ∨ i = 1 := by omega
      rcases this with rfl | rfl <;> rfl
    · intro i h1 h2
      have : i = 0 ∨ i = 1 := by omega
      rcases this with rfl | rfl <;> rfl
    · intro i h1 h2
      have : i = 0 := by omega
      subst this
      norm_num

theorem trOn (m : ℕ) (s t p : ℝ) : On .linear (trCast m) s t p ↔ 0 ≤ p ∧ p ≤ 100 ∧ s = 200 - 99 * m + p ∧ t = 0 := by
  have BS : Block (trCast m).P (trCast m).S 0 2 _ _ := ⟨(trGood m).S.size.symm, (trGood m).S.vr.1, (trGood m).S.two, (trGood m).S.hX, (trGood m).S.hY, (trGood m).S.inc⟩
  have BT : Block (trCast m).P (trCast m).T 0 2 _ _ := ⟨(trGood m).T.size.symm, (trGood m).T.vr.1, (trGood m).T.two, (trGood m).T.hX, (trGood m).T.hY, (trGood m).T.inc⟩
  have key : 0 ≤ p → p ≤ 100 → interpAt .linear (fin p) (trCast m).P (trCast m).S = some (fin (200 - 99 * m + p)) ∧
      interpAt .linear (fin p) (trCast m).P (trCast m).T = some (fin 0) := by
    intro h0 h1
    have a1 := (linear_chord BS (i := 0) (x := p) (by omega) (by omega) (by simpa using h0) (by simpa using h1)).2.1
    have a2 := (linear_chord BT (i := 0) (x := p) (by omega) (by omega) (by simpa using h0) (by simpa using h1)).2.1
    constructor
    · show linearInterp1 _ _ _ _ = _
      rw [a1]
      norm_num
    · show linearInterp1 _ _ _ _ = _
      rw [a2]
      norm_num
  constructor
  · intro h
    obtain ⟨h0, h1⟩ := h.range (trGood m)
    have h0 : 0 ≤ p := by simpa using h0
    have h1 : p ≤ 100 := by simpa using h1
    obtain ⟨k1, k2⟩ := key h0 h1
    have e1 := k1.symm.trans h.1
    have e2 := k2.symm.trans h.2
    simp only [Option.some.injEq, Fl.fin.injEq] at e1 e2
    exact ⟨h0, h1, e1.symm, e2.symm⟩
  · rintro ⟨h0, h1, rfl, rfl⟩
    exact key h0 h1

/-- Two casts, density `s (125 - p) / 25`, no wetting, no mixed layer. -/
noncomputable def trCfg (S : (ℕ → Fl ℝ) → (ℕ → Fl ℝ) → (ℕ → Fl ℝ) → List ℕ → ℕ → OmegaMat.Res (ℕ → Fl ℝ)) : Cfg (Fl ℝ) :=
  { thCfg S with casts := trCast, eos := fun s _ p => s * ((lit 125 - p) * lit (1 / 25)), startWet := 11, stopWet := 0 }

/-- **C150 is violated**: two casts, density `s (125 - p) / 25`, an exact solver of the matrix problem.  On the initial surface the neutrality error is 3; cast 1 has a point that is neutral with cast 0, and yet after one pass of `omega_surf` the error is more than
twice as large, for the step of cast 1 is computed with the derivative of its own pressure and the error with that of the mean pressure. -/
theorem pass_reduces_false :
    ∃ (c : Cfg (Fl ℝ)) (eosST : Ntp.EosST (Fl ℝ)) (stp : Surf (Fl ℝ)) (r : Iter (Fl ℝ)) (ε' : ℝ), World c [((0, 1), (1 : ℝ))] eosST (fun s _ p => s * ((125 - p) / 25)) 0 (1 / 1000) 200000 (fun _ _ => 0) ∧
      (∀ s t p : ℝ, eosST (fin s) (fin t) (fin p) = (fin ((125 - p) / 25), fin 0)) ∧ init c (.array fun m => if m = 0 then fin 0 else fin 100) = .ok stp ∧
      Ntp.epsErr eosST (fun m => (stp m).1) (fun m => (stp m).2.1) (fun m => (stp m).2.2) (0, 1) = fin 3 ∧ (stp 0).1 = fin 200 ∧ On c.kind (c.casts 1) 200 0 99 ∧
      step c (fin 0) 1 stp = .ok r ∧ Ntp.epsErr eosST (fun m => (r.new m).1) (fun m => (r.new m).2.1) (fun m => (r.new m).2.2) (0, 1) = fin ε' ∧ 6 < |ε'| := by
  obtain ⟨⟨spsolve, hs⟩, -⟩ := OmegaMat.exact_solvers_exist (α := ℝ)
  set eosST : Ntp.EosST (Fl ℝ) := fun _ _ p => ((lit 125 - p) * lit (1 / 25), lit 0) with hST
  have hder : ∀ s t p : ℝ, eosST (fin s) (fin t) (fin p) = (fin ((125 - p) / 25), fin 0) := by
    intro s t p
    rw [hST]
    simp [lit_eq]
    ring
  obtain ⟨S, P⟩ : ∃ S, OmegaMat.Solver [((0, 1), (1 : ℝ))] eosST S := ⟨_, OmegaMat.poisson_solver _ eosST hs⟩
  have hsea : ∀ m < 2, Sea (trCast m) 0 (1 / 1000) 200000 0 100 := fun m hm =>
    ⟨0, 2, _, _, _, trGood m, fun i _ _ => by
      have : (m : ℝ) ≤ 1 := by exact_mod_cast Nat.lt_succ_iff.1 hm
      split_ifs <;> linarith, by norm_num, by simp, by simp⟩
  have W : World (trCfg S) [((0, 1), (1 : ℝ))] eosST (fun s _ p => s * ((125 - p) / 25)) 0 (1 / 1000) 200000 (fun _ _ => 0) := {
    ok := ⟨by
      intro m hm k hk
      change k ∈ thPair.nbrs m at hk
      rw [thPair_nbrs] at hk
      split_ifs at hk <;> simp at hk <;> subst hk <;> (show _ < 2) <;> norm_num, by show 0 < 2; norm_num, by show 2 < 200013; norm_num⟩
    tolEq := rfl
    tolPos := by norm_num
    fuel := rfl
    eos := ⟨fun s t p _ => by
      show fin s * ((lit 125 - fin p) * lit (1 / 25)) = _
      simp only [lit_eq, fin_sub, fin_mul, Fl.fin.injEq]
      push_cast
      ring, by fun_prop⟩
    der := fun s t p _ => ⟨_, _, hder s t p⟩
    casts := fun m hm => .inr ⟨0, 100, hsea m hm⟩
    edges := by
      intro a ha b hb
      refine ⟨_, List.mem_singleton.2 rfl, ?_⟩
      change b ∈ thPair.nbrs a at hb
      rw [thPair_nbrs] at hb
      split_ifs at hb with h1 h2 <;> simp at hb
      · left; rw [h1, hb]
      · right; rw [h2, hb]
    sym := by
      intro a b hb
      change b ∈ thPair.nbrs a at hb
      show a ∈ thPair.nbrs b
      rw [thPair_nbrs] at hb ⊢
      split_ifs at hb with h1 h2 <;> simp at hb
      · simp [h1, hb]
      · simp [h2, hb]
    weights := by simp
    solver := P.within }
  have hN : (trCfg S).N = 2 := rfl
  have hpin : (trCfg S).pin = 0 := rfl
  obtain ⟨p0, hp0⟩ : ∃ p : ℕ → ℝ, p = fun m => if m = 0 then 0 else 100 := ⟨_, rfl⟩
  have hpf : (fun m => if m = 0 then (fin 0 : Fl ℝ) else fin 100) = fun m => fin (p0 m) := by
    funext m
    rw [hp0]
    dsimp only
    split_ifs <;> rfl
  have hon : ∀ m : ℕ, On .linear (trCast m) (200 - 99 * m + p0 m) 0 (p0 m) := fun m => (trOn m _ _ _).2 (by
    rw [hp0]
    dsimp only
    split_ifs <;> norm_num)
  have hi : ∀ m : ℕ, interpTwo (trCfg S) (fin (p0 m)) m = some (fin (200 - 99 * (m : ℝ) + p0 m), fin 0) := by
    intro m
    have hv : validRange2 (trCast m).P (trCast m).S = validRange2 (trCast m).P (trCast m).T := by rw [(trGood m).S.vr.1, (trGood m).T.vr.1]
    exact (ppinterp1Two_eq hv _ _ _ _).2 (hon m)
  obtain ⟨stp, hstp⟩ : ∃ stp : Surf (Fl ℝ), stp = fun m : ℕ => if m < 2 then (fin (200 - 99 * (m : ℝ) + p0 m), fin 0, fin (p0 m)) else (Fl.nan, Fl.nan, Fl.nan) := ⟨_, rfl⟩
  have h0 : init (trCfg S) (.array fun m => if m = 0 then fin 0 else fin 100) = .ok stp := by
    rw [hpf]
    unfold init initRaw
    simp only [hi]
    rw [if_pos (by intro n _; rfl)]
    simp only [Res.bind, Option.getD_some]
    rw [if_neg (by rw [hpin, hN]; simp)]
    congr 1
    rw [hstp]
    funext m
    rw [hN]
    by_cases hm : m < 2
    · simp [hm]
    · simp only [hm, if_false]
      rfl
  have hs0 : stp 0 = (fin 200, fin 0, fin 0) := by rw [hstp, hp0]; norm_num
  have hs1 : stp 1 = (fin 201, fin 0, fin 100) := by rw [hstp, hp0]; norm_num
  obtain ⟨stp', sP, tP, i1, hfine, -, hsp⟩ := init_total W (P := .array fun m => if m = 0 then fin 0 else fin 100) (p0 := 0) rfl ⟨0, 100, hsea 0 (by norm_num), le_rfl, by norm_num⟩
  rw [h0] at i1
  cases i1
  obtain ⟨r, g1, g2, g3⟩ := step_total W 1 hfine (s0 := 200) (t0 := 0) (p0 := 0) (by rw [hpin]; exact hs0) rfl
  have hold : r.old = stp := (g2.old (by rintro ⟨h, -⟩; exact absurd (show 11 ≤ 1 from h) (by norm_num))).1.trans (by
    unfold removeML
    split_ifs
    · funext m
      rw [if_neg]
      show ¬ lt _ Fl.nan = true
      cases (stp m).2.2 <;> exact Bool.false_ne_true
    · rfl)
  have w0 : Walk (trCfg S).G (wet stp) (trCfg S).pin 0 0 := .root (by rw [hpin]; unfold wet; rw [hs0]; rfl)
  have hqu : ∀ m, m ∈ r.qu ↔ m ∈ [0, 1] := by
    intro m
    rw [g2.region, hold]
    constructor
    · rintro ⟨k, w⟩
      have := w.good
      unfold wet at this
      by_cases hm : m < 2
      · simp; omega
      · rw [hstp] at this
        simp [hm] at this
    · intro hm
      have : m = 0 ∨ m = 1 := by simpa using hm
      rcases this with rfl | rfl
      · exact ⟨0, w0⟩
      · exact ⟨1, .step w0 (by show 1 ∈ thPair.nbrs 0; decide) (by unfold wet; rw [hs1]; rfl)⟩
  have hin : OmegaMat.inner [((0, 1), (1 : ℝ))] r.qu = [((0, 1), 1)] := by rw [OmegaMat.inner_congr hqu, thInner]
  have herr : Ntp.epsErr eosST (fun m => (stp m).1) (fun m => (stp m).2.1) (fun m => (stp m).2.2) (0, 1) = fin 3 := by
    unfold Ntp.epsErr
    simp only [hs0, hs1, hST, lit_eq, fin_add, fin_mul, fin_sub]
    norm_num
  obtain ⟨ε, H0⟩ : ∃ ε, OmegaMat.Region [((0, 1), (1 : ℝ))] r.qu (trCfg S).pin eosST (fun m => (r.old m).1) (fun m => (r.old m).2.1) (fun m => (r.old m).2.2) ε := by
    rcases g2.posed with h | h
    · have := (hqu 1).2 (by simp)
      rw [h, hpin] at this
      simp at this
    · exact h
  have hε : ε (0, 1) = 3 := by
    have := H0.err ((0, 1), 1) (by rw [hin]; simp)
    rw [hold, herr, Fl.fin.injEq] at this
    exact this.symm
  obtain ⟨ψ, p1, p2, -, -⟩ := OmegaMat.balanced_unique H0
  have hψ : ψ 1 = -3 := by
    have := p2 0 ((hqu 0).2 (by simp))
    rw [hin] at this
    simp [OmegaMat.corr, hε] at this
    rw [hpin] at p1
    linarith
  obtain ⟨φ, f1, f2⟩ := g2.solved ε ψ H0 p2 p1 1 ((hqu 1).2 (by simp))
  have hφ : φ = -3 := by
    rw [hψ] at f2
    have := abs_nonpos_iff.1 f2
    linarith
  subst hφ
  have hmv := g2.moved 1 (by rw [hN]; norm_num)
  rw [hold, hs1, f1] at hmv
  have hnew0 : r.new 0 = (fin 200, fin 0, fin 0) := g3
  rcases hmv with ⟨k1, -⟩ | ⟨k1, -⟩ | ⟨s', t', p', φ', k1, k2, -, ⟨k3, k4⟩ | ⟨A', B', k3, gS, gT, k4, k5⟩⟩
  · norm_num at k1
  · cases k1
  · exact absurd k3 (sea_not_land (hsea 1 (by norm_num)))
  · cases k1
    rw [Fl.fin.injEq] at k2
    subst k2
    obtain ⟨rfl, rfl⟩ := sea_unique (hsea 1 (by norm_num)) k3
    have hg : ∀ x, 0 ≤ x → x ≤ 100 → gS x = 101 + x ∧ gT x = 0 := by
      intro x h1 h2
      obtain ⟨-, -, h3, h4⟩ := (trOn 1 _ _ _).1 (k4 x h1 h2)
      exact ⟨by rw [h3]; norm_num, h4⟩
    rcases k5 with ⟨-, k6⟩ | ⟨p, z, k5, q1, q2, z1, z2, hz, hd⟩
    · exfalso
      dsimp only at k6
      rw [(hg 0 le_rfl (by norm_num)).1, (hg 100 (by norm_num) le_rfl).1] at k6
      norm_num at k6
    · dsimp only at hz
      rw [(hg z z1 z2).1] at hz
      rw [(hg p q1 q2).1, (hg p q1 q2).2] at k5
      rw [abs_of_nonneg q1] at hd
      refine ⟨trCfg S, eosST, stp, r, (125 - p / 2) / 25 * (101 + p - 200), W, hder, h0, herr, by rw [hs0], (trOn 1 _ _ _).2 (by norm_num), g1, ?_, ?_⟩
      · unfold Ntp.epsErr
        simp only [hnew0, k5, hST, lit_eq, fin_add, fin_mul, fin_sub, Fl.fin.injEq]
        push_cast
        ring
      · have hz97 : z = 97 := by linarith
        rw [hz97, abs_le] at hd
        norm_num at hd
        rw [lt_abs]
        right
        have h1 : p ≤ 97 + 1 / 100 := by linarith
        have h2 : 97 - 1 / 100 ≤ p := by linarith
        nlinarith

end Omega
