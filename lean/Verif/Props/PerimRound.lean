import Verif.Props.BfsPerim
import Verif.Props.Isopycnal
import Verif.Props.SolveRound
import Verif.Props.PerimNeutral
import Verif.Lemmas.RoundMean

/-!
# Wetting at the perimeter in floating point (C151)

The pressure of a wetted cast is the mean of its links.  In exact arithmetic it lies between them, so inside the data of the cast; in floating point
the mean of three equal numbers can be larger than each of them, and then there is a pressure but no salinity and temperature.
-/

set_option linter.unusedSectionVars false

namespace Bfs
open FloatLike Traj Interp VertSolve
open Fl hiding nan

variable {α : Type*} [Field α] [LinearOrder α] [IsStrictOrderedRing α] {rnd : α → α}
variable {eos : Rfl rnd → Rfl rnd → Rfl rnd → Rfl rnd} {e : α → α → α → α} {D : α → α → α → Prop} {l u tol : α} {f : ℕ} {kind : PPKind}
  {c : ℕ → Cast (Rfl rnd)} {pml : ℕ → Rfl rnd}

theorem ColR.slice {X Y : Arr (Rfl rnd)} {k K : ℕ} {a y : ℕ → α} (C : ColR X Y k K a y) :
    ColR (X.slice k K) (Y.slice k K) 0 (K - k) (fun i => a (k + i)) (fun i => y (k + i)) := by
  have h2 := C.two
  refine ⟨rfl, by omega, le_refl _, fun i h => by omega, fun h => absurd h (lt_irrefl _), fun i _ h => C.hX (k + i) (by omega) (by omega),
    fun i _ h => C.hY (k + i) (by omega) (by omega), fun i _ h => C.inc (k + i) (by omega) (by omega)⟩

/-- Salinity and temperature at a pressure of a good cast: the interpolants inside the data, two NaNs outside. -/
theorem ofCasts_stR (R : StdRound rnd) {v k K : ℕ} {a s t : ℕ → α} (G : GoodCastR (c v) k K a s t) {p : α} :
    (a k ≤ p → p ≤ a (K - 1) → ∃ s' t', (Ocean.ofCasts f (Rfl.fin tol) eos kind c pml).st v (Rfl.fin p) = (Rfl.fin s', Rfl.fin t') ∧
      interpAt kind (Rfl.fin p) (c v).P (c v).S = some (Rfl.fin s') ∧ interpAt kind (Rfl.fin p) (c v).P (c v).T = some (Rfl.fin t')) ∧
    (¬ (a k ≤ p ∧ p ≤ a (K - 1)) → (Ocean.ofCasts f (Rfl.fin tol) eos kind c pml).st v (Rfl.fin p) = (Rfl.qnan, Rfl.qnan)) := by
  have htwo := G.S.two
  obtain ⟨Sp, Tp, gS, gT, h3, h4, h7, h8, h5⟩ := G.curves R kind (D := fun _ _ _ => True) (pr := fun x => x) (fun _ _ _ _ _ _ _ => trivial)
  have hvr : validRange2 ((c v).P.slice k K) Sp.lastCol = (0, ((c v).P.slice k K).size) := by
    rw [show (0, ((c v).P.slice k K).size) = (0, K - k) from rfl, ← (ColR.slice G.S).vr.1]
    exact validRange2_congr rfl (fun _ _ => rfl) (fun i _ => by rw [Isopycnal.lastCol_of_ppcFn h3])
  have e0 : (Ocean.ofCasts f (Rfl.fin tol) eos kind c pml).st v (Rfl.fin p) = ppval1NonanTwo (Rfl.fin p) ((c v).P.slice k K) Sp Tp 0 := by
    simp only [Ocean.ofCasts, G.S.vr.2, h3, h4]
    rw [Isopycnal.ppval1Two_full _ _ (by show 2 ≤ K - k; omega) hvr]
  rw [e0]
  constructor
  · intro h1 h2
    obtain ⟨i1, i2, i3, -⟩ := h5 p h1 h2
    exact ⟨_, _, i1, i2, i3⟩
  · intro h
    unfold ppval1NonanTwo
    rw [h7, h8, if_pos]
    · rfl
    · rw [Rfl.isNaN_fin, Rfl.lt_fin, Rfl.lt_fin, Bool.false_or, Bool.or_eq_true, decide_eq_true_iff, decide_eq_true_iff]
      by_contra hc
      push Not at hc
      exact h hc

/-- The computed sum of the pressures `g n`. -/
def sumR (rnd : α → α) (g : ℕ → α) (ns : List ℕ) : α := ns.foldl (fun a n => rnd (a + g n)) 0

/-- The computed mean. -/
def meanR (rnd : α → α) (g : ℕ → α) (ns : List ℕ) : α := rnd (sumR rnd g ns / rnd ns.length)

theorem foldl_finR {h : ℕ → Rfl rnd} {g : ℕ → α} : ∀ (ns : List ℕ) (a : α), (∀ n ∈ ns, h n = Rfl.fin (g n)) →
    ns.foldl (fun a n => a + h n) (Rfl.fin a) = Rfl.fin (ns.foldl (fun a n => rnd (a + g n)) a) := by
  intro ns
  induction ns with
  | nil => intro a _; rfl
  | cons n ns ih =>
    intro a hg
    rw [List.foldl_cons, List.foldl_cons, hg n (by simp), Rfl.fin_add]
    exact ih _ fun m hm => hg m (by simp [hm])

theorem sum_bounds (R : StdRound rnd) {g : ℕ → α} {A B : α} (hA : 0 ≤ A) : ∀ (ns : List ℕ) (j : ℕ) (a : α), (∀ n ∈ ns, A ≤ g n ∧ g n ≤ B) →
    j * A * (1 - 1 / 2 ^ 53) ^ j ≤ a → a ≤ j * B * (1 + 1 / 2 ^ 53) ^ j →
    ((j + ns.length : ℕ) : α) * A * (1 - 1 / 2 ^ 53) ^ (j + ns.length) ≤ ns.foldl (fun a n => rnd (a + g n)) a ∧
    ns.foldl (fun a n => rnd (a + g n)) a ≤ ((j + ns.length : ℕ) : α) * B * (1 + 1 / 2 ^ 53) ^ (j + ns.length) := by
  intro ns
  induction ns with
  | nil => intro j a _ h1 h2; exact ⟨h1, h2⟩
  | cons n ns ih =>
    intro j a hg h1 h2
    obtain ⟨g1, g2⟩ := hg n (by simp)
    have hB : 0 ≤ B := hA.trans (g1.trans g2)
    have v0 : (0 : α) ≤ 1 - 1 / 2 ^ 53 := by norm_num
    have v1 : (1 - 1 / 2 ^ 53 : α) ≤ 1 := by norm_num
    have w1 : (1 : α) ≤ 1 + 1 / 2 ^ 53 := by norm_num
    have a0 : 0 ≤ a := le_trans (by positivity) h1
    have s0 : 0 ≤ a + g n := add_nonneg a0 (hA.trans g1)
    have he := R.err (a + g n)
    rw [abs_le, abs_of_nonneg s0] at he
    have lo : (a + g n) * (1 - 1 / 2 ^ 53) ≤ rnd (a + g n) := by linarith [he.1]
    have hi : rnd (a + g n) ≤ (a + g n) * (1 + 1 / 2 ^ 53) := by linarith [he.2]
    have p1 : (1 - 1 / 2 ^ 53 : α) ^ j ≤ 1 := pow_le_one₀ v0 v1
    have p2 : (1 : α) ≤ (1 + 1 / 2 ^ 53) ^ j := one_le_pow₀ w1
    have := ih (j + 1) (rnd (a + g n)) (fun m hm => hg m (by simp [hm])) (by
      refine le_trans ?_ lo
      rw [pow_succ, ← mul_assoc]
      refine mul_le_mul_of_nonneg_right ?_ v0
      push_cast
      have : A * (1 - 1 / 2 ^ 53) ^ j ≤ A := mul_le_of_le_one_right hA p1
      nlinarith) (by
      refine le_trans hi ?_
      rw [pow_succ (1 + 1 / 2 ^ 53 : α) j, ← mul_assoc]
      refine mul_le_mul_of_nonneg_right ?_ (by linarith)
      push_cast
      have : B ≤ B * (1 + 1 / 2 ^ 53) ^ j := le_mul_of_one_le_right hB p2
      nlinarith)
    rw [List.foldl_cons, List.length_cons, show j + (ns.length + 1) = j + 1 + ns.length by omega]
    exact this

/-- The computed mean of `n` numbers between `A` and `B` leaves `[A, B]` by a relative error of `n + 2` roundings at most. -/
theorem mean_bounds (R : StdRound rnd) {g : ℕ → α} {A B : α} (hA : 0 ≤ A) {ns : List ℕ} (h0 : ns ≠ []) (hg : ∀ n ∈ ns, A ≤ g n ∧ g n ≤ B) :
    A * (1 - 1 / 2 ^ 53) ^ (ns.length + 1) / (1 + 1 / 2 ^ 53) ≤ meanR rnd g ns ∧
    meanR rnd g ns ≤ B * (1 + 1 / 2 ^ 53) ^ (ns.length + 1) / (1 - 1 / 2 ^ 53) := by
  obtain ⟨s1, s2⟩ := sum_bounds R hA ns 0 0 hg (by simp) (by simp)
  rw [Nat.zero_add] at s1 s2
  have hlen : (0 : α) < ns.length := by exact_mod_cast List.length_pos_iff.2 h0
  generalize hn : ns.length = n at *
  have hB : 0 ≤ B := by
    obtain ⟨m, hm⟩ := List.exists_mem_of_ne_nil _ h0
    exact hA.trans ((hg m hm).1.trans (hg m hm).2)
  have v0 : (0 : α) < 1 - 1 / 2 ^ 53 := by norm_num
  have w0 : (0 : α) < 1 + 1 / 2 ^ 53 := by norm_num
  have hl := R.err (n : α)
  rw [abs_le, abs_of_pos hlen] at hl
  have l1 : (n : α) * (1 - 1 / 2 ^ 53) ≤ rnd n := by linarith [hl.1]
  have l2 : rnd n ≤ (n : α) * (1 + 1 / 2 ^ 53) := by linarith [hl.2]
  have l0 : 0 < rnd (n : α) := lt_of_lt_of_le (by positivity) l1
  have S0 : 0 ≤ sumR rnd g ns := le_trans (by positivity) s1
  have q1 : A * (1 - 1 / 2 ^ 53) ^ n / (1 + 1 / 2 ^ 53) ≤ sumR rnd g ns / rnd n := by
    rw [div_le_div_iff₀ w0 l0]
    have : (n : α) * A * (1 - 1 / 2 ^ 53) ^ n ≤ sumR rnd g ns := s1
    have h3 : 0 ≤ A * (1 - 1 / 2 ^ 53) ^ n := by positivity
    calc A * (1 - 1 / 2 ^ 53) ^ n * rnd n ≤ A * (1 - 1 / 2 ^ 53) ^ n * (n * (1 + 1 / 2 ^ 53)) := mul_le_mul_of_nonneg_left l2 h3
      _ = (n * A * (1 - 1 / 2 ^ 53) ^ n) * (1 + 1 / 2 ^ 53) := by ring
      _ ≤ _ := mul_le_mul_of_nonneg_right this w0.le
  have q2 : sumR rnd g ns / rnd n ≤ B * (1 + 1 / 2 ^ 53) ^ n / (1 - 1 / 2 ^ 53) := by
    rw [div_le_div_iff₀ l0 v0]
    have : sumR rnd g ns ≤ (n : α) * B * (1 + 1 / 2 ^ 53) ^ n := s2
    have h3 : 0 ≤ B * (1 + 1 / 2 ^ 53) ^ n := by positivity
    calc sumR rnd g ns * (1 - 1 / 2 ^ 53) ≤ (n * B * (1 + 1 / 2 ^ 53) ^ n) * (1 - 1 / 2 ^ 53) := mul_le_mul_of_nonneg_right this v0.le
      _ = B * (1 + 1 / 2 ^ 53) ^ n * (n * (1 - 1 / 2 ^ 53)) := by ring
      _ ≤ _ := mul_le_mul_of_nonneg_left l1 h3
  have Q0 : 0 ≤ sumR rnd g ns / rnd n := by positivity
  have he := R.err (sumR rnd g ns / rnd n)
  rw [abs_le, abs_of_nonneg Q0] at he
  unfold meanR
  rw [hn]
  constructor
  · have lo : sumR rnd g ns / rnd n * (1 - 1 / 2 ^ 53) ≤ rnd (sumR rnd g ns / rnd n) := by linarith [he.1]
    refine le_trans ?_ lo
    rw [pow_succ, ← mul_assoc, mul_div_right_comm]
    exact mul_le_mul_of_nonneg_right q1 v0.le
  · have hi : rnd (sumR rnd g ns / rnd n) ≤ sumR rnd g ns / rnd n * (1 + 1 / 2 ^ 53) := by linarith [he.2]
    refine le_trans hi ?_
    rw [pow_succ (1 + 1 / 2 ^ 53 : α) n, ← mul_assoc, mul_div_right_comm]
    exact mul_le_mul_of_nonneg_right q2 w0.le

/-- The computed mean of one or two numbers between two floating point numbers stays there. -/
theorem mean_few (R : BinRound rnd) {g : ℕ → α} {A B : α} (hA : rnd A = A) (hB : rnd B = B) {ns : List ℕ} (h0 : ns ≠ []) (h2 : ns.length ≤ 2)
    (hg : ∀ n ∈ ns, A ≤ g n ∧ g n ≤ B) : A ≤ meanR rnd g ns ∧ meanR rnd g ns ≤ B := by
  have mono := R.mono
  have bd : ∀ x, A ≤ x ∧ x ≤ B → A ≤ rnd x ∧ rnd x ≤ B := fun x hx => ⟨by rw [← hA]; exact mono _ _ hx.1, by rw [← hB]; exact mono _ _ hx.2⟩
  match ns, h0, h2, hg with
  | [m], _, _, hg =>
    have h := bd _ (hg m (by simp))
    simp only [meanR, sumR, List.foldl_cons, List.foldl_nil, zero_add, List.length_singleton, Nat.cast_one, R.one, div_one, R.idem]
    exact h
  | [m, n], _, _, hg =>
    have h := bd _ (hg m (by simp))
    have h' := hg n (by simp)
    have e2 : rnd ((2 : ℕ) : α) = 2 := by
      have := R.two 1
      rw [R.one, mul_one] at this
      simpa using this
    simp only [meanR, sumR, List.foldl_cons, List.foldl_nil, zero_add, List.length_cons, List.length_nil]
    rw [e2]
    refine bd _ ?_
    have h3 : rnd (2 * A) ≤ rnd (rnd (g m) + g n) := mono _ _ (by linarith)
    have h4 : rnd (rnd (g m) + g n) ≤ rnd (2 * B) := mono _ _ (by linarith)
    rw [R.two, hA] at h3
    rw [R.two, hB] at h4
    exact ⟨by linarith, by linarith⟩

/-- If four times the same number adds up exactly (in double precision it does, `Rounding53.rnd_four`), the computed mean of four numbers stays between them too. -/
theorem mean_four (R : BinRound rnd) (hf : ∀ x, rnd x = x → rnd (rnd (2 * x + x) + x) = 4 * x) {g : ℕ → α} {A B : α} (hA : rnd A = A) (hB : rnd B = B)
    {ns : List ℕ} (h4 : ns.length = 4) (hg : ∀ n ∈ ns, A ≤ g n ∧ g n ≤ B) : A ≤ meanR rnd g ns ∧ meanR rnd g ns ≤ B := by
  have mono := R.mono
  match ns, h4, hg with
  | [m, n, o, p], _, hg =>
    have hm := hg m (by simp)
    have hn := hg n (by simp)
    have ho := hg o (by simp)
    have hp := hg p (by simp)
    have e4 : rnd ((4 : ℕ) : α) = 4 := by
      have h1 := R.two 1
      have h2 := R.two 2
      rw [R.one, mul_one] at h1
      rw [h1] at h2
      norm_num at h2 ⊢
      exact h2
    have two : ∀ x, rnd x = x → rnd (x + x) = 2 * x := fun x hx => by rw [← two_mul, R.two, hx]
    have m1 : ∀ x, rnd x = x → rnd (rnd (rnd (rnd x + x) + x) + x) = 4 * x := fun x hx => by rw [hx, two x hx, hf x hx]
    simp only [meanR, sumR, List.foldl_cons, List.foldl_nil, zero_add, List.length_cons, List.length_nil]
    rw [e4]
    constructor
    · rw [← hA]
      refine mono _ _ ?_
      rw [le_div_iff₀ (by norm_num), mul_comm, ← m1 A hA]
      exact mono _ _ (add_le_add (mono _ _ (add_le_add (mono _ _ (add_le_add (mono _ _ hm.1) hn.1)) ho.1)) hp.1)
    · refine le_of_le_of_eq (mono _ _ ?_) hB
      rw [div_le_iff₀ (by norm_num), mul_comm, ← m1 B hB]
      exact mono _ _ (add_le_add (mono _ _ (add_le_add (mono _ _ (add_le_add (mono _ _ hm.2) hn.2)) ho.2)) hp.2)

/-- A point of a surface held in floating point: three numbers, in the domain of the equation of state. -/
def PointR (D : α → α → α → Prop) (l u : α) (b : Rfl rnd × Rfl rnd × Rfl rnd) : Prop :=
  ∃ s t p, b = (Rfl.fin s, Rfl.fin t, Rfl.fin p) ∧ (∀ q, l ≤ q → q ≤ u → D s t q) ∧ l ≤ p ∧ p ≤ u ∧ rnd p = p

/-- What holds in floating point of one wetted cast, if those linked with it are sound; `A` and `B` are the first and last pressures of its data. -/
theorem perim_core (R : BinRound rnd) (E : EosR rnd eos e D) (hl : rnd l = l) (hu : rnd u = u) (hl0 : 0 ≤ l) (htol : 0 < tol)
    {G : Csr} {N root nrep : ℕ} {stp stp' : ℕ → Rfl rnd × Rfl rnd × Rfl rnd} {newly : ℕ} {W : List ℕ}
    (S : PerimSpec G (Ocean.ofCasts (f + 13) (Rfl.fin tol) eos kind c pml) N root nrep stp stp' newly W)
    (hcast : ∀ n < N, TwoData (c n) → CastOKR kind D l u tol f (c n)) {i v : ℕ} (hv : W[i]? = some v)
    (hsound : ∀ n, Reach G (wet stp) root n ∨ n ∈ W.take i → TwoData (c v) →
      isFinite ((Ocean.ofCasts (f + 13) (Rfl.fin tol) eos kind c pml).ntpP (stp' n) v) = true → PointR D l u (stp' n)) :
    ∃ (ns : List ℕ) (g : ℕ → α) (A B p : α), (∃ k K a s t, GoodCastR (c v) k K a s t ∧ A = a k ∧ B = a (K - 1)) ∧ ns ≠ [] ∧ ns.Sublist (G.nbrs v) ∧
      (∀ n ∈ ns, (Reach G (wet stp) root n ∨ n ∈ W.take i) ∧ A ≤ g n ∧ g n ≤ B ∧ lt (pml n) (Rfl.fin (g n)) = true ∧
        ∃ s1 t1, LinkR kind e tol (stp' n) (c v) (Rfl.fin s1, Rfl.fin t1, Rfl.fin (g n))) ∧
      (stp' v).2.2 = Rfl.fin p ∧ p = meanR rnd g ns ∧ l ≤ A ∧ B ≤ u ∧
      A * (1 - 1 / 2 ^ 53) ^ (ns.length + 1) / (1 + 1 / 2 ^ 53) ≤ p ∧ p ≤ B * (1 + 1 / 2 ^ 53) ^ (ns.length + 1) / (1 - 1 / 2 ^ 53) ∧
      (ns.length ≤ 2 → A ≤ p ∧ p ≤ B) ∧
      (ns.length = 4 → (∀ x, rnd x = x → rnd (rnd (2 * x + x) + x) = 4 * x) → A ≤ p ∧ p ≤ B) ∧
      (A ≤ p → p ≤ B → PointR D l u (stp' v) ∧ interpAt kind (Rfl.fin p) (c v).P (c v).S = some (stp' v).1 ∧
        interpAt kind (Rfl.fin p) (c v).P (c v).T = some (stp' v).2.1) ∧
      (¬ (A ≤ p ∧ p ≤ B) → stp' v = (Rfl.qnan, Rfl.qnan, Rfl.fin p)) := by
  have hvW : v ∈ W := List.mem_of_getElem? hv
  obtain ⟨hdata, ns, h1, h2, h3, p', hp', h4⟩ := S.links i v hv
  have h2d := (ofCasts_data ..).1 hdata
  have C0 := hcast v (S.was_dry v hvW).2 h2d
  obtain ⟨k, K, a, s, t, C, hs, hlo, hhi, ha, ha', hn⟩ := C0
  have htwo := C.S.two
  have hlink : ∀ n, ∃ y, n ∈ ns → (Ocean.ofCasts (f + 13) (Rfl.fin tol) eos kind c pml).ntpP (stp' n) v = Rfl.fin y ∧
      a k ≤ y ∧ y ≤ a (K - 1) ∧ ∃ s1 t1, LinkR kind e tol (stp' n) (c v) (Rfl.fin s1, Rfl.fin t1, Rfl.fin y) := by
    intro n
    by_cases hn' : n ∈ ns
    swap
    · exact ⟨0, fun h => absurd h hn'⟩
    obtain ⟨hr, hfin, -⟩ := h3 n hn'
    have hb : PointR D l u (stp' n) := hsound n hr h2d hfin
    obtain ⟨sB, tB, pB, hb1, hb2, hb3, hb4, hb5⟩ := hb
    have hav : ∀ p, a k ≤ p → p ≤ a (K - 1) → l ≤ rnd (pB + p) / 2 ∧ rnd (pB + p) / 2 ≤ u := fun p h1 h2 =>
      R.avg_mem hl hu hb3 (hlo.trans h1) hb4 (h2.trans hhi)
    obtain ⟨r, hr, hS⟩ := ntp_rounded R kind E C ha ha' (pB := pB) (fun x s t h1 h2 h3 h4 =>
      hs _ (hav x h1 h2).1 (hav x h1 h2).2 x s t h1 h2 h3 h4) (fun p h1 h2 => hb2 _ (hav p h1 h2).1 (hav p h1 h2).2) hb5 htol f hn
    rw [ntpP_eq _ _ _ _ _ _ _ _ h2d, hb1] at hfin ⊢
    simp only [Ocean.ofCasts, hr, valueOr] at hfin ⊢
    have hS' := hS
    obtain ⟨gS, gT, hi, ⟨h, _⟩ | ⟨p, h, q1, q2, _⟩⟩ := hS
    · rw [h] at hfin; cases hfin
    · refine ⟨p, fun _ => ⟨by rw [h], q1, q2, gS p, gT p, sB, tB, pB, k, K, a, s, t, rfl, C, ?_⟩⟩
      rw [← h]; exact hS'
  choose g hg using hlink
  have hsum : p' = Rfl.fin (meanR rnd g ns) := by
    rw [hp', show (lit 0 : Rfl rnd) = Rfl.fin 0 by rw [Rfl.lit_eq, Rat.cast_zero, R.zero], foldl_finR ns 0 fun n hn => (hg n hn).1, Rfl.lit_eq, Rfl.fin_div]
    · simp [meanR, sumR]
    · have : (ns.length : α) ≠ 0 := by simpa using h2
      simpa [R.eq_zero_iff] using this
  have hA0 : 0 ≤ a k := hl0.trans hlo
  have hgb : ∀ n ∈ ns, a k ≤ g n ∧ g n ≤ a (K - 1) := fun n hn => ⟨(hg n hn).2.1, (hg n hn).2.2.1⟩
  obtain ⟨m1, m2⟩ := mean_bounds R.toStdRound hA0 h2 hgb
  obtain ⟨e1, e2⟩ := ofCasts_stR (f := f + 13) (tol := tol) (eos := eos) (kind := kind) (pml := pml) R.toStdRound C (p := meanR rnd g ns)
  rw [hsum] at h4
  refine ⟨ns, g, a k, a (K - 1), meanR rnd g ns, ⟨k, K, a, s, t, C, rfl, rfl⟩, h2, h1, fun n hn => ⟨(h3 n hn).1, (hg n hn).2.1, (hg n hn).2.2.1, ?_, (hg n hn).2.2.2⟩, by rw [h4], rfl,
    hlo, hhi, m1, m2, fun h => mean_few R ha ha' h2 h hgb, fun h h' => mean_four R h' ha ha' h hgb, ?_, ?_⟩
  · have := (h3 n hn).2.2
    rw [(hg n hn).1] at this
    exact this
  · intro q1 q2
    obtain ⟨s', t', i1, i2, i3⟩ := e1 q1 q2
    rw [i1] at h4
    rw [h4]
    exact ⟨⟨s', t', _, rfl, fun q r1 r2 => hs q r1 r2 _ _ _ q1 q2 i2 i3, hlo.trans q1, q2.trans hhi, R.idem _⟩, i2, i3⟩
  · intro h
    rw [h4, e2 h]

/-- **C151** (violated, see `perim_nan_structure_false`) What holds in floating point of one wetted cast, if those before it are sound: its links end at pressures `g n`
inside its data (between `A` and `B`), its pressure `p` is their computed mean, which leaves `[A, B]` by at most the rounding errors, and not at all with
one or two links, nor (in double precision) with four; inside `[A, B]` salinity and temperature are the interpolants at `p`, otherwise they are NaN. -/
theorem perim_rounded_partial (R : BinRound rnd) (E : EosR rnd eos e D) (hl : rnd l = l) (hu : rnd u = u) (hl0 : 0 ≤ l) (htol : 0 < tol)
    {G : Csr} {N root nrep : ℕ} {stp stp' : ℕ → Rfl rnd × Rfl rnd × Rfl rnd} {newly : ℕ} {W : List ℕ}
    (S : PerimSpec G (Ocean.ofCasts (f + 13) (Rfl.fin tol) eos kind c pml) N root nrep stp stp' newly W)
    (hstp : ∀ n, Reach G (wet stp) root n → PointR D l u (stp n)) (hcast : ∀ n < N, TwoData (c n) → CastOKR kind D l u tol f (c n))
    {i v : ℕ} (hv : W[i]? = some v) (hprev : ∀ n ∈ W.take i, PointR D l u (stp' n)) :
    ∃ (ns : List ℕ) (g : ℕ → α) (A B p : α), ns ≠ [] ∧ ns.Sublist (G.nbrs v) ∧
      (∀ n ∈ ns, (Reach G (wet stp) root n ∨ n ∈ W.take i) ∧ A ≤ g n ∧ g n ≤ B ∧ lt (pml n) (Rfl.fin (g n)) = true ∧
        ∃ s1 t1, LinkR kind e tol (stp' n) (c v) (Rfl.fin s1, Rfl.fin t1, Rfl.fin (g n))) ∧
      (stp' v).2.2 = Rfl.fin p ∧ p = meanR rnd g ns ∧ l ≤ A ∧ B ≤ u ∧
      A * (1 - 1 / 2 ^ 53) ^ (ns.length + 1) / (1 + 1 / 2 ^ 53) ≤ p ∧ p ≤ B * (1 + 1 / 2 ^ 53) ^ (ns.length + 1) / (1 - 1 / 2 ^ 53) ∧
      (ns.length ≤ 2 → A ≤ p ∧ p ≤ B) ∧
      (ns.length = 4 → (∀ x, rnd x = x → rnd (rnd (2 * x + x) + x) = 4 * x) → A ≤ p ∧ p ≤ B) ∧
      (A ≤ p → p ≤ B → PointR D l u (stp' v) ∧ interpAt kind (Rfl.fin p) (c v).P (c v).S = some (stp' v).1 ∧
        interpAt kind (Rfl.fin p) (c v).P (c v).T = some (stp' v).2.1) ∧
      (¬ (A ≤ p ∧ p ≤ B) → stp' v = (Rfl.qnan, Rfl.qnan, Rfl.fin p)) := by
  obtain ⟨ns, g, A, B, p, -, h⟩ := perim_core R E hl hu hl0 htol S hcast hv (fun n hn _ _ => by
    rcases hn with hn | hn
    · rw [S.kept n hn]; exact hstp n hn
    · exact hprev n hn)
  exact ⟨ns, g, A, B, p, h⟩

/-- **C151**: where no wetted cast has more than two neighbours to link with (on sections, for example), all wetted casts hold salinity, temperature and pressure. -/
theorem perim_sound_rounded (R : BinRound rnd) (E : EosR rnd eos e D) (hl : rnd l = l) (hu : rnd u = u) (hl0 : 0 ≤ l) (htol : 0 < tol)
    {G : Csr} {N root nrep : ℕ} {stp stp' : ℕ → Rfl rnd × Rfl rnd × Rfl rnd} {newly : ℕ} {W : List ℕ}
    (S : PerimSpec G (Ocean.ofCasts (f + 13) (Rfl.fin tol) eos kind c pml) N root nrep stp stp' newly W)
    (hstp : ∀ n, Reach G (wet stp) root n → PointR D l u (stp n)) (hcast : ∀ n < N, TwoData (c n) → CastOKR kind D l u tol f (c n))
    (hfew : ∀ v ∈ W, (G.nbrs v).length ≤ 2) : ∀ v ∈ W, PointR D l u (stp' v) := by
  have key : ∀ (i v : ℕ), W[i]? = some v → PointR D l u (stp' v) := by
    intro i
    induction i using Nat.strong_induction_on with
    | _ i ih =>
      intro v hv
      obtain ⟨ns, g, A, B, p, -, h2, -, -, -, -, -, -, -, h9, -, h10, -⟩ := perim_rounded_partial R E hl hu hl0 htol S hstp hcast hv (by
        intro n hn
        obtain ⟨j, hj, e1⟩ := List.mem_take_iff_getElem.1 hn
        exact ih j (by omega) n (by rw [← e1]; exact List.getElem?_eq_getElem _))
      have := h9 (h2.length_le.trans (hfew v (List.mem_of_getElem? hv)))
      exact (h10 this.1 this.2).1
  intro v hv
  obtain ⟨i, hi⟩ := List.getElem?_of_mem hv
  exact key i v hi

/-- **C151**: in double precision, on grids where each cast has four neighbours at most (rectilinear and tiled grids), the first wetted cast left without salinity
and temperature is one with exactly three links. -/
theorem perim_lost_three [FloorRing α] {eos : Rfl (Rounding53.rndNear (α := α)) → Rfl (Rounding53.rndNear (α := α)) → Rfl (Rounding53.rndNear (α := α)) →
      Rfl (Rounding53.rndNear (α := α))} {c : ℕ → Cast (Rfl (Rounding53.rndNear (α := α)))} {pml : ℕ → Rfl (Rounding53.rndNear (α := α))}
    (E : EosR Rounding53.rndNear eos e D) (hl : Rounding53.rndNear l = l) (hu : Rounding53.rndNear u = u) (hl0 : 0 ≤ l) (htol : 0 < tol)
    {G : Csr} {N root nrep : ℕ} {stp stp' : ℕ → Rfl (Rounding53.rndNear (α := α)) × Rfl (Rounding53.rndNear (α := α)) × Rfl (Rounding53.rndNear (α := α))}
    {newly : ℕ} {W : List ℕ} (S : PerimSpec G (Ocean.ofCasts (f + 13) (Rfl.fin tol) eos kind c pml) N root nrep stp stp' newly W)
    (hstp : ∀ n, Reach G (wet stp) root n → PointR D l u (stp n)) (hcast : ∀ n < N, TwoData (c n) → CastOKR kind D l u tol f (c n))
    (hfew : ∀ v ∈ W, (G.nbrs v).length ≤ 4)
    {i v : ℕ} (hv : W[i]? = some v) (hprev : ∀ n ∈ W.take i, PointR D l u (stp' n)) (hlost : ¬ PointR D l u (stp' v)) :
    ∃ n1 n2 n3 : ℕ, [n1, n2, n3].Sublist (G.nbrs v) ∧ ∃ p, stp' v = (Rfl.qnan, Rfl.qnan, Rfl.fin p) ∧
      ∀ n ∈ [n1, n2, n3], (Reach G (wet stp) root n ∨ n ∈ W.take i) ∧ ∃ b, LinkR kind e tol (stp' n) (c v) b := by
  obtain ⟨ns, g, A, B, p, h1, h2, h3, -, -, -, -, -, -, h9, h9', h10, h11⟩ := perim_rounded_partial Rounding53.rndNear_bin E hl hu hl0 htol S hstp hcast hv hprev
  have hnot : ¬ (A ≤ p ∧ p ≤ B) := fun h => hlost (h10 h.1 h.2).1
  have hle := h2.length_le.trans (hfew v (List.mem_of_getElem? hv))
  have h3l : ns.length = 3 := by
    have a1 : ¬ ns.length ≤ 2 := fun h => hnot (h9 h)
    have a2 : ns.length ≠ 4 := fun h => hnot (h9' h fun x hx => Rounding53.rnd_four hx)
    omega
  match ns, h3l, h2, h3 with
  | [n1, n2, n3], _, h2, h3 =>
    refine ⟨n1, n2, n3, h2, p, h11 hnot, fun n hn => ⟨(h3 n hn).1, ?_⟩⟩
    obtain ⟨-, -, -, -, s1, t1, hL⟩ := h3 n hn
    exact ⟨_, hL⟩

/-! ## The violation -/

/-- Double precision. -/
abbrev Dbl := Rfl Rounding53.rnd53

/-- The double next to 100.4. -/
def xb : ℚ := Rounding53.rnd53 (1004 / 10)

/-- Casts 0, 1, 2 in a row, cast 3 next to all of them. -/
def star : Csr := ⟨fun m => [0, 2, 5, 7, 10].getD m 10, fun i => [1, 3, 0, 2, 3, 1, 3, 0, 1, 2].getD i 0⟩

/-- Bottles of salinity 34, 35, 36 at pressures 0, 50, 100 in the first three casts; 34 and 35 at the pressures 0 and 100.4 in cast 3. -/
def starCast {F : Type} (x : ℚ → F) (n : ℕ) : Cast F :=
  if n = 3 then ⟨⟨2, fun i => x (34 + i)⟩, ⟨2, fun _ => x 0⟩, ⟨2, fun i => x (if i = 0 then 0 else xb)⟩⟩
  else ⟨⟨3, fun i => x (34 + i)⟩, ⟨3, fun _ => x 0⟩, ⟨3, fun i => x (50 * i)⟩⟩

/-- The surface of salinity 35 on the first three casts. -/
def starStp {F : Type} [FloatLike F] (x : ℚ → F) (n : ℕ) : F × F × F := if n = 3 then (nan, nan, nan) else (x 35, x 0, x 50)

/-- **C151 is violated**: density is salinity, so that the bottle at the bottom of cast 3 (100.4 dbar, salinity 35) is linked neutrally to each of its neighbours.
The mean of three times 100.4 is computed as `100.4 + 2^-46` (next to 100.40000000000002): beyond the data, so salinity and temperature are NaN.
In exact arithmetic the same call gives the bottle. -/
theorem perim_nan_structure_false :
    ((wetPerim star (Ocean.ofCasts 60 (Rfl.fin (1 / 10000) : Dbl) (fun s _ _ => s) .linear (starCast Rfl.fin) (fun _ => .ninf)) 4 0 (starStp Rfl.fin)
      (fun _ => 0) 10 10).map fun r => r.stp 3) = some (Rfl.qnan, Rfl.qnan, Rfl.fin (xb + 1 / 2 ^ 46)) ∧
    ((wetPerim star (Ocean.ofCasts 60 (fin (1 / 10000) : Fl ℚ) (fun s _ _ => s) .linear (starCast fin) (fun _ => .ninf)) 4 0 (starStp fin)
      (fun _ => 0) 10 10).map fun r => r.stp 3) = some (fin 35, fin 0, fin xb) := by
  decide +kernel

/-- Bottles at pressures 0, 50, 100 in double precision. -/
theorem star_ok (n : ℕ) (hn : n ≠ 3) : CastOKR (rnd := Rounding53.rnd53) .linear (fun _ _ _ => True) 0 200 (1 / 100) 30000 (starCast Rfl.fin n) := by
  have e : starCast Rfl.fin n = (⟨⟨3, fun i => Rfl.fin (34 + i)⟩, ⟨3, fun _ => Rfl.fin 0⟩, ⟨3, fun i => Rfl.fin (50 * i)⟩⟩ : Cast Dbl) := if_neg hn
  rw [e]
  refine ⟨0, 3, fun i => 50 * i, fun i => 34 + i, fun _ => 0, ⟨?_, ?_⟩, fun _ _ _ _ _ _ _ _ _ _ => trivial, by norm_num, by norm_num,
    by decide +kernel, by decide +kernel, by norm_num⟩
  · exact ⟨rfl, by norm_num, le_refl _, fun i h => absurd h (Nat.not_lt_zero i), fun h => absurd h (lt_irrefl _), fun _ _ _ => rfl, fun _ _ _ => rfl,
      fun i _ _ => by push_cast; linarith⟩
  · exact ⟨rfl, by norm_num, le_refl _, fun i h => absurd h (Nat.not_lt_zero i), fun h => absurd h (lt_irrefl _), fun _ _ _ => rfl, fun _ _ _ => rfl,
      fun i _ _ => by push_cast; linarith⟩

/-- Two such casts, the surface on cast 0 only, in double precision: cast 1 is wetted at 50 dbar. -/
example : ∃ (r : ℕ → Dbl × Dbl × Dbl) (W : List ℕ), (∀ v ∈ W, PointR (fun _ _ _ => True) 0 200 (r v)) ∧
    ((wetPerim ⟨fun n => min n 2, fun n => 1 - n⟩ (Ocean.ofCasts (30000 + 13) (Rfl.fin (1 / 100) : Dbl) (fun s _ _ => s) .linear
      (fun n => starCast Rfl.fin (min n 2)) (fun _ => .ninf)) 2 0 (fun n => if n = 0 then (Rfl.fin 35, Rfl.fin 0, Rfl.fin 50) else (Rfl.qnan, Rfl.qnan, Rfl.qnan))
      (fun _ => 0) 10 3).map fun r => r.stp 1) = some (Rfl.fin 35, Rfl.fin 0, Rfl.fin 50) := by
  let G : Csr := ⟨fun n => min n 2, fun n => 1 - n⟩
  let stp : ℕ → Dbl × Dbl × Dbl := fun n => if n = 0 then (Rfl.fin 35, Rfl.fin 0, Rfl.fin 50) else (Rfl.qnan, Rfl.qnan, Rfl.qnan)
  have hG : InRange G 2 := by unfold InRange; decide
  obtain ⟨r, W, -, S⟩ := wetPerim_spec (by rfl) G (Ocean.ofCasts (30000 + 13) (Rfl.fin (1 / 100) : Dbl) (fun s _ _ => s) .linear
    (fun n => starCast Rfl.fin (min n 2)) (fun _ => .ninf)) 2 0 stp hG (by norm_num) (fun _ => 0) 10 3 (by norm_num)
  refine ⟨r.stp, W, perim_sound_rounded Rounding53.rnd53_bin (e := fun s _ _ => s) (fun _ _ _ _ => rfl) (by decide +kernel) (by decide +kernel) (le_refl _) (by norm_num) S ?_
    (fun n _ _ => star_ok _ (by omega)) ?_, by decide +kernel⟩
  · rintro n ⟨k, w⟩
    have hw := w.good
    by_cases hn : n = 0
    · subst hn; exact ⟨35, 0, 50, rfl, fun _ _ _ => trivial, by norm_num, by norm_num, by decide +kernel⟩
    · simp [wet, stp, hn, isFinite, Rfl.qnan, Fl.isFinite] at hw
  · intro v hv
    have := (S.was_dry v hv).2
    interval_cases v <;> decide

end Bfs
