import Verif.Props.RefineCast
import Verif.Props.PchipSlopes

/-! # On casts that are straight lines in pressure neither the interpolant nor the sampling matters (C184) -/

set_option linter.unusedSectionVars false

namespace Same
open FloatLike Fzero Interp Traj VertSolve
open Fl hiding nan

variable {kind kind' : PPKind} {X Y X' Y' : Arr (Fl ℝ)} {k K k' K' : ℕ} {a y a' y' : ℕ → ℝ}

/-- both interpolants of data on a line are that line -/
theorem line_interp (C : Col X Y k K a y) {m b : ℝ} (hl : ∀ i, k ≤ i → i < K → y i = m * a i + b) (kind : PPKind) {z : ℝ} (h0 : a k ≤ z)
    (h1 : z ≤ a (K - 1)) : interpAt kind (fin z) X Y = some (fin (m * z + b)) := by
  have h2 := C.two
  have B := C.block
  obtain ⟨T, t1, -, t2⟩ := Col_tables kind C
  rw [(t2 _).2]
  have hz1 : z ≤ a (k + (K - k - 1)) := by rw [show k + (K - k - 1) = K - 1 by omega]; exact h1
  obtain ⟨⟨T', p1, p2, -⟩, p3⟩ := line_reproduced B (m := m) (b := b) (fun i _ hi => hl (k + i) (by omega) (by omega)) (x := z) h0 hz1
  cases kind with
  | linear =>
    have : T = linearCoeffs1 (X.slice k K) (Y.slice k K) := (Option.some.inj t1).symm
    rw [this, p3]
  | pchip =>
    have e : pchipCoeffs1Nonan (X.slice k K) (Y.slice k K) = some T := t1
    rw [pchipNonan_eq, p1] at e
    · rw [← Option.some.inj e, p2]
    · show 0 < K - k; omega
    · rw [B.hX 0 (by omega) (by omega), B.hY 0 (by omega) (by omega)]; simp
    · intro i h1 h3
      rw [B.hX i (by omega) h3, B.hY i (by omega) h3]; simp

/-- two samplings of one line, with any interpolants -/
theorem line_same (C : Col X Y k K a y) (C' : Col X' Y' k' K' a' y') {m b : ℝ} (hl : ∀ i, k ≤ i → i < K → y i = m * a i + b)
    (hl' : ∀ i, k' ≤ i → i < K' → y' i = m * a' i + b) (h0 : a' k' = a k) (h1 : a' (K' - 1) = a (K - 1)) (x : Fl ℝ) :
    interpAt kind' x X' Y' = interpAt kind x X Y := by
  cases x with
  | nan => rw [Col_nan kind C (Or.inl rfl), Col_nan kind' C' (Or.inl rfl)]
  | ninf => rw [Col_nan kind C (Or.inr (Or.inl rfl)), Col_nan kind' C' (Or.inr (Or.inl rfl))]
  | pinf => rw [Col_nan kind C (Or.inr (Or.inr rfl)), Col_nan kind' C' (Or.inr (Or.inr rfl))]
  | fin z =>
    by_cases hz : z < a k ∨ a (K - 1) < z
    · obtain ⟨_, _, -, -, h, -⟩ := C.curve kind
      obtain ⟨_, _, -, -, h', -⟩ := C'.curve kind'
      rw [(h z hz).2, (h' z (by rw [h0, h1]; exact hz)).2]
    · simp only [not_or, not_lt] at hz
      rw [line_interp C hl kind hz.1 hz.2, line_interp C' hl' kind' (by rw [h0]; exact hz.1) (by rw [h1]; exact hz.2)]

variable {c c' : Cast (Fl ℝ)}

/-- **Specification**: between the pressures `u` and `v` the salinities of the bottles are on the line with slope `L 0` through `L 1` at pressure 0, the
temperatures on the line with slope `L 2` through `L 3`; the first bottle is at `u`, the last at `v`. -/
def OnLines (u v : ℝ) (L : Fin 4 → ℝ) (c : Cast (Fl ℝ)) : Prop :=
  ∃ (k K : ℕ) (a : ℕ → ℝ), a k = u ∧ a (K - 1) = v ∧ GoodCast c k K a (fun i => L 0 * a i + L 1) (fun i => L 2 * a i + L 3)

/-- **Specification**: no bottle has a salinity. -/
def Dry (c : Cast (Fl ℝ)) : Prop := c.S.size = c.P.size ∧ ∀ i < c.S.size, c.S.get i = Fl.nan

/-- **Specification**: `c` and `c'` are two samplings of one straight water column, or both are dry. -/
def SameLines (c c' : Cast (Fl ℝ)) : Prop := (∃ u v L, OnLines u v L c ∧ OnLines u v L c') ∨ Dry c ∧ Dry c'

theorem firstFrom_none {p : ℕ → Bool} {lo n : ℕ} (h : ∀ i, lo ≤ i → i < n → p i = false) : firstFrom p lo n = n := by
  unfold firstFrom
  rw [List.find?_eq_none.mpr]
  · rfl
  · intro i hi
    rw [List.mem_range'_1] at hi
    rw [h i hi.1 (by omega)]; simp

theorem firstFrom_empty {p : ℕ → Bool} {lo n : ℕ} (h : n ≤ lo) : firstFrom p lo n = n := firstFrom_none fun i _ _ => by omega

theorem dry_vr {Z W : Arr (Fl ℝ)} (h : ∀ i < Z.size, Z.get i = Fl.nan ∨ W.get i = Fl.nan) : validRange2 Z W = (Z.size, Z.size) := by
  have e : firstFrom (fun i => isFinite (Z.get i) && isFinite (W.get i)) 0 Z.size = Z.size := by
    apply firstFrom_none
    intro i _ hi
    rcases h i hi with h | h <;> simp only [h]
    · rfl
    · cases (isFinite (Z.get i)) <;> rfl
  unfold validRange2
  simp only [e]
  rw [firstFrom_empty (by omega)]

/-- what is read from a cast without data -/
theorem Dry.read (D : Dry c) (kind : PPKind) : ¬ Has c ∧ (∀ p, Omega.interpOn kind c p = some (Fl.nan, Fl.nan)) ∧ (∀ p, trajStart kind p c = .oob) ∧
    ∀ p, Isopycnal.pinST kind c p = .ok (Fl.nan, Fl.nan) := by
  have e1 : validRange2 c.S c.P = (c.S.size, c.S.size) := dry_vr fun i hi => Or.inl (D.2 i hi)
  have e2 : validRange2 c.P c.S = (c.P.size, c.P.size) := dry_vr fun i hi => Or.inr (D.2 i (by rw [D.1]; exact hi))
  have e3 : validRange (Isopycnal.addArr c.S c.P) = (c.S.size, c.S.size) := by
    rw [validRange_eq2]
    refine dry_vr fun i hi => Or.inl ?_
    show c.S.get i + c.P.get i = Fl.nan
    rw [D.2 i hi]; rfl
  have hsl : ∀ (Z : Arr (Fl ℝ)) n, (Z.slice n n).size = 0 := fun Z n => Nat.sub_self n
  have hpp : ∀ (n : ℕ) (Z : Arr (Fl ℝ)), ∃ A, ppcFn kind (c.P.slice n n) (Z.slice n n) = some A := by
    intro n Z
    cases kind with
    | linear => exact ⟨_, rfl⟩
    | pchip =>
      refine ⟨⟨(c.P.slice n n).size, fun i => [nan, nan, nan, (Z.slice n n).get i]⟩, ?_⟩
      show pchipCoeffsAux _ _ 0 _ = _
      unfold pchipCoeffsAux
      rw [hsl]
      rfl
  refine ⟨?_, ?_, ?_, ?_⟩
  · unfold Has; rw [e1]; simp
  · intro p
    have ho : outside c.P c.P.size c.P.size p = true := by unfold outside; simp
    cases kind <;>
    · unfold Omega.interpOn
      simp only [ppinterp1Two, e2, ho, if_true]
      rfl
  · intro p
    unfold trajStart
    simp only [e1]
    rw [if_pos (hsl _ _)]
  · intro p
    unfold Isopycnal.pinST
    obtain ⟨A, hA⟩ := hpp c.S.size c.S
    obtain ⟨B, hB⟩ := hpp c.S.size c.T
    simp only [e3, hA, hB]
    unfold ppval1Two
    have ev : validRange2 (c.P.slice c.S.size c.S.size) A.lastCol = (0, 0) := by
      have := dry_vr (Z := c.P.slice c.S.size c.S.size) (W := A.lastCol) (fun i hi => by rw [hsl] at hi; omega)
      rw [this, hsl]
    simp only [ev]
    rw [if_pos (by unfold outside; simp)]
    rfl

theorem Dry.same (D : Dry c) (D' : Dry c') : SameCast kind c c' kind' := by
  obtain ⟨i1, i2, i3, i4⟩ := D.read kind
  obtain ⟨j1, j2, j3, j4⟩ := D'.read kind'
  exact ⟨⟨fun h => absurd h j1, fun h => absurd h i1⟩, fun h => absurd h i1, fun h => absurd h i1, fun h => absurd h i1, fun h => absurd h i1,
    fun p => (j2 p).trans (i2 p).symm, fun p => (j3 p).trans (i3 p).symm, fun p => (j4 p).trans (i4 p).symm⟩

theorem SameLines.same (H : SameLines c c') (kind kind' : PPKind) : SameCast kind c c' kind' := by
  rcases H with ⟨u, v, L, ⟨k, K, a, h1, h2, G⟩, ⟨k', K', a', h1', h2', G'⟩⟩ | ⟨D, D'⟩
  · refine same_of_interp G G' (h1'.trans h1.symm) (h2'.trans h2.symm) ?_ ?_
    · exact line_same G.S G'.S (fun _ _ _ => rfl) (fun _ _ _ => rfl) (h1'.trans h1.symm) (h2'.trans h2.symm)
    · exact line_same G.T G'.T (fun _ _ _ => rfl) (fun _ _ _ => rfl) (h1'.trans h1.symm) (h2'.trans h2.symm)
  · exact D.same D'

theorem SameLines.symm (H : SameLines c c') : SameLines c' c := by
  rcases H with ⟨u, v, L, h, h'⟩ | ⟨h, h'⟩
  · exact Or.inl ⟨u, v, L, h', h⟩
  · exact Or.inr ⟨h', h⟩

/-- **C184.** `ntp_bottle_to_cast` and `neutral_trajectory`. -/
theorem ntp_straight (H : SameLines c c') (fuel : ℕ) (tol : Fl ℝ) (eos : Fl ℝ → Fl ℝ → Fl ℝ → Fl ℝ) (sB tB pB : Fl ℝ) (kind kind' : PPKind) :
    ntpBottleToCast fuel tol eos kind' sB tB pB c' = ntpBottleToCast fuel tol eos kind sB tB pB c := (H.same kind kind').ntp fuel tol eos sB tB pB

theorem trajectory_straight {cs cs' : List (Cast (Fl ℝ))} (H : List.Forall₂ SameLines cs cs') (fuel : ℕ) (tol : Fl ℝ) (eos : Fl ℝ → Fl ℝ → Fl ℝ → Fl ℝ)
    (p0 : Fl ℝ) (kind kind' : PPKind) : neutralTrajectory fuel tol eos kind' p0 cs' = neutralTrajectory fuel tol eos kind p0 cs :=
  trajectory_same (H.imp fun _ _ h => h.same kind kind') fuel tol eos p0

end Same

namespace Omega
open FloatLike Lib Bfs Same

/-- **C184.** `omega_surf` in exact arithmetic, on two samplings of one ocean whose columns are straight lines, each with any interpolant. -/
theorem omegaSurf_straight {o : Opts (Fl ℝ)} {kind' : PPKind} {d' : Dim} {dims dims' : Option (List String)} {coord : String → Option (List ℚ)}
    {S T S' T' : Nd (Fl ℝ)} {P P' : PArg (Fl ℝ)} {v v' : ℕ} {pr pr' : List ℕ → ℕ → Fl ℝ} (A : Args o.vertDim dims S T P v pr)
    (A' : Args d' dims' S' T' P' v' pr') (hsh : S'.shape.eraseIdx v' = S.shape.eraseIdx v) {g : GridDict (Fl ℝ)}
    (hg : ∀ e ∈ g.edges, e.1 < (S.shape.eraseIdx v).prod ∧ e.2 < (S.shape.eraseIdx v).prod) (hfuel : (S.shape.eraseIdx v).prod < o.fuel)
    (hl : ∀ m, Valid (S.shape.eraseIdx v) m → SameLines (castAt S T pr v m) (castAt S' T' pr' v' m)) {pc : PinCast} {p0 : PArgInit (Fl ℝ)}
    {hs : List ℕ} {out : List ℕ → Fl ℝ × Fl ℝ × Fl ℝ} {st : State (Fl ℝ)} (h : omegaSurf o dims coord S T P g pc p0 = .ok (hs, out, st)) :
    ∃ out' st', omegaSurf { o with vertDim := d', kind := kind' } dims' coord S' T' P' g pc p0 = .ok (hs, out', st') ∧ st'.last = st.last ∧
      ∀ m, Valid hs m → out' m = out m :=
  omegaSurf_same nanLaws_fl A A' hsh hg hfuel (fun m hm => (hl m hm).same o.kind kind') h

end Omega

namespace Isopycnal
open FloatLike Lib Same

/-- **C184.** `potential_surf` and `anomaly_surf`. -/
theorem isoSurf_straight {d d' : Dim} {dims dims' : Option (List String)} {coord : String → Option (List ℚ)} {S T S' T' : Nd (Fl ℝ)}
    {P P' : PArg (Fl ℝ)} {v v' : ℕ} {pr pr' : List ℕ → ℕ → Fl ℝ} (A : Args d dims S T P v pr) (A' : Args d' dims' S' T' P' v' pr')
    (hsh : S'.shape.eraseIdx v' = S.shape.eraseIdx v) (fuel : ℕ) (tol : Fl ℝ) (kind kind' : PPKind) (eos : Fl ℝ → Fl ℝ → Fl ℝ → Fl ℝ) (ty : Ans)
    (diags edges : Bool) (hl : ∀ m, Valid (S.shape.eraseIdx v) m → SameLines (castAt S T pr v m) (castAt S' T' pr' v' m)) (ref : RefArg (Fl ℝ))
    (isoval : Option (Fl ℝ))
    {pin : Pin} (hpin : pin = .none ∨ ∃ pc, pin = .cast pc ∧ ∀ l, processPinCast coord pc = .ok l → l.length = (S.shape.eraseIdx v).length)
    (pinP : PinP (Fl ℝ)) :
    isoSurf fuel tol kind' eos ty d' diags edges dims' coord S' T' P' ref isoval pin pinP =
      isoSurf fuel tol kind eos ty d diags edges dims coord S T P ref isoval pin pinP :=
  isoSurf_same A A' hsh fuel tol kind eos ty diags edges (fun m hm => (hl m hm).same kind kind') ref isoval hpin pinP

end Isopycnal

/-! ## Examples -/

namespace Same
open FloatLike Interp Traj Lib
open Fl hiding nan

/-- `n` levels from pressure 0 to 6 -/
noncomputable def lnP (n k : ℕ) : ℝ := 6 * k / (n - 1 : ℕ)
/-- a water column and a dry one, vertical dimension first -/
noncomputable def lnS (n : ℕ) : Nd (Fl ℝ) := ⟨[n, 2], fun i => if i.getD 1 0 = 0 then fin (lnP n (i.getD 0 0) + 35) else Fl.nan⟩
noncomputable def lnT (n : ℕ) : Nd (Fl ℝ) := ⟨[n, 2], fun i => fin (-2 * lnP n (i.getD 0 0) + 5)⟩

theorem ln_args (n : ℕ) : Args (.int 0) none (lnS n) (lnT n) (.small n fun k => fin (lnP n k)) 0 (fun _ k => fin (lnP n k)) :=
  ⟨rfl, Nat.zero_lt_succ _, rfl, rfl, fun _ _ => rfl⟩

theorem ln_lines {n : ℕ} (hn : 2 ≤ n) : OnLines 0 6 ![1, 35, -2, 5] (castAt (lnS n) (lnT n) (fun _ k => fin (lnP n k)) 0 [0]) := by
  have h0 : (0 : ℝ) < ((n - 1 : ℕ) : ℝ) := by exact_mod_cast (by omega : 0 < n - 1)
  refine ⟨0, n, lnP n, by simp [lnP], by unfold lnP; rw [mul_div_assoc, div_self h0.ne', mul_one], ?_⟩
  constructor
  all_goals
    refine ⟨rfl, by omega, le_rfl, fun i hi => by omega, fun h => absurd h (lt_irrefl n), fun i _ _ => rfl, ?_, ?_⟩
    · intro i _ _
      simp [castAt, lnS, lnT]
    · intro i _ _
      unfold lnP
      apply div_lt_div_of_pos_right _ h0
      push_cast; linarith

/-- The hypotheses of the theorems above: samplings with `n` and `n'` levels. -/
theorem ln_same {n n' : ℕ} (hn : 2 ≤ n) (hn' : 2 ≤ n') (m : List ℕ) (hm : Valid ((lnS n).shape.eraseIdx 0) m) :
    SameLines (castAt (lnS n) (lnT n) (fun _ k => fin (lnP n k)) 0 m) (castAt (lnS n') (lnT n') (fun _ k => fin (lnP n' k)) 0 m) := by
  have hm : Valid [2] m := hm
  obtain ⟨i, rfl⟩ : ∃ i, m = [i] := by
    unfold Valid at hm
    rcases hm with _ | ⟨_, h⟩
    cases h
    exact ⟨_, rfl⟩
  by_cases hi : i = 0
  · subst hi
    left
    refine ⟨0, 6, ![1, 35, -2, 5], ?_⟩
    exact ⟨ln_lines hn, ln_lines hn'⟩
  · right
    constructor <;>
    · refine ⟨rfl, fun k _ => ?_⟩
      show (if i = 0 then _ else Fl.nan) = Fl.nan
      rw [if_neg hi]

/-- a surface through the first column is the same with 3 levels and linear interpolation as with 7 levels and PCHIP -/
example (fuel : ℕ) (tol ref : Fl ℝ) (eos : Fl ℝ → Fl ℝ → Fl ℝ → Fl ℝ) (pinP : Isopycnal.PinP (Fl ℝ)) :
    Isopycnal.isoSurf fuel tol .pchip eos .potential (.int 0) true false none (fun _ => none) (lnS 7) (lnT 7) (.small 7 fun k => fin (lnP 7 k))
      (.float ref) none (.cast (.tuple [0])) pinP =
    Isopycnal.isoSurf fuel tol .linear eos .potential (.int 0) true false none (fun _ => none) (lnS 3) (lnT 3) (.small 3 fun k => fin (lnP 3 k))
      (.float ref) none (.cast (.tuple [0])) pinP :=
  Isopycnal.isoSurf_straight (ln_args 3) (ln_args 7) rfl fuel tol .linear .pchip eos .potential true false (ln_same (by omega) (by omega)) _ _
    (Or.inr ⟨_, rfl, fun l h => by cases h; rfl⟩) pinP

example (fuel : ℕ) (tol p0 : Fl ℝ) (eos : Fl ℝ → Fl ℝ → Fl ℝ → Fl ℝ) :
    neutralTrajectory fuel tol eos .pchip p0 [castAt (lnS 4) (lnT 4) (fun _ k => fin (lnP 4 k)) 0 [0], castAt (lnS 9) (lnT 9) (fun _ k => fin (lnP 9 k)) 0 [0]] =
    neutralTrajectory fuel tol eos .linear p0 [castAt (lnS 4) (lnT 4) (fun _ k => fin (lnP 4 k)) 0 [0], castAt (lnS 2) (lnT 2) (fun _ k => fin (lnP 2 k)) 0 [0]] := by
  have hv : Valid [2] [0] := by unfold Valid; simp
  exact trajectory_straight (.cons (ln_same (by omega) (by omega) [0] hv) (.cons (ln_same (by omega) (by omega) [0] hv) .nil)) fuel tol eos p0 .linear .pchip

end Same
