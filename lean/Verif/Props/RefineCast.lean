import Verif.Props.SameApi
import Verif.Props.Traj

/-! # Bottles on the chords between the bottles of a cast have no influence (C157) -/

set_option linter.unusedSectionVars false

namespace Same
open FloatLike Fzero Interp Traj VertSolve
open Fl hiding nan

variable {kind : PPKind} {X Y : Arr (Fl ℝ)} {k K : ℕ} {a y s t : ℕ → ℝ}

theorem Col_tables (kind : PPKind) (C : Col X Y k K a y) : ∃ T, ppcFn kind (X.slice k K) (Y.slice k K) = some T ∧
    validRange2 (X.slice k K) T.lastCol = (0, K - k) ∧ ∀ x, ppval1Nonan x (X.slice k K) T 0 = ppval1 x (X.slice k K) T 0 ∧
      interpAt kind x X Y = some (ppval1 x (X.slice k K) T 0) := by
  have h2 := C.two
  obtain ⟨T, V, hT⟩ : ∃ T V, Table kind X Y k K a y T V := by
    cases kind
    · exact C.tableLinear
    · exact C.tablePchip
  have hvr := C.block.vr_table hT.last
  refine ⟨T, hT.made, hvr, fun x => ⟨?_, hT.pub x⟩⟩
  have := ppval1Nonan_trim (X := X.slice k K) (C := T) x 0 (by rw [hvr]; show 0 + 2 ≤ K - k; omega)
  rw [hvr] at this
  rw [← this]
  have hsz := hT.sz
  congr 1
  · simp [Arr.slice]
  · cases T; simp only at hsz; subst hsz; simp [PPC.slice]

theorem Good_vr {c : Cast (Fl ℝ)} (G : GoodCast c k K a s t) : validRange (Isopycnal.addArr c.S c.P) = (k, K) := by
  have h2 := G.S.two
  have hle := G.S.le
  have hs := G.S.size
  rw [validRange_eq2]
  have hnan : ∀ i, c.P.get i = Fl.nan ∨ c.S.get i = Fl.nan → c.S.get i + c.P.get i = Fl.nan := by
    intro i h
    rcases h with h | h <;> rw [h]
    · cases c.S.get i <;> rfl
    · rfl
  have hfin : ∀ i, k ≤ i → i < K → c.S.get i + c.P.get i = fin (s i + a i) := by
    intro i h1 h2
    rw [G.S.hX i h1 h2, G.S.hY i h1 h2]; rfl
  apply validRange2_eq
  · show k < c.S.size; omega
  · omega
  · show K ≤ c.S.size; omega
  · intro i hi
    left
    show isFinite (c.S.get i + c.P.get i) = false
    rw [hnan i (G.S.before i hi)]; rfl
  · show isFinite (c.S.get k + c.P.get k) = true ∧ isFinite (c.S.get k + c.P.get k) = true
    rw [hfin k le_rfl (by omega)]; exact ⟨rfl, rfl⟩
  · intro i h1 h2
    show isNaN (c.S.get i + c.P.get i) = false ∧ isNaN (c.S.get i + c.P.get i) = false
    rw [hfin i (by omega) h2]; exact ⟨rfl, rfl⟩
  · intro h
    have h : K < c.S.size := h
    left
    show isNaN (c.S.get K + c.P.get K) = true
    rw [hnan K (G.S.after (by omega))]; rfl

variable {c c' : Cast (Fl ℝ)} {k' K' : ℕ} {a' s' t' : ℕ → ℝ}

/-- everything read from a good cast, in terms of the public interpolation -/
theorem Good_read (kind : PPKind) (G : GoodCast c k K a s t) : ∃ g : Fl ℝ → Fl ℝ × Fl ℝ,
    (∀ x, interpAt kind x c.P c.S = some (g x).1 ∧ interpAt kind x c.P c.T = some (g x).2) ∧
    Has c ∧ top c = fin (a k) ∧ bot c = fin (a (K - 1)) ∧ evalN kind c = some g ∧ evalT kind c = some g ∧
    (∀ p, Omega.interpOn kind c p = some (g p)) ∧ (∀ p, trajStart kind p c = .ret ((g p).1, (g p).2, p)) ∧
    ∀ p, Isopycnal.pinST kind c p = .ok (g p) := by
  obtain ⟨A, a1, a2, a3⟩ := Col_tables kind G.S
  obtain ⟨B, b1, b2, b3⟩ := Col_tables kind G.T
  have h2 := G.S.two
  have hvr := G.S.vr.2
  have hN : ∀ x, ppval1NonanTwo x (c.P.slice k K) A B 0 = (ppval1 x (c.P.slice k K) A 0, ppval1 x (c.P.slice k K) B 0) := by
    intro x
    rw [ppval1NonanTwo_eq, (a3 x).1, (b3 x).1]
  have hT : ∀ x, ppval1Two x (c.P.slice k K) A B 0 = (ppval1 x (c.P.slice k K) A 0, ppval1 x (c.P.slice k K) B 0) := by
    intro x
    rw [ppval1Two_eq (a2.trans b2.symm)]
  refine ⟨fun x => (ppval1 x (c.P.slice k K) A 0, ppval1 x (c.P.slice k K) B 0), fun x => ⟨(a3 x).2, (b3 x).2⟩, ?_, ?_, ?_, ?_, ?_, ?_, ?_, ?_⟩
  · unfold Has; rw [hvr]; show 1 < K - k; omega
  · unfold top trim; rw [hvr]
    show c.P.get (k + 0) = _
    rw [add_zero, G.S.hX k le_rfl (by omega)]
  · unfold bot trim; rw [hvr]
    show c.P.get (k + (K - k - 1)) = _
    rw [show k + (K - k - 1) = K - 1 by omega, G.S.hX _ (by omega) (by omega)]
  · unfold evalN trim; rw [hvr]; dsimp only; rw [a1, b1]
    simp only [hN]
  · unfold evalT trim; rw [hvr]; dsimp only; rw [a1, b1]
    simp only [hT]
  · intro p
    have e : validRange2 c.P c.S = validRange2 c.P c.T := G.S.vr.1.trans G.T.vr.1.symm
    cases kind with
    | linear => exact (ppinterp1Two_eq e p 0 _ _).2 ⟨(a3 p).2, (b3 p).2⟩
    | pchip => exact (ppinterp1Two_eq e p 0 _ _).2 ⟨(a3 p).2, (b3 p).2⟩
  · intro p
    unfold trajStart
    dsimp only
    rw [hvr]
    dsimp only
    rw [if_neg (by show ¬ K - k = 0; omega), a1, b1]
    dsimp only
    rw [hN]
  · intro p
    unfold Isopycnal.pinST
    dsimp only
    rw [Good_vr G]
    dsimp only
    rw [a1, b1]
    dsimp only
    rw [hT]

/-- Casts with the same interpolants and the same end pressures look the same. -/
theorem same_of_interp (G : GoodCast c k K a s t) (G' : GoodCast c' k' K' a' s' t') (h0 : a' k' = a k) (h1 : a' (K' - 1) = a (K - 1))
    {kind' : PPKind} (hS : ∀ x, interpAt kind' x c'.P c'.S = interpAt kind x c.P c.S) (hT : ∀ x, interpAt kind' x c'.P c'.T = interpAt kind x c.P c.T) : SameCast kind c c' kind' := by
  obtain ⟨g, i1, i2, i3, i4, i5, i6, i7, i8, i9⟩ := Good_read kind G
  obtain ⟨g', j1, j2, j3, j4, j5, j6, j7, j8, j9⟩ := Good_read kind' G'
  have : g' = g := by
    funext x
    have e1 := (j1 x).1
    have e2 := (j1 x).2
    rw [hS, (i1 x).1] at e1
    rw [hT, (i1 x).2] at e2
    exact Prod.ext (Option.some.inj e1).symm (Option.some.inj e2).symm
  subst this
  exact ⟨⟨fun _ => i2, fun _ => j2⟩, fun _ => by rw [j3, i3, h0], fun _ => by rw [j4, i4, h1], fun _ => j5.trans i5.symm, fun _ => j6.trans i6.symm,
    fun p => (j7 p).trans (i7 p).symm, fun p => (j8 p).trans (i8 p).symm, fun p => (j9 p).trans (i9 p).symm⟩

/-- the chord of `y` over `a i`, `a (i + 1)` -/
noncomputable def chordAt (a y : ℕ → ℝ) (i : ℕ) (x : ℝ) : ℝ := y i + (x - a i) * ((y (i + 1) - y i) / (a (i + 1) - a i))

theorem Col_chord (C : Col X Y k K a y) {i : ℕ} (h1 : k ≤ i) (h2 : i + 1 < K) {x : ℝ} (hx : a i ≤ x) (hx' : x ≤ a (i + 1)) :
    interpAt .linear (fin x) X Y = some (fin (chordAt a y i x)) := by
  show linearInterp1 (fin x) X Y 0 = _
  rw [linear_padding finite_not_nan C.padded C.none]
  have := (linear_chord C.block (i := i - k) (x := x) (by omega) (by omega) (by show a (k + (i - k)) ≤ x; rw [show k + (i - k) = i by omega]; exact hx)
    (by show x ≤ a (k + (i - k + 1)); rw [show k + (i - k + 1) = i + 1 by omega]; exact hx')).2.1
  rw [this]
  unfold chordAt
  rw [show k + (i - k) = i by omega, show k + (i - k + 1) = i + 1 by omega]

theorem Col_nan (kind : PPKind) (C : Col X Y k K a y) {x : Fl ℝ} (hx : x = Fl.nan ∨ x = Fl.ninf ∨ x = Fl.pinf) : interpAt kind x X Y = some Fl.nan := by
  obtain ⟨T, -, h1, h2⟩ := Col_tables kind C
  rw [(h2 x).2]
  have h3 := C.two
  have B := C.block
  unfold ppval1
  rw [h1]
  dsimp only
  have : outside (X.slice k K) 0 (K - k) x = true := by
    unfold outside
    rcases hx with rfl | rfl | rfl
    · simp
    · rw [B.hX 0 le_rfl (by omega)]
      have : lt Fl.ninf (fin (a (k + 0))) = true := rfl
      rw [this]; simp
    · rw [B.hX (K - k - 1) (by omega) (by omega)]
      have : lt (fin (a (k + (K - k - 1)))) Fl.pinf = true := rfl
      rw [this]; simp
  rw [if_pos this]; rfl

/-- **Specification**: the pressures `a'` contain the pressures `a`, and the data at each of them is on a chord of the data at the pressures `a`. -/
structure OnChords (k K : ℕ) (a y : ℕ → ℝ) (k' K' : ℕ) (a' y' : ℕ → ℝ) : Prop where
  keep : ∀ i, k ≤ i → i < K → ∃ j, k' ≤ j ∧ j < K' ∧ a' j = a i
  chord : ∀ j, k' ≤ j → j < K' → ∃ i, k ≤ i ∧ i + 1 < K ∧ a i ≤ a' j ∧ a' j ≤ a (i + 1) ∧
    y' j = y i + (a' j - a i) * ((y (i + 1) - y i) / (a (i + 1) - a i))

theorem inc_le {a : ℕ → ℝ} {k K : ℕ} (h : ∀ i, k ≤ i → i + 1 < K → a i < a (i + 1)) : ∀ i j, k ≤ i → i ≤ j → j < K → a i ≤ a j := by
  intro i j h1 h2 h3
  induction j, h2 using Nat.le_induction with
  | base => exact le_rfl
  | succ j hj ih => exact (ih (by omega)).trans (h j (by omega) h3).le

theorem inc_lt {a : ℕ → ℝ} {k K : ℕ} (h : ∀ i, k ≤ i → i + 1 < K → a i < a (i + 1)) : ∀ i j, k ≤ i → i < j → j < K → a i < a j := by
  intro i j h1 h2 h3
  exact (h i h1 (by omega)).trans_le (inc_le h (i + 1) j (by omega) (by omega) h3)

variable {X' Y' : Arr (Fl ℝ)} {y' : ℕ → ℝ}

theorem OnChords.ends (R : OnChords k K a y k' K' a' y') (C : Col X Y k K a y) (C' : Col X' Y' k' K' a' y') : a' k' = a k ∧ a' (K' - 1) = a (K - 1) := by
  have h2 := C.two
  have h2' := C'.two
  constructor
  · apply le_antisymm
    · obtain ⟨j, j1, j2, j3⟩ := R.keep k le_rfl (by omega)
      rw [← j3]; exact inc_le C'.inc k' j le_rfl j1 j2
    · obtain ⟨i, i1, i2, i3, -⟩ := R.chord k' le_rfl (by omega)
      exact (inc_le C.inc k i le_rfl i1 (by omega)).trans i3
  · apply le_antisymm
    · obtain ⟨i, i1, i2, -, i4, -⟩ := R.chord (K' - 1) (by omega) (by omega)
      exact i4.trans (inc_le C.inc (i + 1) (K - 1) (by omega) (by omega) (by omega))
    · obtain ⟨j, j1, j2, j3⟩ := R.keep (K - 1) (by omega) (by omega)
      rw [← j3]; exact inc_le C'.inc j (K' - 1) j1 (by omega) (by omega)

/-- linear interpolation does not see bottles on the chords -/
theorem OnChords.interp (R : OnChords k K a y k' K' a' y') (C : Col X Y k K a y) (C' : Col X' Y' k' K' a' y') (x : Fl ℝ) :
    interpAt .linear x X' Y' = interpAt .linear x X Y := by
  have h2 := C.two
  have h2' := C'.two
  obtain ⟨e0, e1⟩ := R.ends C C'
  cases x with
  | nan => rw [Col_nan .linear C (Or.inl rfl), Col_nan .linear C' (Or.inl rfl)]
  | ninf => rw [Col_nan .linear C (Or.inr (Or.inl rfl)), Col_nan .linear C' (Or.inr (Or.inl rfl))]
  | pinf => rw [Col_nan .linear C (Or.inr (Or.inr rfl)), Col_nan .linear C' (Or.inr (Or.inr rfl))]
  | fin z =>
    by_cases hz : z < a k ∨ a (K - 1) < z
    · obtain ⟨_, _, -, -, h, -⟩ := C.curve .linear
      obtain ⟨_, _, -, -, h', -⟩ := C'.curve .linear
      rw [(h z hz).2, (h' z (by rw [e0, e1]; exact hz)).2]
    · simp only [not_or, not_lt] at hz
      -- the piece of the finer data
      obtain ⟨j, j1, j2, j3, j4⟩ : ∃ j, k' ≤ j ∧ j + 1 < K' ∧ a' j ≤ z ∧ z ≤ a' (j + 1) := by
        have B := C'.block
        have ho := (B.outside_iff z).mpr ⟨by show a' (k' + 0) ≤ z; rw [add_zero, e0]; exact hz.1, by
          show z ≤ a' (k' + (K' - k' - 1)); rw [show k' + (K' - k' - 1) = K' - 1 by omega, e1]; exact hz.2⟩
        obtain ⟨f1, f2, f3, f4, _⟩ := pieceIndex_bracket B.hX B.mono ho
        exact ⟨k' + pieceIndex (X'.slice k' K') 0 (K' - k') (fin z), by omega, by omega, f3, f4⟩
      -- it lies in one piece of the coarser data
      have hlt := C'.inc j j1 j2
      obtain ⟨i, i1, i2, i3, i4⟩ : ∃ i, k ≤ i ∧ i + 1 < K ∧ a i ≤ a' j ∧ a' (j + 1) ≤ a (i + 1) := by
        obtain ⟨i, i1, i2, i3, i4, -⟩ := R.chord j j1 (by omega)
        by_cases hc : a' (j + 1) ≤ a (i + 1)
        · exact ⟨i, i1, i2, i3, hc⟩
        · rw [not_le] at hc
          obtain ⟨q, q1, q2, q3⟩ := R.keep (i + 1) (by omega) i2
          have hq : q < j + 1 := by
            by_contra hn
            have := inc_le C'.inc (j + 1) q (by omega) (by omega) q2
            rw [q3] at this
            linarith
          have hq' : a (i + 1) ≤ a' j := by
            rw [← q3]; exact inc_le C'.inc q j q1 (by omega) (by omega)
          have hK : i + 1 + 1 < K := by
            by_contra hn
            have : i + 1 = K - 1 := by omega
            rw [this, ← e1] at hc
            have := inc_le C'.inc (j + 1) (K' - 1) (by omega) (by omega) (by omega)
            linarith
          obtain ⟨u, u1, u2, u3⟩ := R.keep (i + 1 + 1) (by omega) hK
          refine ⟨i + 1, by omega, hK, hq', ?_⟩
          have hinc := C.inc (i + 1) (by omega) hK
          have hu : j < u := by
            by_contra hn
            have := inc_le C'.inc u j u1 (by omega) (by omega)
            rw [u3] at this
            linarith
          rw [← u3]
          exact inc_le C'.inc (j + 1) u (by omega) (by omega) u2
      have hval : ∀ q, k' ≤ q → q < K' → a i ≤ a' q → a' q ≤ a (i + 1) → y' q = chordAt a y i (a' q) := by
        intro q q1 q2 q3 q4
        obtain ⟨r, r1, r2, r3, r4, r5⟩ := R.chord q q1 q2
        have u := Col_chord C i1 i2 q3 q4
        have v := Col_chord C r1 r2 r3 r4
        rw [u] at v
        rw [Fl.fin.inj (Option.some.inj v)]
        exact r5
      have v0 := hval j j1 (by omega) i3 (by linarith)
      have v1 := hval (j + 1) (by omega) j2 (by linarith) i4
      rw [Col_chord C' j1 j2 j3 j4, Col_chord C i1 i2 (i3.trans j3) (j4.trans i4)]
      congr 2
      unfold chordAt at v0 v1 ⊢
      rw [v0, v1]
      have : a' (j + 1) - a' j ≠ 0 := by linarith
      field_simp
      ring

/-- **C157** (one cast). With linear interpolation and exact arithmetic, bottles added on the chords between the bottles of a cast make no difference. -/
theorem refine_same (G : GoodCast c k K a s t) (G' : GoodCast c' k' K' a' s' t') (hS : OnChords k K a s k' K' a' s') (hT : OnChords k K a t k' K' a' t') :
    SameCast .linear c c' :=
  same_of_interp G G' (hS.ends G.S G'.S).1 (hS.ends G.S G'.S).2 (hS.interp G.S G'.S) (hT.interp G.T G'.T)

/-- **Specification**: the cast `c'` is `c` with levels without data added, or with bottles added on the chords between its bottles. -/
def Refines (c c' : Cast (Fl ℝ)) : Prop :=
  (∃ m, NanPad c c' m) ∨ ∃ k K a s t k' K' a' s' t', GoodCast c k K a s t ∧ GoodCast c' k' K' a' s' t' ∧ OnChords k K a s k' K' a' s' ∧
    OnChords k K a t k' K' a' t'

theorem Refines.same (H : Refines c c') : SameCast .linear c c' := by
  rcases H with ⟨m, h⟩ | ⟨k, K, a, s, t, k', K', a', s', t', G, G', hS, hT⟩
  · exact h.same nanSum_fl
  · exact refine_same G G' hS hT

/-- **C157.** `ntp_bottle_to_cast` and `neutral_trajectory` with linear interpolation. -/
theorem ntp_refine (H : Refines c c') (fuel : ℕ) (tol : Fl ℝ) (eos : Fl ℝ → Fl ℝ → Fl ℝ → Fl ℝ) (sB tB pB : Fl ℝ) :
    ntpBottleToCast fuel tol eos .linear sB tB pB c' = ntpBottleToCast fuel tol eos .linear sB tB pB c := H.same.ntp fuel tol eos sB tB pB

theorem trajectory_refine {cs cs' : List (Cast (Fl ℝ))} (H : List.Forall₂ Refines cs cs') (fuel : ℕ) (tol : Fl ℝ) (eos : Fl ℝ → Fl ℝ → Fl ℝ → Fl ℝ) (p0 : Fl ℝ) :
    neutralTrajectory fuel tol eos .linear p0 cs' = neutralTrajectory fuel tol eos .linear p0 cs :=
  trajectory_same (H.imp fun _ _ h => h.same) fuel tol eos p0

end Same

namespace Omega
open FloatLike Lib Bfs Same

/-- **C157.** `omega_surf` with linear interpolation, in exact arithmetic, on data to which bottles have been added on the chords between the bottles of each
cast (and levels without data anywhere above and below): the same surface. -/
theorem omegaSurf_refine {o : Opts (Fl ℝ)} (hk : o.kind = .linear) {d' : Dim} {dims dims' : Option (List String)} {coord : String → Option (List ℚ)}
    {S T S' T' : Nd (Fl ℝ)} {P P' : PArg (Fl ℝ)} {v v' : ℕ} {pr pr' : List ℕ → ℕ → Fl ℝ} (A : Args o.vertDim dims S T P v pr)
    (A' : Args d' dims' S' T' P' v' pr') (hsh : S'.shape.eraseIdx v' = S.shape.eraseIdx v) {g : GridDict (Fl ℝ)}
    (hg : ∀ e ∈ g.edges, e.1 < (S.shape.eraseIdx v).prod ∧ e.2 < (S.shape.eraseIdx v).prod) (hfuel : (S.shape.eraseIdx v).prod < o.fuel)
    (href : ∀ m, Valid (S.shape.eraseIdx v) m → Refines (castAt S T pr v m) (castAt S' T' pr' v' m)) {pc : PinCast} {p0 : PArgInit (Fl ℝ)}
    {hs : List ℕ} {out : List ℕ → Fl ℝ × Fl ℝ × Fl ℝ} {st : State (Fl ℝ)} :
    (omegaSurf o dims coord S T P g pc p0 = .ok (hs, out, st) →
      ∃ out' st', omegaSurf { o with vertDim := d' } dims' coord S' T' P' g pc p0 = .ok (hs, out', st') ∧ st'.last = st.last ∧ ∀ m, Valid hs m → out' m = out m) ∧
    (omegaSurf { o with vertDim := d' } dims' coord S' T' P' g pc p0 = .ok (hs, out, st) →
      ∃ out' st', omegaSurf o dims coord S T P g pc p0 = .ok (hs, out', st') ∧ st'.last = st.last ∧ ∀ m, Valid hs m → out' m = out m) := by
  have hc : ∀ m, Valid (S.shape.eraseIdx v) m → SameCast o.kind (castAt S T pr v m) (castAt S' T' pr' v' m) :=
    fun m hm => by rw [hk]; exact (href m hm).same
  refine ⟨fun h => omegaSurf_same nanLaws_fl A A' hsh hg hfuel hc h, fun h => ?_⟩
  exact omegaSurf_same nanLaws_fl (o := { o with vertDim := d' }) (d' := o.vertDim) A' A hsh.symm (by rw [hsh]; exact hg) (by rw [hsh]; exact hfuel)
    (fun m hm => (hc m (by rw [← hsh]; exact hm)).symm) h

end Omega

namespace Isopycnal
open FloatLike Lib Same

/-- **C157.** `potential_surf` and `anomaly_surf`. -/
theorem isoSurf_refine {d d' : Dim} {dims dims' : Option (List String)} {coord : String → Option (List ℚ)} {S T S' T' : Nd (Fl ℝ)}
    {P P' : PArg (Fl ℝ)} {v v' : ℕ} {pr pr' : List ℕ → ℕ → Fl ℝ} (A : Args d dims S T P v pr) (A' : Args d' dims' S' T' P' v' pr')
    (hsh : S'.shape.eraseIdx v' = S.shape.eraseIdx v) (fuel : ℕ) (tol : Fl ℝ) (eos : Fl ℝ → Fl ℝ → Fl ℝ → Fl ℝ) (ty : Ans) (diags edges : Bool)
    (href : ∀ m, Valid (S.shape.eraseIdx v) m → Refines (castAt S T pr v m) (castAt S' T' pr' v' m)) (ref : RefArg (Fl ℝ)) (isoval : Option (Fl ℝ))
    {pin : Pin} (hpin : pin = .none ∨ ∃ pc, pin = .cast pc ∧ ∀ l, processPinCast coord pc = .ok l → l.length = (S.shape.eraseIdx v).length)
    (pinP : PinP (Fl ℝ)) :
    isoSurf fuel tol .linear eos ty d' diags edges dims' coord S' T' P' ref isoval pin pinP =
      isoSurf fuel tol .linear eos ty d diags edges dims coord S T P ref isoval pin pinP :=
  isoSurf_same A A' hsh fuel tol .linear eos ty diags edges (fun m hm => (href m hm).same) ref isoval hpin pinP

end Isopycnal

namespace Same
open FloatLike Interp Traj Lib
open Fl hiding nan

/-- data without NaN -/
def dat (l : List ℚ) : Arr (Fl ℚ) := Arr.ofList (l.map Fl.fin)

/-- With PCHIP it is false: a bottle on a chord, like a bottle on the curve (which goes through 5/16 at 1/2), changes the curve at 1/4. -/
theorem pchip_refine_false :
    pchipInterp1 (fin (1/4)) (dat [0, 1, 2]) (dat [0, 1, 4]) 0 = some (fin (11/128)) ∧
    pchipInterp1 (fin (1/2)) (dat [0, 1, 2]) (dat [0, 1, 4]) 0 = some (fin (5/16)) ∧
    pchipInterp1 (fin (1/4)) (dat [0, 1/2, 1, 2]) (dat [0, 1/2, 1, 4]) 0 = some (fin (1/4)) ∧
    pchipInterp1 (fin (1/4)) (dat [0, 1/2, 1, 2]) (dat [0, 5/16, 1, 4]) 0 = some (fin (121/1024)) := by
  decide +kernel

/-! ## Examples -/

/-- `exCast` with a bottle added half way between pressures 1 and 3. -/
noncomputable def exFine : Cast (Fl ℝ) :=
  ⟨Arr.ofList [fin 35, fin 36, fin (73/2), fin 37], Arr.ofList [fin 5, fin 4, fin (7/2), fin 3], Arr.ofList [fin 0, fin 1, fin 2, fin 3]⟩

theorem exFine_good : GoodCast exFine 0 4 (fun i => i) (fun i => if i = 0 then 35 else if i = 1 then 36 else if i = 2 then 73/2 else 37)
    (fun i => if i = 0 then 5 else if i = 1 then 4 else if i = 2 then 7/2 else 3) := by
  constructor
  all_goals
    refine ⟨rfl, by omega, le_refl _, fun i hi => by omega, fun h => absurd h (lt_irrefl 4), ?_, ?_, ?_⟩
    · intro i _ hi
      have : i = 0 ∨ i = 1 ∨ i = 2 ∨ i = 3 := by omega
      rcases this with rfl | rfl | rfl | rfl <;> simp [exFine, Arr.ofList]
    · intro i _ hi
      have : i = 0 ∨ i = 1 ∨ i = 2 ∨ i = 3 := by omega
      rcases this with rfl | rfl | rfl | rfl <;> simp [exFine, Arr.ofList]
    · intro i _ _
      push_cast
      linarith

/-- The hypotheses of the theorems above. -/
theorem exRefines : Refines exCast exFine := by
  refine Or.inr ⟨_, _, _, _, _, _, _, _, _, _, exGood, exFine_good, ?_, ?_⟩
  all_goals
    constructor
    · intro i h1 h2
      have : i = 1 ∨ i = 2 ∨ i = 3 := by omega
      rcases this with rfl | rfl | rfl
      · exact ⟨0, by omega, by omega, by norm_num⟩
      · exact ⟨1, by omega, by omega, by norm_num⟩
      · exact ⟨3, by omega, by omega, by norm_num⟩
    · intro j h1 h2
      have : j = 0 ∨ j = 1 ∨ j = 2 ∨ j = 3 := by omega
      rcases this with rfl | rfl | rfl | rfl
      · exact ⟨1, by omega, by omega, by norm_num⟩
      · exact ⟨1, by omega, by omega, by norm_num⟩
      · exact ⟨2, by omega, by omega, by norm_num⟩
      · exact ⟨2, by omega, by omega, by norm_num⟩

example (fuel : ℕ) (tol : Fl ℝ) (eos : Fl ℝ → Fl ℝ → Fl ℝ → Fl ℝ) (p0 : Fl ℝ) :
    neutralTrajectory fuel tol eos .linear p0 [exFine, exCast] = neutralTrajectory fuel tol eos .linear p0 [exCast, exCast] := by
  refine trajectory_refine (.cons exRefines (.cons (Or.inl ⟨0, ?_⟩) .nil)) fuel tol eos p0
  refine ⟨rfl, rfl, rfl, rfl, by rw [zero_add], ?_, ?_, ?_, fun j h1 h2 => by omega⟩ <;> intro i _ <;> rw [zero_add]

end Same
