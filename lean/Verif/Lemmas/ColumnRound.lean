import Verif.Lemmas.Column
import Verif.Props.InterpRound
import Verif.Props.FzeroRound

/-! # Water columns interpolated in rounded arithmetic -/

set_option linter.unusedSectionVars false

namespace Traj
open FloatLike Fzero Interp

variable {α : Type*} [Field α] [LinearOrder α] [IsStrictOrderedRing α] {rnd : α → α}

/-- One variable of a cast held in rounded arithmetic: data `y` at pressures `a` at the sites `k ≤ i < K`; NaN before and
right after. -/
structure ColR (X Y : Arr (Rfl rnd)) (k K : ℕ) (a y : ℕ → α) : Prop where
  size : Y.size = X.size
  two : k + 2 ≤ K
  le : K ≤ X.size
  before : ∀ i, i < k → X.get i = Rfl.qnan ∨ Y.get i = Rfl.qnan
  after : K < X.size → X.get K = Rfl.qnan ∨ Y.get K = Rfl.qnan
  hX : ∀ i, k ≤ i → i < K → X.get i = Rfl.fin (a i)
  hY : ∀ i, k ≤ i → i < K → Y.get i = Rfl.fin (y i)
  inc : ∀ i, k ≤ i → i + 1 < K → a i < a (i + 1)

variable {X Y : Arr (Rfl rnd)} {k K : ℕ} {a y : ℕ → α}

theorem ColR.vr (C : ColR X Y k K a y) : validRange2 X Y = (k, K) ∧ validRange2 Y X = (k, K) := by
  have h2 := C.two
  have hle := C.le
  have hs := C.size
  constructor
  · apply validRange2_eq (by omega) (by omega) hle
    · intro i hi; rcases C.before i hi with h | h <;> rw [h] <;> simp
    · rw [C.hX k (le_refl _) (by omega), C.hY k (le_refl _) (by omega)]; simp
    · intro i h1 h2; rw [C.hX i (by omega) h2, C.hY i (by omega) h2]; simp
    · intro h; rcases C.after h with h | h <;> rw [h] <;> simp
  · apply validRange2_eq (by omega) (by omega) (by omega)
    · intro i hi; rcases C.before i hi with h | h <;> rw [h] <;> simp
    · rw [C.hX k (le_refl _) (by omega), C.hY k (le_refl _) (by omega)]; simp
    · intro i h1 h2; rw [C.hX i (by omega) h2, C.hY i (by omega) h2]; simp
    · intro h; rcases C.after (by omega) with h | h <;> rw [h] <;> simp

theorem ColR.block (C : ColR X Y k K a y) :
    BlockR (X.slice k K) (Y.slice k K) 0 (K - k) (fun i => a (k + i)) (fun i => y (k + i)) := by
  have h2 := C.two
  refine ⟨rfl, ?_, by omega, ?_, ?_, ?_⟩
  · show validRange2 (F := Rfl rnd) (X.slice k K) (Y.slice k K) = _
    apply validRange2_eq (F := Rfl rnd)
    · show 0 < K - k; omega
    · omega
    · exact le_refl _
    · intro i hi; omega
    · show isFinite (X.get (k + 0)) = true ∧ isFinite (Y.get (k + 0)) = true
      rw [C.hX _ (by omega) (by omega), C.hY _ (by omega) (by omega)]; simp
    · intro i h1 h3
      show isNaN (X.get (k + i)) = false ∧ isNaN (Y.get (k + i)) = false
      rw [C.hX _ (by omega) (by omega), C.hY _ (by omega) (by omega)]; simp
    · intro h; exact absurd h (lt_irrefl (K - k))
  · intro i _ h; exact C.hX _ (by omega) (by omega)
  · intro i _ h; exact C.hY _ (by omega) (by omega)
  · intro i _ h; exact C.inc (k + i) (by omega) (by omega)

theorem ColR.padded (C : ColR X Y k K a y) : Padded (X.slice k K) (Y.slice k K) X Y k := by
  have h2 := C.two
  have hle := C.le
  have e : k + (X.slice k K).size = K := by show k + (K - k) = K; omega
  refine ⟨rfl, C.size, by rw [e]; exact hle, fun i _ => rfl, fun i _ => rfl, ?_, ?_⟩
  · intro j hj; rcases C.before j hj with h | h <;> rw [h] <;> simp
  · rw [e]; intro h; rcases C.after h with h | h <;> rw [h] <;> simp

theorem ColR.none (C : ColR X Y k K a y) :
    (∀ i, i < (X.slice k K).size → isFinite ((X.slice k K).get i) = false ∨ isFinite ((Y.slice k K).get i) = false) →
      ∀ i, i < X.size → isFinite (X.get i) = false ∨ isFinite (Y.get i) = false := by
  have h2 := C.two
  intro h
  have := h 0 (by show 0 < K - k; omega)
  rw [show (X.slice k K).get 0 = X.get (k + 0) from rfl, show (Y.slice k K).get 0 = Y.get (k + 0) from rfl,
    C.hX _ (by omega) (by omega), C.hY _ (by omega) (by omega)] at this
  simp at this

theorem ColR.a_le (C : ColR X Y k K a y) : a k ≤ a (K - 1) := by
  have h2 := C.two
  have := Block.mono C.block 0 (K - k - 1) (le_refl _) (by omega) (by omega)
  rw [add_zero, show k + (K - k - 1) = K - 1 by omega] at this
  exact this

theorem finite_not_nanR : ∀ x : Rfl rnd, isFinite x = true → isNaN x = false := by
  intro x
  show Fl.isFinite x = true → Fl.isNaN x = false
  cases (show Fl α from x) <;> simp [Fl.isFinite, Fl.isNaN]

theorem nan_add_orR (x y : Rfl rnd) (h : isNaN x = true ∨ isNaN y = true) : isNaN (x + y) = true := by
  have e : ∀ z : Rfl rnd, isNaN z = true → z = (Fl.nan : Fl α) := fun z hz => (Fl.isNaN_iff (α := α) z).mp hz
  rcases h with h | h
  · rw [e x h]; rfl
  · rw [e y h]
    show Fl.isNaN (Rfl.round rnd (Fl.add x Fl.nan)) = true
    rw [show Fl.add (α := α) x Fl.nan = Fl.nan by cases (show Fl α from x) <;> rfl]; rfl

theorem finite_not_nanA : ∀ x : Fl α, isFinite x = true → isNaN x = false := by intro x; cases x <;> simp

theorem nan_add_orA (x y : Fl α) (h : isNaN x = true ∨ isNaN y = true) : isNaN (x + y) = true := by
  rcases h with h | h
  · rw [(Fl.isNaN_iff x).mp h]; simp
  · rw [(Fl.isNaN_iff y).mp h]; simp

/-- Data without infinities on the slice. -/
theorem ColR.plainR (C : ColR X Y k K a y) : Plain (X.slice k K) (Y.slice k K) := by
  have h2 := C.two
  have hx : ∀ i, i < (X.slice k K).size → (X.slice k K).get i = Rfl.fin (a (k + i)) := fun i hi =>
    C.hX (k + i) (by omega) (by have : i < K - k := hi; omega)
  have hy : ∀ i, i < (X.slice k K).size → (Y.slice k K).get i = Rfl.fin (y (k + i)) := fun i hi =>
    C.hY (k + i) (by omega) (by have : i < K - k := hi; omega)
  refine ⟨?_, ?_, ?_⟩
  · intro i hi; rw [hx i hi]; rfl
  · intro i hi; rw [hy i hi]; rfl
  · intro i hi; rw [hx i hi, hy i hi]; rfl

/-- Bounds for the size of the rounding errors of a column: `M` bounds the data, `V` the change of the data over an interval
when the slope is that of this interval or a neighbour. -/
structure Sized (k K : ℕ) (a y : ℕ → α) (M V : α) : Prop where
  val : ∀ i, k ≤ i → i < K → |y i| ≤ M
  var : ∀ i j, k ≤ i → i + 1 < K → k ≤ j → j + 1 < K → i ≤ j + 1 → j ≤ i + 1 →
    (a (i + 1) - a i) * |(y (j + 1) - y j) / (a (j + 1) - a j)| ≤ V

/-- Everything about the interpolant built in rounded arithmetic from the trimmed data: it exists (no division by zero),
agrees to the last bit with the public interpolation of the untrimmed data, is NaN outside the data, and is close to the
interpolant computed exactly. -/
theorem ColR.curve (R : StdRound rnd) (kind : PPKind) (C : ColR X Y k K a y) :
    ∃ (T : PPC (Rfl rnd)) (g G : α → α), ppcFn kind (X.slice k K) (Y.slice k K) = some T ∧
      (∀ x, a k ≤ x → x ≤ a (K - 1) → ppval1Nonan (Rfl.fin x) (X.slice k K) T 0 = Rfl.fin (g x) ∧
        interpAt kind (Rfl.fin x) X Y = some (Rfl.fin (g x)) ∧
        interpAt kind (Fl.fin x) (exactArr X) (exactArr Y) = some (Fl.fin (G x)) ∧
        ∀ M V, Sized k K a y M V → |g x - G x| ≤ (1200 * V + M) / 2 ^ 53) ∧
      (∀ x, x < a k ∨ a (K - 1) < x → ppval1Nonan (Rfl.fin x) (X.slice k K) T 0 = Rfl.qnan ∧
        interpAt kind (Rfl.fin x) X Y = some Rfl.qnan) := by
  have h2 := C.two
  have hle := C.le
  have B := C.block
  have B' : Block (exactArr (X.slice k K)) (exactArr (Y.slice k K)) 0 (K - k) (fun i => a (k + i)) (fun i => y (k + i)) := B
  have hK : k + (K - k - 1) = K - 1 := by omega
  have padE : Padded (exactArr (X.slice k K)) (exactArr (Y.slice k K)) (exactArr X) (exactArr Y) k :=
    let P := C.padded; ⟨P.1, P.2, P.3, P.4, P.5, P.6, P.7⟩
  have main : ∃ T : PPC (Rfl rnd), ppcFn kind (X.slice k K) (Y.slice k K) = some T ∧ T.size = K - k ∧
      T.lastCol.get = (Y.slice k K).get ∧
      (∀ x, ∃ v V0 : α, a k ≤ x → x ≤ a (K - 1) → ppval1 (Rfl.fin x) (X.slice k K) T 0 = Rfl.fin v ∧
        interpAt kind (Rfl.fin x) X Y = some (Rfl.fin v) ∧
        interpAt kind (Fl.fin x) (exactArr X) (exactArr Y) = some (Fl.fin V0) ∧
        ∀ M V, Sized k K a y M V → |v - V0| ≤ (1200 * V + M) / 2 ^ 53) ∧
      (∀ x, x < a k ∨ a (K - 1) < x → ppval1 (Rfl.fin x) (X.slice k K) T 0 = Rfl.qnan ∧
        interpAt kind (Rfl.fin x) X Y = some Rfl.qnan) := by
    cases kind with
    | linear =>
      refine ⟨linearCoeffs1 (X.slice k K) (Y.slice k K), rfl, rfl, by rw [linearCoeffs1_lastCol], ?_, ?_⟩
      · intro x
        by_cases hx : a k ≤ x ∧ x ≤ a (K - 1)
        · obtain ⟨i, v, i1, i2, i3, i4, i5, i6, i7⟩ := (linear_rounded R B x).1 ⟨hx.1, by rw [hK]; exact hx.2⟩
          refine ⟨v, lineThrough (fun i => a (k + i)) (fun i => y (k + i)) i x, fun _ _ => ⟨i5, ?_, ?_, ?_⟩⟩
          · exact (linear_padding finite_not_nanR C.padded C.none _ _).trans i6
          · refine (linear_padding (F := Fl α) finite_not_nanA padE C.none _ _).trans ?_
            exact (linear_chord B' i1 i2 i3 i4).2.1
          · intro M V hS
            refine i7.trans ?_
            apply div_le_div_of_nonneg_right _ (by positivity)
            have e1 := hS.val (k + i) (by omega) (by omega)
            have e2 := hS.val (k + (i + 1)) (by omega) (by omega)
            have e3 := hS.var (k + i) (k + i) (by omega) (by omega) (by omega) (by omega) (by omega) (by omega)
            have hp : 0 < a (k + i + 1) - a (k + i) := sub_pos.mpr (C.inc _ (by omega) (by omega))
            rw [abs_div, abs_of_pos hp, mul_div_cancel₀ _ hp.ne'] at e3
            have e4 : 0 ≤ |y (k + i + 1) - y (k + i)| := abs_nonneg _
            have e5 : max |y (k + i)| |y (k + (i + 1))| ≤ M := max_le e1 e2
            show 15 * |y (k + i + 1) - y (k + i)| + _ ≤ _
            linarith
        · exact ⟨0, 0, fun h h' => absurd ⟨h, h'⟩ hx⟩
      · intro x hx
        have h := (linear_rounded R B x).2 (by
          rintro ⟨q1, q2⟩
          rw [hK] at q2
          rcases hx with h | h
          · exact absurd (show a k ≤ x from q1) (not_le.mpr h)
          · exact absurd q2 (not_le.mpr h))
        exact ⟨h.1, (linear_padding finite_not_nanR C.padded C.none _ _).trans h.2⟩
    | pchip =>
      obtain ⟨T, T0, hT, hT0, hv⟩ := pchip_rounded R B
      have hT' : pchipCoeffs1Nonan (X.slice k K) (Y.slice k K) = some T := by
        rw [pchipNonan_eq, hT]
        · show 0 < K - k; omega
        · show isFinite (X.get (k + 0)) = true ∧ isFinite (Y.get (k + 0)) = true
          rw [C.hX _ (by omega) (by omega), C.hY _ (by omega) (by omega)]; simp
        · intro i h1 h3
          have : i < K - k := h3
          show isNaN (X.get (k + i)) = false ∧ isNaN (Y.get (k + i)) = false
          rw [C.hX _ (by omega) (by omega), C.hY _ (by omega) (by omega)]; simp
      have hpub : ∀ x, interpAt .pchip x X Y = some (ppval1 x (X.slice k K) T 0) := fun x =>
        (pchip_padding finite_not_nanR nan_add_orR C.padded C.none x 0).trans
          (pchip_onthefly_eq_table (F := Rfl rnd) (X := X.slice k K) (Y := Y.slice k K)
            (fun p q => congrArg (Rfl.round rnd) (flAdd_comm p q)) C.plainR rfl hT x 0)
      have hpubE : ∀ x, interpAt .pchip x (exactArr X) (exactArr Y) = some (ppval1 x (exactArr (X.slice k K)) T0 0) := fun x =>
        (pchip_padding (F := Fl α) finite_not_nanA nan_add_orA padE C.none x 0).trans
          (pchip_onthefly_eq_table (F := Fl α) (X := exactArr (X.slice k K)) (Y := exactArr (Y.slice k K))
            (fun p q => flAdd_comm p q) (by
              refine ⟨?_, ?_, ?_⟩
              · intro i hi; rw [B'.hX i (by omega) hi]; rfl
              · intro i hi; rw [B'.hY i (by omega) hi]; rfl
              · intro i hi; rw [B'.hX i (by omega) hi, B'.hY i (by omega) hi]; rfl) rfl hT0 x 0)
      refine ⟨T, hT', (pchipAux_spec hT).1, (pchipAux_spec hT).2, ?_, ?_⟩
      · intro x
        by_cases hx : a k ≤ x ∧ x ≤ a (K - 1)
        · obtain ⟨i, v, v0, i1, i2, i3, i4, i5, i6, i7⟩ := (hv x).1 ⟨hx.1, by rw [hK]; exact hx.2⟩
          refine ⟨v, v0, fun _ _ => ⟨i5, ?_, ?_, ?_⟩⟩
          · rw [hpub, i5]
          · rw [hpubE, i6]
          · intro M V hS
            have hp : 0 < a (k + i + 1) - a (k + i) := sub_pos.mpr (C.inc _ (by omega) (by omega))
            have := i7 (V / (a (k + i + 1) - a (k + i))) (by
              intro j j1 j2 j3 j4
              rw [le_div_iff₀ hp, mul_comm]
              exact hS.var (k + i) (k + j) (by omega) (by omega) (by omega) (by omega) (by omega) (by omega))
            refine this.trans ?_
            apply div_le_div_of_nonneg_right _ (by positivity)
            have e1 := hS.val (k + i) (by omega) (by omega)
            have e2 := hS.val (k + (i + 1)) (by omega) (by omega)
            show 1200 * ((a (k + i + 1) - a (k + i)) * (V / (a (k + i + 1) - a (k + i)))) + _ ≤ _
            rw [mul_div_cancel₀ _ hp.ne']
            exact add_le_add (le_refl _) (max_le e1 e2)
        · exact ⟨0, 0, fun h h' => absurd ⟨h, h'⟩ hx⟩
      · intro x hx
        have h := (hv x).2 (by
          rintro ⟨q1, q2⟩
          rw [hK] at q2
          rcases hx with h | h
          · exact absurd (show a k ≤ x from q1) (not_le.mpr h)
          · exact absurd q2 (not_le.mpr h))
        exact ⟨h, by rw [hpub, h]⟩
  obtain ⟨T, hT, hsz, hlast, hin, hout⟩ := main
  have hvr : validRange2 (X.slice k K) T.lastCol = (0, K - k) := by
    rw [show ((0, K - k) : ℕ × ℕ) = validRange2 (F := Rfl rnd) (X.slice k K) (Y.slice k K) from (Block.vr B).symm]
    exact validRange2_congr rfl (fun _ _ => rfl) (fun i _ => by rw [hlast])
  have hnn : ∀ x, ppval1Nonan x (X.slice k K) T 0 = ppval1 x (X.slice k K) T 0 := by
    intro x
    have := ppval1Nonan_trim (X := X.slice k K) (C := T) x 0 (by rw [hvr]; show 0 + 2 ≤ K - k; omega)
    rw [hvr] at this
    rw [← this]
    congr 1
    · simp [Arr.slice]
    · cases T; simp only at hsz; subst hsz; simp [PPC.slice]
  choose g G hg using hin
  exact ⟨T, g, G, hT, fun x hx hx' => by rw [hnn]; exact hg x hx hx', fun x hx => by rw [hnn]; exact hout x hx⟩

end Traj
