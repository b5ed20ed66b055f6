import Verif.Props.Perturb
import Verif.Props.Separable
import Verif.Props.Straight

/-! # A potential density or anomaly surface can be recovered from any of its points (C185) -/

set_option linter.unusedSectionVars false

namespace Isopycnal
open FloatLike Fzero Interp Traj VertSolve Same Lib
open Fl hiding nan

variable {eos : Fl ℝ → Fl ℝ → Fl ℝ → Fl ℝ} {e : ℝ → ℝ → ℝ → ℝ} {smin : ℝ} {kind : PPKind} {f : ℝ → ℝ → ℝ → ℝ} {m L tol v : ℝ} {n N : ℕ}
  {casts : ℕ → Cast (Fl ℝ)} {ty : Ans} {ref : RefArg (Fl ℝ)}

/-- **Specification**: the quantity `f` that is constant on surfaces of this kind with this reference. -/
def Constant (e : ℝ → ℝ → ℝ → ℝ) (smin : ℝ) (f : ℝ → ℝ → ℝ → ℝ) : Ans → RefArg (Fl ℝ) → Prop
  | .potential, .float r => ∃ x, r = fin x ∧ f = fun s t _ => e s t x
  | .anomaly, .pair (some a) (some b) => ∃ x y, a = fin x ∧ b = fin y ∧ smin ≤ x ∧ f = fun s t p => e s t p - e x y p
  | _, _ => False

/-- **Specification**: a cast with data between pressures `A` and `B`, short enough for `n` bisections, along which `f` increases with pressure at a rate
between `m` and `L`. -/
structure Strat (kind : PPKind) (f : ℝ → ℝ → ℝ → ℝ) (m L smin tol : ℝ) (n : ℕ) (c : Cast (Fl ℝ)) (A B : ℝ) : Prop where
  good : ∃ k K a s t, GoodCast c k K a s t ∧ (∀ i, k ≤ i → i < K → smin ≤ s i) ∧ A = a k ∧ B = a (K - 1)
  short : 2 * (B - A) / tol ≤ n
  rate : ∀ x y s t s' t', A ≤ x → x ≤ y → y ≤ B → At kind c x s t → At kind c y s' t' →
    m * (y - x) ≤ f s' t' y - f s t x ∧ f s' t' y - f s t x ≤ L * (y - x)

/-- **Specification**: fewer than two bottles with data. -/
def Few (c : Cast (Fl ℝ)) : Prop := (validRange2 c.S c.P).2 ≤ (validRange2 c.S c.P).1 + 1

theorem solved_of_solve (E : EosOn eos e smin) (hV : Constant e smin f ty ref) (htol : 0 < tol) {zf : Arr (Fl ℝ) → PPC (Fl ℝ) → PPC (Fl ℝ) → Fl ℝ → Fl ℝ}
    (hz : zeroOf eos (fin v) ref = some zf) {c : Cast (Fl ℝ)} {A B : ℝ} (H : Strat kind f m L smin tol n c A B) :
    ∃ r, vertsolve1 (n + 13) (fin tol) kind zf c = .ret r ∧ Solved kind c A B (fun s t p => f s t p - v) tol r := by
  obtain ⟨k, K, a, s, t, G, hs, rfl, rfl⟩ := H.good
  unfold Constant at hV
  split at hV
  · obtain ⟨x, rfl, rfl⟩ := hV
    cases hz
    exact potential_spec kind E G hs htol n H.short
  · obtain ⟨x, y, rfl, rfl, h, rfl⟩ := hV
    cases hz
    exact anomaly_spec kind E G hs h htol n H.short
  · exact absurd hV id

theorem At.unique {c : Cast (Fl ℝ)} {x s t s' t' : ℝ} (h : At kind c x s t) (h' : At kind c x s' t') : s' = s ∧ t' = t := by
  have e1 := h.1.symm.trans h'.1
  have e2 := h.2.symm.trans h'.2
  simp only [Option.some.injEq, Fl.fin.injEq] at e1 e2
  exact ⟨e1.symm, e2.symm⟩

theorem pin_at {c : Cast (Fl ℝ)} {A B : ℝ} (H : Strat kind f m L smin tol n c A B) (x : ℝ) :
    (A ≤ x ∧ x ≤ B → ∃ s t, pinST kind c (fin x) = .ok (fin s, fin t) ∧ At kind c x s t ∧ smin ≤ s) ∧
    (¬ (A ≤ x ∧ x ≤ B) → pinST kind c (fin x) = .ok (Fl.nan, Fl.nan)) := by
  obtain ⟨k, K, a, s, t, G, hs, rfl, rfl⟩ := H.good
  obtain ⟨h1, h2⟩ := pinST_spec kind G
  refine ⟨fun h => ?_, fun h => h2 x ?_⟩
  · obtain ⟨s0, t0, e1, e2, e3⟩ := h1 x h.1 h.2
    obtain ⟨Sp, Tp, gS, gT, -, -, h3, -⟩ := G.curves kind hs
    refine ⟨s0, t0, e1, ⟨e2, e3⟩, ?_⟩
    obtain ⟨u, hu⟩ : ∃ u, ∀ i, k ≤ i → i < K → smin ≤ s i ∧ s i ≤ u := by
      refine ⟨∑ i ∈ Finset.range K, |s i|, fun i h1 h2 => ⟨hs i h1 h2, ?_⟩⟩
      exact (le_abs_self _).trans (Finset.single_le_sum (f := fun i => |s i|) (fun j _ => abs_nonneg _) (Finset.mem_range.2 h2))
    exact (interp_range kind G.S hu h.1 h.2 e2).1
  · rw [not_and_or, not_le, not_le] at h
    exact h

/-- On every cast with data where a returned surface exists, it is next to the place where the quantity has the returned isovalue. -/
theorem isopycnal_at (E : EosOn eos e smin) (hV : Constant e smin f ty ref) (htol : 0 < tol) {ref0 : RefArg (Fl ℝ)} {isoval : Option (Fl ℝ)} {pc : Option ℤ}
    {pp : PinP (Fl ℝ)} {stp : ℕ → Fl ℝ × Fl ℝ × Fl ℝ}
    (h : isopycnal (n + 13) (fin tol) kind eos ty ref0 isoval pc pp casts N = .ok (stp, ref, fin v)) (hio : isoval = none ∨ pp = .none)
    {j : ℕ} (hj : j < N) {A B : ℝ} (H : Strat kind f m L smin tol n (casts j) A B) {s t p : ℝ} (hs : stp j = (fin s, fin t, fin p)) :
    Solved kind (casts j) A B (fun s t p => f s t p - v) tol (stp j) := by
  by_cases hpin : ∀ m, pp ≠ .none → pc = some m → Lib.npIdx N m ≠ some j
  · obtain ⟨zf, z1, z2⟩ := isopycnal_zero h
    obtain ⟨r, r1, r2⟩ := solved_of_solve E hV htol z1 H
    have := z2 j hj hpin
    rw [r1] at this
    cases this
    exact r2
  · push Not at hpin
    obtain ⟨q, hp, rfl, hq⟩ := hpin
    have hio : isoval = none := hio.resolve_right hp
    subst hio
    have hx : ∃ x, pp = .float x := by
      cases pp with
      | none => exact absurd rfl hp
      | float x => exact ⟨x, rfl⟩
      | other =>
        exfalso
        unfold isopycnal at h
        obtain ⟨_, e1, _⟩ := bind_ok h
        unfold checkRef at e1
        simp only at e1
        split_ifs at e1
    obtain ⟨x, rfl⟩ := hx
    obtain ⟨j', ⟨s1, t1⟩, e1, e2, e3⟩ := isopycnal_pinned h
    obtain ⟨j'', s', t', f1, f2, f3⟩ := isopycnal_on_isovalue h
    rw [hq] at e1 f1
    cases e1; cases f1
    rw [hs] at e3 f2
    cases f2
    cases e3
    have hr : A ≤ p ∧ p ≤ B := by
      by_contra hn
      rw [(pin_at H p).2 hn] at e2
      cases e2
    obtain ⟨s'', t'', g1, g2, g3⟩ := (pin_at H p).1 hr
    rw [g1] at e2
    cases e2
    have hval : f s t p = v := by
      rcases f3 with ⟨rp, rfl, -, -, hv⟩ | ⟨a, b, rfl, -, -, hv⟩
      · cases ty
        · obtain ⟨x, rfl, rfl⟩ := hV
          rw [E.val _ _ _ g3] at hv
          exact (Fl.fin.inj hv).symm
        · exact absurd hV id
      · cases ty
        · exact absurd hV id
        · obtain ⟨x, y, rfl, rfl, hx, rfl⟩ := hV
          rw [E.val _ _ _ g3, E.val _ _ _ hx] at hv
          exact (Fl.fin.inj hv).symm
    obtain ⟨k, K, a, σ, τ, G, hσ, rfl, rfl⟩ := H.good
    obtain ⟨_, gS, -, cS, -⟩ := G.S.curve kind
    obtain ⟨_, gT, -, cT, -⟩ := G.T.curve kind
    refine ⟨gS, gT, fun x h1 h2 => ⟨(cS x h1 h2).2, (cT x h1 h2).2⟩, Or.inr ⟨p, p, ?_, hr.1, hr.2, hr.1, hr.2, ?_, ?_⟩⟩
    · obtain ⟨u1, u2⟩ := At.unique g2 ⟨(cS p hr.1 hr.2).2, (cT p hr.1 hr.2).2⟩
      rw [hs, u1, u2]
    · obtain ⟨u1, u2⟩ := At.unique g2 ⟨(cS p hr.1 hr.2).2, (cT p hr.1 hr.2).2⟩
      show f _ _ _ - v = 0
      rw [u1, u2, hval, sub_self]
    · rw [sub_self, abs_zero]; positivity

/-- pinned at a pressure within the data the call returns, with the value there as isovalue -/
theorem isopycnal_pin_returns (E : EosOn eos e smin) (hV : Constant e smin f ty ref) (htol : 0 < tol)
    (hc : ∀ j < N, Few (casts j) ∨ ∃ A B, Strat kind f m L smin tol n (casts j) A B) {j0 : ℕ} (hj : j0 < N) {A B x s t : ℝ}
    (H : Strat kind f m L smin tol n (casts j0) A B) (hx : A ≤ x ∧ x ≤ B) (hat : At kind (casts j0) x s t) :
    ∃ stp, isopycnal (n + 13) (fin tol) kind eos ty ref none (some (j0 : ℤ)) (.float (fin x)) casts N = .ok (stp, ref, fin (f s t x)) ∧
      stp j0 = (fin s, fin t, fin x) := by
  obtain ⟨s', t', g1, g2, g3⟩ := (pin_at H x).1 hx
  obtain ⟨rfl, rfl⟩ := At.unique hat g2
  have hidx : Lib.npIdx N (j0 : ℤ) = some j0 := by
    unfold Lib.npIdx
    rw [if_pos (Int.natCast_nonneg _), if_pos (Nat.cast_lt.2 hj), Int.toNat_natCast]
  have hchk : checkRef ty ref none (some (j0 : ℤ)) (.float (fin x)) N = .ok () := by
    unfold Constant at hV
    split at hV <;> first | exact absurd hV id | (unfold checkRef; simp [hidx])
  have hch : choose kind eos ty ref none (some (casts j0, fin x)) = .ok (ref, fin (f s' t' x)) := by
    unfold choose
    dsimp only
    rw [g1]
    unfold Constant at hV
    split at hV
    · obtain ⟨r, rfl, rfl⟩ := hV
      show Res.ok _ = _
      rw [E.val _ _ _ g3]
    · obtain ⟨a, b, rfl, rfl, ha, rfl⟩ := hV
      show Res.ok _ = _
      rw [E.val _ _ _ g3, E.val _ _ _ ha]
      rfl
    · exact absurd hV id
  have hsv : ∃ stp, solve (n + 13) (fin tol) kind eos ty ref (fin (f s' t' x)) casts N = .ok stp := by
    have key : ∀ zf, zeroOf eos (fin (f s' t' x)) ref = some zf → ∃ stp, vertsolve (n + 13) (fin tol) kind zf casts N = .ret stp := by
      intro zf hz
      have h1 : ∀ j, ∃ r, j < N → vertsolve1 (n + 13) (fin tol) kind zf (casts j) = .ret r := by
        intro j
        by_cases hj : j < N
        · rcases hc j hj with h | ⟨A, B, h⟩
          · exact ⟨_, fun _ => vertsolve1_few _ _ _ _ _ h⟩
          · obtain ⟨r, r1, -⟩ := solved_of_solve E hV htol hz h
            exact ⟨r, fun _ => r1⟩
        · exact ⟨(Fl.nan, Fl.nan, Fl.nan), fun h => absurd h hj⟩
      choose r hr using h1
      refine ⟨fun j => if j < N then r j else (Fl.nan, Fl.nan, Fl.nan), (vertsolve_pointwise ..).2 ⟨fun j hj => ?_, fun j hj => if_neg (by omega)⟩⟩
      rw [hr j hj, if_pos hj]
    unfold Constant at hV
    split at hV
    · obtain ⟨stp, h⟩ := key _ rfl
      exact ⟨stp, by unfold solve; dsimp only; rw [h]; rfl⟩
    · obtain ⟨stp, h⟩ := key _ rfl
      exact ⟨stp, by unfold solve; dsimp only; rw [h]; rfl⟩
    · exact absurd hV id
  obtain ⟨stp, hsv⟩ := hsv
  refine ⟨Function.update stp j0 (fin s', fin t', fin x), ?_, Function.update_self ..⟩
  have hb : (some (j0 : ℤ)).bind (Lib.npIdx N) = some j0 := hidx
  have hpo : pinOf casts (some j0) (.float (fin x)) = some (casts j0, fin x) := rfl
  unfold isopycnal
  rw [hchk]
  simp only [Res.bind, hb, hpo, hch, hsv, g1]

/-- **C185.** A surface that was returned, whichever way it was specified, is recovered from the point where it meets any one of the casts: the call with the same
reference, pinned there, returns a surface that goes through that point exactly, has the same isovalue up to `L` times the accuracy of the root finder, and
is on every cast at the same pressure up to the accuracy of the root finder times `L / m` and twice that accuracy; it exists on every cast where the first is as far as this from both ends of the data. -/
theorem isopycnal_repin (E : EosOn eos e smin) (hV : Constant e smin f ty ref) (htol : 0 < tol) (hm : 0 < m)
    (hc : ∀ j < N, Few (casts j) ∨ ∃ A B, Strat kind f m L smin tol n (casts j) A B) {ref0 : RefArg (Fl ℝ)} {isoval : Option (Fl ℝ)} {pc : Option ℤ}
    {pp : PinP (Fl ℝ)} {stp : ℕ → Fl ℝ × Fl ℝ × Fl ℝ}
    (h : isopycnal (n + 13) (fin tol) kind eos ty ref0 isoval pc pp casts N = .ok (stp, ref, fin v)) (hio : isoval = none ∨ pp = .none)
    {j0 : ℕ} (hj0 : j0 < N) {A0 B0 : ℝ} (H0 : Strat kind f m L smin tol n (casts j0) A0 B0) {s0 t0 p0 : ℝ} (h0 : stp j0 = (fin s0, fin t0, fin p0)) :
    ∃ stp' v', isopycnal (n + 13) (fin tol) kind eos ty ref none (some (j0 : ℤ)) (.float (fin p0)) casts N = .ok (stp', ref, fin v') ∧
      stp' j0 = stp j0 ∧ |v' - v| ≤ L * acc tol p0 ∧
      ∀ j < N, ∀ A B, Strat kind f m L smin tol n (casts j) A B → ∀ s t p, stp j = (fin s, fin t, fin p) →
        (∀ s' t' p', stp' j = (fin s', fin t', fin p') → |p' - p| ≤ L * acc tol p0 / m + acc tol p + acc tol p') ∧
        (A + L * acc tol p0 / m + acc tol p ≤ p → p + L * acc tol p0 / m + acc tol p ≤ B → ∃ s' t' p', stp' j = (fin s', fin t', fin p')) := by
  have S0 := isopycnal_at E hV htol h hio hj0 H0 h0
  obtain ⟨gS, gT, hi, S0⟩ := S0
  rcases S0 with ⟨hn, -⟩ | ⟨p, z, hp, a1, a2, a3, a4, a5, a6⟩
  · rw [h0] at hn; cases hn
  rw [h0] at hp
  cases hp
  obtain ⟨stp', r1, r2⟩ := isopycnal_pin_returns E hV htol hc hj0 H0 ⟨a1, a2⟩ (hi p0 a1 a2)
  have hacc : 0 ≤ acc tol p0 := by unfold acc; positivity
  have hLn : 0 ≤ L := by
    obtain ⟨k, K, a, s, t, G, -, e1, e2⟩ := H0.good
    have h2 := G.S.two
    have hlt : A0 < B0 := by rw [e1, e2]; exact inc_lt G.S.inc k (K - 1) le_rfl (by omega) (by omega)
    have := H0.rate A0 B0 _ _ _ _ le_rfl hlt.le le_rfl (hi A0 le_rfl hlt.le) (hi B0 hlt.le le_rfl)
    by_contra hneg
    rw [not_le] at hneg
    nlinarith
  have hv : |f (gS p0) (gT p0) p0 - v| ≤ L * acc tol p0 := by
    have h6 : |z - p0| ≤ acc tol p0 := a6
    have hz : f (gS z) (gT z) z = v := by linarith [a5]
    rw [← hz]
    refine le_trans ?_ (mul_le_mul_of_nonneg_left h6 hLn)
    rcases le_total z p0 with hz | hz
    · have := H0.rate z p0 _ _ _ _ a3 hz a2 (hi z a3 a4) (hi p0 a1 a2)
      have h1 : 0 ≤ m * (p0 - z) := mul_nonneg hm.le (by linarith)
      rw [abs_of_nonneg (by linarith), abs_of_nonpos (by linarith)]
      linarith
    · have := H0.rate p0 z _ _ _ _ a1 hz a4 (hi p0 a1 a2) (hi z a3 a4)
      have h1 : 0 ≤ m * (z - p0) := mul_nonneg hm.le (by linarith)
      rw [abs_of_nonpos (by linarith), abs_of_nonneg (by linarith)]
      linarith
  refine ⟨stp', _, r1, by rw [r2, h0], hv, ?_⟩
  intro j hj A B H s t p hs
  have S1 := isopycnal_at E hV htol h hio hj H hs
  have hmono : (0 + |f (gS p0) (gT p0) p0 - v|) / m ≤ L * acc tol p0 / m := by
    rw [zero_add]; exact div_le_div_of_nonneg_right hv hm.le
  have hst : ∀ x y s t s' t', A ≤ x → x ≤ y → y ≤ B → At kind (casts j) x s t → At kind (casts j) y s' t' → m * (y - x) ≤ f s' t' y - f s t x :=
    fun x y s t s' t' h1 h2 h3 h4 h5 => (H.rate x y s t s' t' h1 h2 h3 h4 h5).1
  have hcl : ∀ x s t s' t', A ≤ x → x ≤ B → At kind (casts j) x s t → At kind (casts j) x s' t' → |f s' t' x - f s t x| ≤ 0 := by
    intro x s t s' t' _ _ h1 h2
    obtain ⟨u1, u2⟩ := At.unique h1 h2
    rw [u1, u2, sub_self, abs_zero]
  by_cases hjj : j = j0
  · subst hjj
    refine ⟨fun s' t' p' h' => ?_, fun _ _ => ⟨_, _, _, r2⟩⟩
    rw [r2, ← h0, hs] at h'
    cases h'
    rw [sub_self, abs_zero]
    unfold acc
    positivity
  · obtain ⟨zf, z1, z2⟩ := isopycnal_zero r1
    obtain ⟨r, q1, q2⟩ := solved_of_solve E hV htol z1 H
    have e1 := z2 j hj (by
      rintro i - hi hi'
      cases hi
      unfold Lib.npIdx at hi'
      rw [if_pos (Int.natCast_nonneg _), if_pos (Nat.cast_lt.2 hj0), Int.toNat_natCast] at hi'
      exact hjj (Option.some.inj hi').symm)
    rw [q1] at e1
    cases e1
    obtain ⟨w1, w2⟩ := Solved.perturbed hm hst hcl S1 q2 (p := p) (by rw [hs])
    refine ⟨fun s' t' p' h' => ?_, fun hA hB => ?_⟩
    · have := w1 p' (by rw [h'])
      linarith
    · obtain ⟨p', hp'⟩ := w2 (by linarith) (by linarith)
      obtain ⟨_, _, -, q3⟩ := q2
      rcases q3 with ⟨hn, -⟩ | ⟨_, _, hq, -⟩
      · rw [hn] at hp'; cases hp'
      · exact ⟨_, _, _, hq⟩

/-- the indices of the pinning cast, if one is given -/
def PinAt (coord : String → Option (List ℚ)) (hs : List ℕ) (pin : Pin) : Option (List ℕ) → Prop
  | none => pin = .none
  | some m => ∃ pc l, pin = .cast pc ∧ Lib.processPinCast coord pc = .ok l ∧ Denotes hs l m

/-- A call with arrays is the calculation on the list of casts. -/
theorem isoSurf_run {F : Type*} [FloatLike F] {d : Lib.Dim} {dims : Option (List String)} {coord : String → Option (List ℚ)} {S T : Lib.Nd F} {P : Lib.PArg F} {v : ℕ}
    {pr : List ℕ → ℕ → F} (A : Lib.Args d dims S T P v pr) {diags edges : Bool} (hd : diags = true → edges = true) : ∃ casts : ℕ → Cast F,
      (∀ m, Lib.Valid (S.shape.eraseIdx v) m → casts (Lib.ravel (S.shape.eraseIdx v) m) = Lib.castAt S T pr v m) ∧
      ∀ (fuel : ℕ) (tol : F) (kind : PPKind) (eos : F → F → F → F) (ty : Ans) (ref : RefArg F) (isoval : Option F) (pin : Pin) (mo : Option (List ℕ)) (pinP : PinP F),
        PinAt coord (S.shape.eraseIdx v) pin mo →
        isoSurf fuel tol kind eos ty d diags edges dims coord S T P ref isoval pin pinP =
          (isopycnal fuel tol kind eos ty ref isoval (mo.map fun m => (Lib.ravel (S.shape.eraseIdx v) m : ℤ)) pinP casts (S.shape.eraseIdx v).prod).bind
            fun r => .ok (S.shape.eraseIdx v, fun m => reshapeGet (S.shape.eraseIdx v) r.1 m, r.2.1, r.2.2) := by
  obtain ⟨STP, e⟩ := Omega.args_casts A
  obtain ⟨a1, a2⟩ := A.casts e
  have hh : STP.1.shape.dropLast = S.shape.eraseIdx v := by rw [a1, List.dropLast_concat]
  have hde : (diags && !edges) = false := by
    cases diags
    · rfl
    · rw [hd rfl]; rfl
  refine ⟨_, a2, ?_⟩
  intro fuel tol kind eos ty ref isoval pin mo pinP hp
  cases mo with
  | none =>
    have hp : pin = .none := hp
    subst hp
    unfold isoSurf
    rw [e]
    simp only [select, ofLib, Res.bind, hh, hde, Bool.false_eq_true, if_false, Option.map_none]
  | some m0 =>
    obtain ⟨pc, l, rfl, hpc, hl⟩ := hp
    have hsel : select coord (.cast pc) = .ok fun hs nk => some (selTuple hs nk l) := by unfold select; dsimp only; rw [hpc]
    have hone : ∀ nk, selTuple (S.shape.eraseIdx v) nk l = .one (Lib.ravel (S.shape.eraseIdx v) m0) := by
      intro nk
      unfold selTuple
      rw [if_pos hl.1, tupleIdx_of_denotes hl]
    unfold isoSurf
    rw [e, hsel]
    simp only [ofLib, Res.bind, hh, hone, hde, Bool.false_eq_true, if_false, Option.map_some]

/-- **C185.** The same for calls of `potential_surf` and `anomaly_surf` with arrays. -/
theorem isoSurf_repin (E : EosOn eos e smin) (hV : Constant e smin f ty ref) (htol : 0 < tol) (hm : 0 < m) {d : Lib.Dim} {dims : Option (List String)}
    {coord : String → Option (List ℚ)} {S T : Lib.Nd (Fl ℝ)} {P : Lib.PArg (Fl ℝ)} {vd : ℕ} {pr : List ℕ → ℕ → Fl ℝ} (Ar : Lib.Args d dims S T P vd pr)
    {diags edges : Bool} (hd : diags = true → edges = true)
    (hc : ∀ i, Lib.Valid (S.shape.eraseIdx vd) i → Few (Lib.castAt S T pr vd i) ∨ ∃ A B, Strat kind f m L smin tol n (Lib.castAt S T pr vd i) A B)
    {ref0 : RefArg (Fl ℝ)} {isoval : Option (Fl ℝ)} {pin : Pin} {mo : Option (List ℕ)} (hpin : PinAt coord (S.shape.eraseIdx vd) pin mo) {pp : PinP (Fl ℝ)}
    {hs : List ℕ} {out : List ℕ → Fl ℝ × Fl ℝ × Fl ℝ}
    (h : isoSurf (n + 13) (fin tol) kind eos ty d diags edges dims coord S T P ref0 isoval pin pp = .ok (hs, out, ref, fin v)) (hio : isoval = none ∨ pp = .none)
    {pc : Lib.PinCast} {l : List ℤ} {i0 : List ℕ} (hpc : Lib.processPinCast coord pc = .ok l) (hl : Denotes hs l i0)
    {A0 B0 : ℝ} (H0 : Strat kind f m L smin tol n (Lib.castAt S T pr vd i0) A0 B0) {s0 t0 p0 : ℝ} (h0 : out i0 = (fin s0, fin t0, fin p0)) :
    ∃ out' v', isoSurf (n + 13) (fin tol) kind eos ty d diags edges dims coord S T P ref none (.cast pc) (.float (fin p0)) = .ok (hs, out', ref, fin v') ∧
      out' i0 = out i0 ∧ |v' - v| ≤ L * acc tol p0 ∧
      ∀ i, Lib.Valid hs i → ∀ A B, Strat kind f m L smin tol n (Lib.castAt S T pr vd i) A B → ∀ s t p, out i = (fin s, fin t, fin p) →
        (∀ s' t' p', out' i = (fin s', fin t', fin p') → |p' - p| ≤ L * acc tol p0 / m + acc tol p + acc tol p') ∧
        (A + L * acc tol p0 / m + acc tol p ≤ p → p + L * acc tol p0 / m + acc tol p ≤ B → ∃ s' t' p', out' i = (fin s', fin t', fin p')) := by
  obtain ⟨casts, c1, c2⟩ := isoSurf_run (coord := coord) Ar hd
  rw [c2 _ _ _ _ _ _ _ _ mo _ hpin] at h
  obtain ⟨⟨stp, r', v'⟩, h1, h2⟩ := bind_ok h
  cases h2
  have hget : ∀ (g : ℕ → Fl ℝ × Fl ℝ × Fl ℝ) i, Lib.Valid (S.shape.eraseIdx vd) i → reshapeGet (S.shape.eraseIdx vd) g i = g (Lib.ravel (S.shape.eraseIdx vd) i) := by
    intro g i hi
    rw [reshapeGet, Lib.foldl_ravel hi, Nat.zero_mul, Nat.zero_add]
  dsimp only at h0
  rw [hget _ _ hl.2.1] at h0
  have hj := Lib.ravel_lt hl.2.1
  obtain ⟨stp', w, e1, e2, e3, e4⟩ := isopycnal_repin E hV htol hm (casts := casts) (fun j hj => by
    obtain ⟨u1, u2⟩ := Lib.valid_unravel hj
    have := hc _ u1
    rw [← c1 _ u1, u2] at this
    exact this) h1 hio hj (by rw [c1 _ hl.2.1]; exact H0) h0
  refine ⟨fun i => reshapeGet (S.shape.eraseIdx vd) stp' i, w, ?_, ?_, e3, ?_⟩
  · rw [c2 _ _ _ _ _ _ _ _ (some i0) _ ⟨pc, l, rfl, hpc, hl⟩]
    rw [Option.map_some, e1]
    rfl
  · dsimp only
    rw [hget _ _ hl.2.1, hget _ _ hl.2.1]; exact e2
  · intro i hi A B H s t p hp
    dsimp only at hp ⊢
    rw [hget _ _ hi] at hp
    have := e4 _ (Lib.ravel_lt hi) A B (by rw [c1 _ hi]; exact H) s t p hp
    rw [hget _ _ hi]
    exact this

end Isopycnal

/-! ## Examples -/

namespace Isopycnal
open FloatLike Fzero Interp Traj VertSolve Same Lib
open Fl hiding nan

/-- the columns of `Straight.lean`, cast `j` with `j + 2` bottles -/
noncomputable def rpCasts (j : ℕ) : Cast (Fl ℝ) := castAt (lnS (j + 2)) (lnT (j + 2)) (fun _ k => fin (lnP (j + 2) k)) 0 [0]

theorem rp_strat (kind : PPKind) (j : ℕ) : Strat kind (fun s t _ => s - t) 3 3 0 1 12 (rpCasts j) 0 6 ∧
    ∀ x, 0 ≤ x → x ≤ 6 → At kind (rpCasts j) x (x + 35) (-2 * x + 5) := by
  have hon : OnLines 0 6 ![1, 35, -2, 5] (rpCasts j) := ln_lines (by omega)
  obtain ⟨k, K, a, h0, h1, G⟩ := hon
  have hAt : ∀ x, 0 ≤ x → x ≤ 6 → At kind (rpCasts j) x (x + 35) (-2 * x + 5) := by
    intro x hx hx'
    have e1 := line_interp G.S (m := 1) (b := 35) (fun i _ _ => rfl) kind (z := x) (by rw [h0]; exact hx) (by rw [h1]; exact hx')
    have e2 := line_interp G.T (m := -2) (b := 5) (fun i _ _ => rfl) kind (z := x) (by rw [h0]; exact hx) (by rw [h1]; exact hx')
    rw [one_mul] at e1
    exact ⟨e1, e2⟩
  refine ⟨⟨⟨k, K, a, _, _, G, ?_, h0.symm, h1.symm⟩, by norm_num, ?_⟩, hAt⟩
  · intro i hi hi'
    have : 0 ≤ a i := by rw [← h0]; exact inc_le G.S.inc k i le_rfl hi hi'
    show (0 : ℝ) ≤ 1 * a i + 35
    linarith
  · intro x y s t s' t' hx hxy hy e1 e2
    obtain ⟨rfl, rfl⟩ := At.unique (hAt x hx (hxy.trans hy)) e1
    obtain ⟨rfl, rfl⟩ := At.unique (hAt y (hx.trans hxy) hy) e2
    constructor <;> linarith

/-- The surface through pressure 2 of the first of seven casts meets them all; from the point where it meets the last one it is recovered. -/
example (kind : PPKind) : ∃ stp s0 t0 p0 stp' v', isopycnal 25 (fin 1) kind (fun s t _ => s - t) .potential (.float (fin 0)) none (some 0) (.float (fin 2)) rpCasts 7 =
      .ok (stp, .float (fin 0), fin 36) ∧ stp 6 = (fin s0, fin t0, fin p0) ∧
    isopycnal 25 (fin 1) kind (fun s t _ => s - t) .potential (.float (fin 0)) none (some 6) (.float (fin p0)) rpCasts 7 = .ok (stp', .float (fin 0), fin v') ∧
    stp' 6 = stp 6 ∧ |v' - 36| ≤ 3 * acc 1 p0 ∧ ∀ j < 7, ∀ s t p s' t' p', stp j = (fin s, fin t, fin p) → stp' j = (fin s', fin t', fin p') →
      |p' - p| ≤ 3 * acc 1 p0 / 3 + acc 1 p + acc 1 p' := by
  have hV : Constant (fun s t _ => s - t) 0 (fun s t _ => s - t) .potential (.float (fin 0)) := ⟨0, rfl, rfl⟩
  have hc : ∀ j < 7, Few (rpCasts j) ∨ ∃ A B, Strat kind (fun s t _ => s - t) 3 3 0 1 12 (rpCasts j) A B := fun j _ => Or.inr ⟨0, 6, (rp_strat kind j).1⟩
  obtain ⟨stp, h1, h2⟩ := isopycnal_pin_returns exEos hV one_pos hc (j0 := 0) (by omega) (rp_strat kind 0).1 (x := 2) ⟨by norm_num, by norm_num⟩
    ((rp_strat kind 0).2 2 (by norm_num) (by norm_num))
  rw [show (2 + 35 - (-2 * 2 + 5) : ℝ) = 36 by norm_num] at h1
  obtain ⟨zf, z1, z2⟩ := isopycnal_zero h1
  obtain ⟨r, r1, r2⟩ := solved_of_solve exEos hV one_pos z1 (rp_strat kind 6).1
  have e1 := z2 6 (by omega) (by rintro i - hi; cases hi; decide)
  rw [r1] at e1
  cases e1
  obtain ⟨gS, gT, hi, hr⟩ := r2
  rcases hr with ⟨-, hpos⟩ | ⟨p0, -, h6, -⟩
  · exfalso
    obtain ⟨u1, u2⟩ := At.unique ((rp_strat kind 6).2 0 le_rfl (by norm_num)) (hi 0 le_rfl (by norm_num))
    obtain ⟨u3, u4⟩ := At.unique ((rp_strat kind 6).2 6 (by norm_num) le_rfl) (hi 6 (by norm_num) le_rfl)
    rw [u1, u2, u3, u4] at hpos
    norm_num at hpos
  · obtain ⟨stp', v', k1, k2, k3, k4⟩ := isopycnal_repin exEos hV one_pos (by norm_num) hc h1 (Or.inl rfl) (by omega) (rp_strat kind 6).1 h6
    exact ⟨stp, _, _, p0, stp', v', h1, h6, k1, k2, k3, fun j hj s t p s' t' p' a1 a2 => (k4 j hj 0 6 (rp_strat kind j).1 s t p a1).1 s' t' p' a2⟩

end Isopycnal
