import Verif.Props.BfsPerim
import Verif.Props.Isopycnal

/-!
# Wetting at the perimeter in exact arithmetic: the links are neutral (C29)
-/

namespace Bfs
open FloatLike Traj Interp VertSolve
open Fl hiding nan

set_option linter.unusedSectionVars false

section generic
variable {F : Type*} [FloatLike F]

/-- **C29.** `_ntp_bottle_to_cast_ppc` finds the pressure that `_ntp_bottle_to_cast` finds, on casts with two data. -/
theorem ntpP_eq (fuel : ℕ) (tol : F) (eos : F → F → F → F) (kind : PPKind) (c : ℕ → Cast F) (pml : ℕ → F) (b : F × F × F) (n : ℕ)
    (h : TwoData (c n)) :
    (Ocean.ofCasts fuel tol eos kind c pml).ntpP b n = ((Ocean.ofCasts fuel tol eos kind c pml).ntp b n).2.2 := by
  have hd := (ofCasts_data fuel tol eos kind c pml n).2 h
  simp only [Ocean.ofCasts, decide_eq_true_iff] at hd
  simp only [Ocean.ofCasts, ntpBottleToCast, ntpCast]
  rw [if_pos hd]
  split
  · rename_i Sp Tp h1 h2
    simp only [h1, h2]
    generalize ntpPpc fuel tol eos b.1 b.2.1 b.2.2 _ Sp Tp = o
    cases o <;> simp only [Fzero.Outcome.bind, valueOr]
    split_ifs <;> rfl
  · rename_i h1
    split
    · rename_i Sp Tp h2 h3; exact absurd h3 (h1 _ _ h2)
    · rfl

end generic

variable {eos : Fl ℝ → Fl ℝ → Fl ℝ → Fl ℝ} {e : ℝ → ℝ → ℝ → ℝ} {smin tol : ℝ} {f : ℕ} {kind : PPKind}
  {c : ℕ → Cast (Fl ℝ)} {pml : ℕ → Fl ℝ}

/-- Salinity and temperature at a pressure of a good cast. -/
theorem ofCasts_st {v k K : ℕ} {a s t : ℕ → ℝ} (G : GoodCast (c v) k K a s t) (hs : ∀ i, k ≤ i → i < K → smin ≤ s i) {p : ℝ}
    (h1 : a k ≤ p) (h2 : p ≤ a (K - 1)) :
    ∃ s' t', (Ocean.ofCasts f (fin tol) eos kind c pml).st v (fin p) = (fin s', fin t') ∧ smin ≤ s' ∧
      interpAt kind (fin p) (c v).P (c v).S = some (fin s') ∧ interpAt kind (fin p) (c v).P (c v).T = some (fin t') := by
  have htwo := G.S.two
  obtain ⟨Sp, Tp, gS, gT, h3, h4, h5, h6, _, _⟩ := G.curves kind hs
  have hvr : validRange2 ((c v).P.slice k K) Sp.lastCol = (0, ((c v).P.slice k K).size) := G.S.block.vr_table (Isopycnal.lastCol_of_ppcFn h3)
  obtain ⟨i1, i2, i3, i4⟩ := h5 p h1 h2
  refine ⟨gS p, gT p, ?_, i4, i2, i3⟩
  simp only [Ocean.ofCasts, G.S.vr.2, h3, h4]
  rw [Isopycnal.ppval1Two_full _ _ (by show 2 ≤ K - k; omega) hvr, i1]

/-- Specification of a neutral link from the point `b` to the pressure `x` of the cast `c`: the bottle at some point `z` of the cast within the
tolerance of `x` has the same density as `b` at the middle pressure. -/
def LinkTo (kind : PPKind) (e : ℝ → ℝ → ℝ → ℝ) (tol : ℝ) (b : Fl ℝ × Fl ℝ × Fl ℝ) (c : Cast (Fl ℝ)) (x : ℝ) : Prop :=
  ∃ sB tB pB z sz tz, b = (fin sB, fin tB, fin pB) ∧ interpAt kind (fin z) c.P c.S = some (fin sz) ∧
    interpAt kind (fin z) c.P c.T = some (fin tz) ∧ e sB tB ((pB + z) / 2) = e sz tz ((pB + z) / 2) ∧
    |z - x| ≤ 2 * (2 * (1 / 2 ^ 52) * |x| + tol)

theorem mean_between {g : ℕ → ℝ} {A B : ℝ} {ns : List ℕ} (h : ns ≠ []) (hg : ∀ n ∈ ns, A ≤ g n ∧ g n ≤ B) :
    A ≤ (ns.map g).sum / ns.length ∧ (ns.map g).sum / ns.length ≤ B := by
  have hlen : (0 : ℝ) < ns.length := by exact_mod_cast List.length_pos_iff.2 h
  rw [le_div_iff₀ hlen, div_le_iff₀ hlen]
  clear h hlen
  induction ns with
  | nil => simp
  | cons n ns ih =>
    have h1 := hg n (by simp)
    have h2 := ih (fun m hm => hg m (by simp [hm]))
    simp only [List.map_cons, List.sum_cons, List.length_cons, Nat.cast_add, Nat.cast_one]
    constructor <;> nlinarith [h2.1, h2.2]

/-- **C29** over the reals, with the modelled `_ntp_bottle_to_cast_ppc`: a cast wetted at the perimeter holds the interpolated salinity and
temperature at the mean of the pressures where neutral links from adjacent casts, wet at the start or wetted before, reach it. -/
theorem perim_neutral (E : EosOn eos e smin) (htol : 0 < tol) {G : Csr} {N root nrep : ℕ} {stp stp' : ℕ → Fl ℝ × Fl ℝ × Fl ℝ}
    {newly : ℕ} {W : List ℕ} (S : PerimSpec G (Ocean.ofCasts (f + 13) (fin tol) eos kind c pml) N root nrep stp stp' newly W)
    (hstp : ∀ n, Reach G (wet stp) root n → ∃ s t p, stp n = (fin s, fin t, fin p) ∧ smin ≤ s)
    (hcast : ∀ n < N, TwoData (c n) → CastOK smin tol f (c n)) :
    ∀ i v, W[i]? = some v → ∃ s t p, stp' v = (fin s, fin t, fin p) ∧ smin ≤ s ∧
      interpAt kind (fin p) (c v).P (c v).S = some (fin s) ∧ interpAt kind (fin p) (c v).P (c v).T = some (fin t) ∧
      ∃ (ns : List ℕ) (g : ℕ → ℝ), ns ≠ [] ∧ ns.Sublist (G.nbrs v) ∧ p = (ns.map g).sum / ns.length ∧
        ∀ n ∈ ns, (Reach G (wet stp) root n ∨ n ∈ W.take i) ∧ lt (pml n) (fin (g n)) = true ∧ LinkTo kind e tol (stp' n) (c v) (g n) := by
  intro i
  induction i using Nat.strong_induction_on with
  | _ i ih =>
    intro v hv
    have hvW : v ∈ W := List.mem_of_getElem? hv
    obtain ⟨hdata, ns, h1, h2, h3, p', hp', h4⟩ := S.links i v hv
    have h2d := (ofCasts_data ..).1 hdata
    obtain ⟨k, K, a, s, t, C, hs, hn⟩ := hcast v (S.was_dry v hvW).2 h2d
    have hlink : ∀ n, ∃ y, n ∈ ns → (Ocean.ofCasts (f + 13) (fin tol) eos kind c pml).ntpP (stp' n) v = fin y ∧
        a k ≤ y ∧ y ≤ a (K - 1) ∧ LinkTo kind e tol (stp' n) (c v) y := by
      intro n
      by_cases hn' : n ∈ ns
      swap
      · exact ⟨0, fun h => absurd h hn'⟩
      obtain ⟨hr, hfin, -⟩ := h3 n hn'
      have hb : ∃ sB tB pB, stp' n = (fin sB, fin tB, fin pB) ∧ smin ≤ sB := by
        rcases hr with hr | hr
        · rw [S.kept n hr]; exact hstp n hr
        · obtain ⟨j, hj, e1⟩ := List.mem_take_iff_getElem.1 hr
          obtain ⟨s, t, p, q1, q2, -⟩ := ih j (by omega) n (by rw [← e1]; exact List.getElem?_eq_getElem _)
          exact ⟨s, t, p, q1, q2⟩
      obtain ⟨sB, tB, pB, hb1, hb2⟩ := hb
      obtain ⟨gS, gT, hi, h⟩ := ntp_spec kind E C hs (sB := sB) (tB := tB) (pB := pB) hb2 htol f hn
      rw [ntpP_eq _ _ _ _ _ _ _ _ h2d, hb1] at hfin ⊢
      simp only [Ocean.ofCasts] at hfin ⊢
      rcases h with ⟨h, _⟩ | ⟨p, z, h, p1, p2, z1, z2, hz, hd⟩
      · rw [h] at hfin; simp [valueOr] at hfin
      · rw [h]
        exact ⟨p, fun _ => ⟨rfl, p1, p2, sB, tB, pB, z, gS z, gT z, rfl, (hi z z1 z2).1, (hi z z1 z2).2, hz, hd⟩⟩
    choose g hg using hlink
    have hsum : p' = fin ((ns.map g).sum / ns.length) := by
      rw [hp']
      have e := foldl_fin (fun n => (Ocean.ofCasts (f + 13) (fin tol) eos kind c pml).ntpP (stp' n) v) g ns 0 (fun n hn => (hg n hn).1)
      have e0 : (lit 0 : Fl ℝ) = fin 0 := by simp
      have hlen : ((ns.length : ℚ) : ℝ) ≠ 0 := by
        have : ns.length ≠ 0 := by simpa using h2
        simpa using this
      rw [e0, e, lit_eq, fin_div _ _ hlen]
      simp
    obtain ⟨m1, m2⟩ := mean_between h2 fun n hn => ⟨(hg n hn).2.1, (hg n hn).2.2.1⟩
    obtain ⟨s', t', e1, e2, e3, e4⟩ := ofCasts_st (f := f + 13) (tol := tol) (eos := eos) (kind := kind) (pml := pml) C hs m1 m2
    refine ⟨s', t', (ns.map g).sum / ns.length, ?_, e2, e3, e4, ns, g, h2, h1, rfl, fun n hn => ⟨(h3 n hn).1, ?_, (hg n hn).2.2.2⟩⟩
    · rw [h4, hsum, e1]
    · have := (h3 n hn).2.2
      rw [(hg n hn).1] at this
      exact this

/-- Two casts with the data of `exCast` joined by an edge, the surface on cast 0 only: whatever is wetted is linked neutrally to cast 0. -/
example : ∃ (r : ℕ → Fl ℝ × Fl ℝ × Fl ℝ) (W : List ℕ), ∀ (i v : ℕ), W[i]? = some v → ∃ s t p, r v = (fin s, fin t, fin p) ∧ 0 ≤ s ∧
    ∃ (ns : List ℕ) (g : ℕ → ℝ), ns ≠ [] ∧ p = (ns.map g).sum / ns.length ∧ ∀ n ∈ ns, LinkTo .linear (fun s t _ => s - t) (1 / 100) (r n) exCast (g n) := by
  let G : Csr := ⟨fun n => min n 2, fun n => 1 - n⟩
  let stp : ℕ → Fl ℝ × Fl ℝ × Fl ℝ := fun n => if n = 0 then (fin 35, fin 10, fin 1) else (Fl.nan, Fl.nan, Fl.nan)
  have hG : InRange G 2 := by unfold InRange; decide
  obtain ⟨r, W, -, S⟩ := wetPerim_spec (by rfl) G (Ocean.ofCasts (600 + 13) (fin (1 / 100)) (fun s t _ => s - t) .linear (fun _ => exCast) (fun _ => ninf)) 2 0 stp
    hG (by norm_num) (fun _ => 0) 10 3 (by norm_num)
  refine ⟨r.stp, W, fun i v hv => ?_⟩
  obtain ⟨s, t, p, h1, h2, -, -, ns, g, h3, -, h4, h5⟩ := perim_neutral exEos (by norm_num) S (by
    rintro n ⟨k, w⟩
    have hw := w.good
    by_cases hn : n = 0
    · subst hn; exact ⟨35, 10, 1, rfl, by norm_num⟩
    · simp [wet, stp, hn] at hw) (fun n _ _ => ⟨1, 4, _, _, _, exGood, fun i _ _ => by split_ifs <;> norm_num, by norm_num⟩) i v hv
  exact ⟨s, t, p, h1, h2, ns, g, h3, h4, fun n hn => (h5 n hn).2.2⟩

end Bfs
