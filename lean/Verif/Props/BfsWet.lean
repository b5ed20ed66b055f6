import Verif.Lemmas.BfsWet
import Verif.Props.Bfs
import Verif.Props.Traj

/-! # Properties of `bfs.py`: the search with wetting (C27, C66, C67) -/

namespace Bfs
open FloatLike
set_option linter.unusedSectionVars false
variable {F : Type*} [FloatLike F]

/-- What a call of `bfs_conncomp1_wet` may do to the surface `stp` (before) to give `stp'` (after), with list `q` and
count `newly`.  `wet` is `np.isfinite(p)`. -/
structure WetSpec (G : Csr) (O : Ocean F) (N root : ℕ) (stp stp' : ℕ → F × F × F) (q : List ℕ) (newly : ℕ) : Prop where
  /-- no duplicates -/
  nodup : q.Nodup
  /-- fits in the array of length `N` -/
  fits : q.length ≤ N
  /-- nothing changes on casts that were wet, nor on casts not listed -/
  unchanged : ∀ v, wet stp v = true ∨ v ∉ q → stp' v = stp v
  /-- everything listed is wet -/
  wet_q : ∀ v ∈ q, wet stp' v = true
  /-- `newly_wet` counts the casts that became wet -/
  count : newly = ((Finset.range N).filter fun v => wet stp v = false ∧ wet stp' v = true).card
  /-- a cast that became wet has two or more data, is below its own mixed layer, and its `(s,t,p)` is the neutral link
  from the final `(s,t,p)` of an adjacent cast listed before it -/
  neutral : ∀ v, wet stp v = false → wet stp' v = true → O.data v = true ∧ lt (O.pml v) (stp' v).2.2 = true ∧
    ∃ m, [m, v].Sublist q ∧ v ∈ G.nbrs m ∧ stp' v = O.ntp (stp' m) v
  /-- the list is the connected component of the root in the final surface -/
  component : ∀ v, v ∈ q ↔ Reach G (wet stp') root v
  /-- wetting went as far as possible: each dry neighbour of the final region has no data, or its neutral link fails or
  ends in its mixed layer -/
  exhaustive : ∀ m ∈ q, ∀ n ∈ G.nbrs m, n ∉ q → wet stp n = false ∧ (O.data n = false ∨
    isFinite (O.ntp (stp' m) n).2.2 = false ∨ lt (O.pml n) (O.ntp (stp' m) n).2.2 = false)

theorem sublist_pair {q : List ℕ} {l i m v : ℕ} (hl : l < i) (h1 : q[l]? = some m) (h2 : q[i]? = some v) :
    [m, v].Sublist q := by
  obtain ⟨a, rfl⟩ := List.getElem?_eq_some_iff.1 h1
  obtain ⟨b, rfl⟩ := List.getElem?_eq_some_iff.1 h2
  have e : q = q.take (l + 1) ++ q.drop (l + 1) := (List.take_append_drop _ _).symm
  have s1 : [q[l]].Sublist (q.take (l + 1)) := by
    rw [List.singleton_sublist, List.mem_take_iff_getElem]
    exact ⟨l, by omega, rfl⟩
  have s2 : [q[i]].Sublist (q.drop (l + 1)) := by
    rw [List.singleton_sublist, List.mem_iff_getElem]
    refine ⟨i - (l + 1), by simp; omega, ?_⟩
    simp only [List.getElem_drop]
    congr 1
    omega
  have := s1.append s2
  rwa [← e] at this

/-- **C27, C66.** For every graph on `0 .. N-1`, every ocean, every surface and every root with finite pressure,
`bfs_conncomp1_wet` ends, lists the root first, and satisfies `WetSpec`. -/
theorem bfsWet_spec (G : Csr) (O : Ocean F) (N root : ℕ) (stp : ℕ → F × F × F) (hG : InRange G N) (hr : root < N)
    (fuel : ℕ) (hf : N < fuel) (hroot : wet stp root = true) :
    ∃ r, bfsWet G O root stp fuel = some r ∧ r.q.head? = some root ∧ WetSpec G O N root stp r.stp r.q r.newly := by
  obtain ⟨r, h1, I, D⟩ := loopW_spec (O := O) hG fuel 0 _ (WInv.init (stp0 := stp) hr hroot) (by simp)
    (by intro i m hi; omega) (by omega)
  have hwet : ∀ v ∈ r.q, wet r.stp v = true := by
    intro v hv
    by_cases hw : wet stp v = true
    · show isFinite (r.stp v).2.2 = true
      rw [I.old v (Or.inl hw)]; exact hw
    · obtain ⟨i, hi, rfl⟩ := List.mem_iff_getElem.1 hv
      have := (I.new i _ (List.getElem?_eq_getElem hi) (by simpa using hw)).2.1
      unfold accept at this
      simp only [Bool.and_eq_true] at this
      exact this.1
  have hwet' : ∀ v, wet stp v = false → wet r.stp v = true → v ∈ r.q := by
    intro v h h'
    by_contra hv
    have := I.old v (Or.inr hv)
    rw [show wet r.stp v = wet stp v by show isFinite (r.stp v).2.2 = _; rw [this], h] at h'
    exact absurd h' (by simp)
  refine ⟨r, ?_, ?_, ?_⟩
  · unfold bfsWet
    simp only
    rw [if_pos hroot]
    exact h1
  · rw [List.head?_eq_getElem?]; exact I.first
  refine ⟨I.nodup, length_le_of_nodup I.nodup I.lt, I.old, hwet, ?_, ?_, ?_, ?_⟩
  · rw [I.newly, ← List.toFinset_card_of_nodup (I.nodup.filter _)]
    congr 1
    ext v
    simp only [List.mem_toFinset, List.mem_filter, Finset.mem_filter, Finset.mem_range, Bool.not_eq_true']
    constructor
    · rintro ⟨a, b⟩; exact ⟨I.lt v a, b, hwet v a⟩
    · rintro ⟨_, b, c⟩; exact ⟨hwet' v b c, b⟩
  · intro v h h'
    obtain ⟨i, hi, rfl⟩ := List.mem_iff_getElem.1 (hwet' v h h')
    obtain ⟨a, b, l, m, c, d, e, f⟩ := I.new i _ (List.getElem?_eq_getElem hi) h
    unfold accept at b
    simp only [Bool.and_eq_true] at b
    exact ⟨a, b.2, m, sublist_pair c d (List.getElem?_eq_getElem hi), e, f⟩
  · have fwd : ∀ (i v : ℕ), r.q[i]? = some v → Reach G (wet r.stp) root v := by
      intro i
      induction i using Nat.strong_induction_on with
      | _ i ih =>
        intro v hv
        rcases Nat.eq_zero_or_pos i with rfl | hi
        · rw [I.first] at hv
          obtain rfl := Option.some.inj hv
          exact ⟨0, .root (hwet _ (List.mem_of_getElem? I.first))⟩
        · obtain ⟨l, m, a, b, c⟩ := I.parent i v hi hv
          obtain ⟨k, w⟩ := ih l a m b
          exact ⟨k + 1, .step w c (hwet _ (List.mem_of_getElem? hv))⟩
    intro v
    constructor
    · intro hv
      obtain ⟨i, hi, rfl⟩ := List.mem_iff_getElem.1 hv
      exact fwd i _ (List.getElem?_eq_getElem hi)
    · rintro ⟨k, w⟩
      induction w with
      | root _ => exact List.mem_of_getElem? I.first
      | step w hn hg ih =>
        rcases D _ ih _ hn with h | ⟨h, _⟩
        · exact h
        · exact hwet' _ h hg
  · intro m hm n hn hnq
    rcases D m hm n hn with h | ⟨h, h'⟩
    · exact absurd h hnq
    · refine ⟨h, ?_⟩
      rcases h' with h' | h'
      · exact Or.inl h'
      · right
        unfold accept at h'
        exact Bool.and_eq_false_iff.1 h'

/-- **C27.** If the pressure at the root is not finite nothing happens. -/
theorem bfsWet_dry_root (G : Csr) (O : Ocean F) (root : ℕ) (stp : ℕ → F × F × F) (fuel : ℕ) (hroot : wet stp root = false) :
    ∃ r, bfsWet G O root stp fuel = some r ∧ r.q = [] ∧ r.newly = 0 ∧ r.stp = stp := by
  refine ⟨⟨[], wet stp, fun n => !wet stp n, stp, 0, []⟩, ?_, rfl, rfl, rfl⟩
  unfold bfsWet
  simp only
  rw [if_neg (by rw [show isFinite (stp root).2.2 = wet stp root from rfl, hroot]; simp)]

/-! ## Which casts have data -/

/-- The first level of the cast with finite salinity and pressure is followed by another level where neither is NaN. -/
def TwoData (c : Cast F) : Prop :=
  ∃ i, i + 1 < c.S.size ∧ (∀ j < i, isFinite (c.S.get j) = false ∨ isFinite (c.P.get j) = false) ∧
    isFinite (c.S.get i) = true ∧ isFinite (c.P.get i) = true ∧ isNaN (c.S.get (i + 1)) = false ∧ isNaN (c.P.get (i + 1)) = false

/-- **C27, C29.** The casts that the searches try to wet are those with two data in a row. -/
theorem ofCasts_data (fuel : ℕ) (tol : F) (eos : F → F → F → F) (kind : PPKind) (c : ℕ → Cast F) (pml : ℕ → F) (n : ℕ) :
    (Ocean.ofCasts fuel tol eos kind c pml).data n = true ↔ TwoData (c n) := by
  show decide _ = true ↔ _
  rw [decide_eq_true_iff]
  have hK := Interp.validRange2_K_le (c n).S (c n).P
  constructor
  · intro h
    obtain ⟨f1, f2⟩ := Interp.validRange2_first (c n).S (c n).P (by omega)
    obtain ⟨g1, g2⟩ := Interp.validRange2_in (c n).S (c n).P (i := (Interp.validRange2 (c n).S (c n).P).1 + 1) (by omega) (by omega)
    exact ⟨_, by omega, fun j hj => Interp.validRange2_before _ _ hj, f1, f2, g1, g2⟩
  · rintro ⟨i, hi, hb, f1, f2, g1, g2⟩
    have e1 : Interp.firstFrom (fun i => isFinite ((c n).S.get i) && isFinite ((c n).P.get i)) 0 (c n).S.size = i := by
      refine Interp.firstFrom_eq (by omega) (fun j _ hj => ?_) (fun _ => ?_)
      · rcases hb j hj with h | h <;> simp [h]
      · simp [f1, f2]
    have e2 : i + 1 < Interp.firstFrom (fun i => isNaN ((c n).S.get i) || isNaN ((c n).P.get i)) (i + 1) (c n).S.size := by
      by_contra hle
      obtain ⟨h1, h2⟩ := Interp.firstFrom_at (p := fun i => isNaN ((c n).S.get i) || isNaN ((c n).P.get i)) (lo := i + 1) (n := (c n).S.size)
        (by omega)
      rw [show Interp.firstFrom _ (i + 1) (c n).S.size = i + 1 from le_antisymm (by omega) h1] at h2
      simp [g1, g2] at h2
    unfold Interp.validRange2
    simp only [e1]
    omega

/-- **C27.** A cast without two data in a row is never wetted. -/
theorem bfsWet_two_data {fuel' : ℕ} {tol : F} {eos : F → F → F → F} {kind : PPKind} {c : ℕ → Cast F} {pml : ℕ → F} {G : Csr} {N root : ℕ}
    {stp : ℕ → F × F × F} (hG : InRange G N) (hr : root < N) {fuel : ℕ} (hf : N < fuel) {r : WSt F}
    (h : bfsWet G (Ocean.ofCasts fuel' tol eos kind c pml) root stp fuel = some r) {v : ℕ} (hv : wet stp v = false) (hd : ¬ TwoData (c v)) :
    wet r.stp v = false := by
  by_cases hroot : wet stp root = true
  · obtain ⟨r', h1, -, W⟩ := bfsWet_spec G (Ocean.ofCasts fuel' tol eos kind c pml) N root stp hG hr fuel hf hroot
    rw [h] at h1
    obtain rfl := Option.some.inj h1
    by_contra hw
    exact hd ((ofCasts_data ..).1 (W.neutral v hv (by simpa using hw)).1)
  · obtain ⟨r', h1, -, -, h2⟩ := bfsWet_dry_root G (Ocean.ofCasts fuel' tol eos kind c pml) root stp fuel (by simpa using hroot)
    rw [h] at h1
    obtain rfl := Option.some.inj h1
    rw [h2]; exact hv

/-! ## Exact arithmetic: the links are neutral -/

open Traj Fl in
/-- **C27** over the reals, with the modelled `ntp_bottle_to_cast`: on well formed casts, a cast that becomes wet holds the
interpolated salinity and temperature at a pressure within `2*(2*eps*|p|+tol)` of a point neutrally related to the final
bottle on an adjacent cast listed earlier. -/
theorem bfsWet_neutral {eos : Fl ℝ → Fl ℝ → Fl ℝ → Fl ℝ} {e : ℝ → ℝ → ℝ → ℝ} {smin : ℝ} (E : EosOn eos e smin)
    (kind : PPKind) {tol : ℝ} {f : ℕ} (htol : 0 < tol) (c : ℕ → Cast (Fl ℝ)) (pml : ℕ → Fl ℝ)
    (G : Csr) (N root : ℕ) (stp : ℕ → Fl ℝ × Fl ℝ × Fl ℝ) (hG : InRange G N) (hr : root < N) (fuel : ℕ) (hf : N < fuel)
    (hstp : ∀ n, wet stp n = true → ∃ s t p, stp n = (fin s, fin t, fin p) ∧ smin ≤ s)
    (hcast : ∀ n, CastOK smin tol f (c n))
    (r : WSt (Fl ℝ)) (hr' : bfsWet G (Ocean.ofCasts (f + 13) (fin tol) eos kind c pml) root stp fuel = some r) :
    ∀ v, wet stp v = false → wet r.stp v = true →
      ∃ m sB tB pB s t p z sz tz, [m, v].Sublist r.q ∧ v ∈ G.nbrs m ∧ r.stp m = (fin sB, fin tB, fin pB) ∧
        r.stp v = (fin s, fin t, fin p) ∧ interpAt kind (fin p) (c v).P (c v).S = some (fin s) ∧
        interpAt kind (fin p) (c v).P (c v).T = some (fin t) ∧
        interpAt kind (fin z) (c v).P (c v).S = some (fin sz) ∧ interpAt kind (fin z) (c v).P (c v).T = some (fin tz) ∧
        e sB tB ((pB + z) / 2) = e sz tz ((pB + z) / 2) ∧ |z - p| ≤ 2 * (2 * (1 / 2 ^ 52) * |p| + tol) := by
  by_cases hroot : wet stp root = true
  swap
  · obtain ⟨r', h1, _, _, h4⟩ := bfsWet_dry_root G (Ocean.ofCasts (f + 13) (fin tol) eos kind c pml) root stp fuel
      (by simpa using hroot)
    rw [hr'] at h1
    obtain rfl := Option.some.inj h1
    intro v a b
    rw [h4, a] at b; exact absurd b (by simp)
  obtain ⟨r', h1, hhd, W⟩ := bfsWet_spec G (Ocean.ofCasts (f + 13) (fin tol) eos kind c pml) N root stp hG hr fuel hf hroot
  rw [hr'] at h1
  obtain rfl := Option.some.inj h1
  -- every listed bottle is three numbers with salinity at least smin
  have key : ∀ (i v : ℕ), r.q[i]? = some v → ∃ s t p, r.stp v = (fin s, fin t, fin p) ∧ smin ≤ s := by
    intro i
    induction i using Nat.strong_induction_on with
    | _ i ih =>
      intro v hv
      have hvq := List.mem_of_getElem? hv
      by_cases hw : wet stp v = true
      · rw [W.unchanged v (Or.inl hw)]; exact hstp v hw
      · obtain ⟨_, _, m, hs, _, hl⟩ := W.neutral v (by simpa using hw) (W.wet_q v hvq)
        obtain ⟨l, hl', hlm⟩ : ∃ l, l < i ∧ r.q[l]? = some m := by
          obtain ⟨g, hg⟩ := List.sublist_iff_exists_orderEmbedding_getElem?_eq.1 hs
          have g1 : g 0 < g 1 := g.strictMono (by omega)
          have e0 := hg 0
          have e1 := hg 1
          simp only [List.getElem?_cons_zero, List.getElem?_cons_succ] at e0 e1
          refine ⟨g 0, ?_, e0.symm⟩
          obtain ⟨a1, a2⟩ := List.getElem?_eq_some_iff.1 e1.symm
          obtain ⟨b1, b2⟩ := List.getElem?_eq_some_iff.1 hv
          have := (List.Nodup.getElem_inj_iff W.nodup).1 (a2.trans b2.symm)
          omega
        obtain ⟨sB, tB, pB, hm, hsB⟩ := ih l hl' m hlm
        obtain ⟨b, hb, hb'⟩ := ntp_total kind E htol (hcast v) (tB := tB) (pB := pB) hsB
        rw [hm] at hl
        simp only [Ocean.ofCasts] at hl
        rw [hb] at hl
        simp only [valueOr] at hl
        have hvw := W.wet_q v hvq
        rw [hl]
        rcases hb' with rfl | ⟨s, t, p, rfl, hs⟩
        · simp only [wet, hl] at hvw
          exact absurd hvw (by simp)
        · exact ⟨s, t, p, rfl, hs⟩
  intro v hv hv'
  obtain ⟨_, _, m, hs, hadj, hl⟩ := W.neutral v hv hv'
  have hmq : m ∈ r.q := hs.subset (by simp)
  obtain ⟨l, hl2, rfl⟩ := List.mem_iff_getElem.1 hmq
  obtain ⟨sB, tB, pB, hm, hsB⟩ := key l _ (List.getElem?_eq_getElem hl2)
  obtain ⟨k, K, a, s, t, C, hs', hn⟩ := hcast v
  obtain ⟨gS, gT, hi, h⟩ := ntp_spec kind E C hs' (sB := sB) (tB := tB) (pB := pB) hsB htol f hn
  rw [hm] at hl
  simp only [Ocean.ofCasts] at hl
  rcases h with ⟨h, _⟩ | ⟨p, z, h, p1, p2, z1, z2, hz, hd⟩
  · rw [h] at hl
    simp only [wet, hl, valueOr] at hv'
    exact absurd hv' (by simp)
  · rw [h] at hl
    exact ⟨_, sB, tB, pB, gS p, gT p, p, z, gS z, gT z, hs, hadj, hm, hl, (hi p p1 p2).1, (hi p p1 p2).2,
      (hi z z1 z2).1, (hi z z1 z2).2, hz, hd⟩

/-! ## C67: the note on the number of NTP calculations -/

section witness
open Fl Traj

/-- The path 0-1-2 closed to a triangle. -/
def triCsr : Csr where
  indptr i := 2 * i
  indices i := [1, 2, 0, 2, 0, 1].getD i 0

/-- Three casts: 0 and 1 hold the surface, 2 is everywhere denser than it (for the equation of state `s`). -/
def triOcean : Ocean (Fl ℚ) :=
  Ocean.ofCasts 30 (fin (1/100)) (fun s _ _ => s) .linear
    (fun n => if n = 2 then qCast [fin 5, fin 6] [fin 0, fin 0] [fin 0, fin 10]
      else qCast [fin 0, fin 2] [fin 0, fin 0] [fin 0, fin 10]) (fun _ => ninf)

/-- The surface `s = 1` on casts 0 and 1. -/
def triStp : ℕ → Fl ℚ × Fl ℚ × Fl ℚ := fun n => if n < 2 then (fin 1, fin 0, fin 5) else (Fl.nan, Fl.nan, Fl.nan)

/-- **C67 is violated**: the note in `bfs_conncomp1_wet` says at most one NTP calculation is made per dry cast; here two
are made for cast 2 (and both fail). -/
theorem wet_one_ntp_per_cast_false :
    ∃ r, bfsWet triCsr triOcean 0 triStp 4 = some r ∧ r.calls = [(0, 2), (1, 2)] := by
  have h : ((bfsWet triCsr triOcean 0 triStp 4).map fun r => r.calls) = some [(0, 2), (1, 2)] := by decide +kernel
  obtain ⟨r, h1, h2⟩ := Option.map_eq_some_iff.1 h
  exact ⟨r, h1, h2⟩

/-- Cast 2 has data, a cast with one datum has not. -/
example : TwoData (qCast [Fl.nan, fin 5, fin 6] [fin 0, fin 0, fin 0] [fin 0, fin 5, fin 10]) ∧
    ¬ TwoData (qCast [fin 5, (Fl.nan : Fl ℚ), fin 6] [fin 0, fin 0, fin 0] [fin 0, fin 5, fin 10]) := by
  rw [← ofCasts_data 0 (fin 1) (fun s _ _ => s) .linear (fun _ => qCast [Fl.nan, fin 5, fin 6] _ _) (fun _ => ninf) 0,
    ← ofCasts_data 0 (fin 1) (fun s _ _ => s) .linear (fun _ => qCast [fin 5, Fl.nan, fin 6] _ _) (fun _ => ninf) 0]
  decide +kernel

/-- A case in which the hypotheses of `bfsWet_spec` hold and a cast is wetted. -/
example : InRange triCsr 3 ∧ wet triStp 0 = true ∧
    ((bfsWet triCsr (Ocean.ofCasts 30 (fin (1/100)) (fun s _ _ => s) .linear
      (fun _ => qCast [fin 0, fin 2] [fin 0, fin 0] [fin 0, fin 10]) (fun _ => ninf)) 0 triStp 4).map
        fun r => (r.q, r.newly, r.stp 2)) = some ([0, 1, 2], 1, (fin 1, fin 0, fin 5)) := by
  unfold InRange
  decide +kernel

end witness

end Bfs
