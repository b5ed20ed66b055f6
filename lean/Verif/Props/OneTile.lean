import Verif.Props.OmegaGridSym
import Verif.Props.Xgcm

/-! # One tile is a rectilinear grid (C188) -/

set_option linter.unusedSectionVars false

namespace Grid

/-- the links of cells with a cell before them, of those that have one -/
def linksTo (n : ℕ) (before : ℕ → ℤ) : List (ℕ × ℕ) := ((List.range (n * n)).filter fun m => decide (0 ≤ before m)).map fun m => (m, (before m).toNat)

theorem linksTo_nodup (n : ℕ) (before : ℕ → ℤ) : (linksTo n before).Nodup :=
  List.Nodup.map_on (fun _ _ _ _ e => congrArg Prod.fst e) (List.nodup_range.filter _)

theorem mem_linksTo {n : ℕ} {before : ℕ → ℤ} {a b : ℕ} : (a, b) ∈ linksTo n before ↔ ∃ j < n, ∃ i < n, a = cell n j i ∧ before (cell n j i) = b := by
  unfold linksTo
  rw [List.mem_map]
  constructor
  · rintro ⟨m, hm, e⟩
    obtain ⟨h1, h2⟩ := List.mem_filter.1 hm
    have h1 := List.mem_range.1 h1
    have h2 : 0 ≤ before m := by simpa using h2
    have hn : 0 < n := by
      rcases Nat.eq_zero_or_pos n with rfl | h
      · omega
      · exact h
    obtain ⟨rfl, rfl⟩ := Prod.mk.inj e
    have hc : cell n (m / n) (m % n) = m := by unfold cell; rw [Nat.mul_comm]; exact Nat.div_add_mod m n
    exact ⟨m / n, (Nat.div_lt_iff_lt_mul hn).2 h1, m % n, Nat.mod_lt _ hn, hc.symm, by rw [hc]; omega⟩
  · rintro ⟨j, hj, i, hi, rfl, h⟩
    refine ⟨cell n j i, List.mem_filter.2 ⟨List.mem_range.2 ?_, by rw [h]; simp⟩, by rw [h]; rfl⟩
    unfold cell
    calc j * n + i < j * n + n := by omega
      _ = (j + 1) * n := by ring
      _ ≤ n * n := Nat.mul_le_mul_right _ hj

theorem prev_of_pos {n i : ℕ} {p : Bool} (h0 : 0 < i) (hi : i < n) : prev n p i = i - 1 := by
  unfold prev
  cases p
  · rfl
  · rw [if_pos rfl, show i + n - 1 = (i - 1) + n from by omega, Nat.add_mod_right, Nat.mod_eq_of_lt (by omega)]

theorem prev_zero {n : ℕ} (hn : 0 < n) : prev n true 0 = n - 1 := by
  unfold prev
  rw [if_pos rfl, Nat.zero_add, Nat.mod_eq_of_lt (by omega)]

theorem linksTo_second {n : ℕ} {p : Bool} {before : ℕ → ℤ}
    (h : ∀ j < n, ∀ i < n, before (cell n j i) = if i = 0 then (if p then (cell n j (n - 1) : ℤ) else -1) else (cell n j (i - 1) : ℤ)) :
    (linksTo n before).Perm (flat n (n - off p) fun j i => (cell n j (i + off p), cell n j (prev n p (i + off p)))) := by
  have ho : off p = 0 ∧ p = true ∨ off p = 1 ∧ p = false := by cases p; exact Or.inr ⟨rfl, rfl⟩; exact Or.inl ⟨rfl, rfl⟩
  rw [List.perm_ext_iff_of_nodup (linksTo_nodup n before) (flat_nodup _ _ _ fun j hj i hi j' hj' i' hi' e => ?_)]
  · rintro ⟨a, b⟩
    rw [mem_linksTo, mem_flat]
    constructor
    · rintro ⟨j, hj, i, hi, rfl, e⟩
      rw [h j hj i hi] at e
      rcases Nat.eq_zero_or_pos i with rfl | h0
      · rw [if_pos rfl] at e
        rcases ho with ⟨o1, rfl⟩ | ⟨o1, rfl⟩
        · rw [if_pos rfl] at e
          refine ⟨j, hj, 0, by omega, ?_⟩
          rw [o1, Nat.add_zero, prev_zero (by omega)]
          exact congrArg _ (by exact_mod_cast e)
        · rw [if_neg (by decide)] at e; omega
      · rw [if_neg (by omega)] at e
        refine ⟨j, hj, i - off p, by omega, ?_⟩
        rw [show i - off p + off p = i from by omega, prev_of_pos h0 hi]
        exact congrArg _ (by exact_mod_cast e)
    · rintro ⟨j, hj, i, hi, e⟩
      obtain ⟨rfl, rfl⟩ := Prod.mk.inj e
      refine ⟨j, hj, i + off p, by omega, rfl, ?_⟩
      rw [h j hj _ (by omega)]
      rcases Nat.eq_zero_or_pos (i + off p) with h0 | h0
      · rw [if_pos h0, h0]
        rcases ho with ⟨o1, rfl⟩ | ⟨o1, rfl⟩
        · rw [if_pos rfl, prev_zero (by omega)]
        · omega
      · rw [if_neg (by omega), prev_of_pos h0 (by omega)]
  · have e1 := congrArg Prod.fst e
    obtain ⟨h1, h2⟩ := idx_inj (show i + off p < n by omega) (show i' + off p < n by omega) e1
    exact ⟨h1, by omega⟩

theorem linksTo_first {n : ℕ} {p : Bool} {before : ℕ → ℤ}
    (h : ∀ j < n, ∀ i < n, before (cell n j i) = if j = 0 then (if p then (cell n (n - 1) i : ℤ) else -1) else (cell n (j - 1) i : ℤ)) :
    (linksTo n before).Perm (flat (n - off p) n fun j i => (cell n (j + off p) i, cell n (prev n p (j + off p)) i)) := by
  have ho : off p = 0 ∧ p = true ∨ off p = 1 ∧ p = false := by cases p; exact Or.inr ⟨rfl, rfl⟩; exact Or.inl ⟨rfl, rfl⟩
  rw [List.perm_ext_iff_of_nodup (linksTo_nodup n before) (flat_nodup _ _ _ fun j hj i hi j' hj' i' hi' e => ?_)]
  · rintro ⟨a, b⟩
    rw [mem_linksTo, mem_flat]
    constructor
    · rintro ⟨j, hj, i, hi, rfl, e⟩
      rw [h j hj i hi] at e
      rcases Nat.eq_zero_or_pos j with rfl | h0
      · rw [if_pos rfl] at e
        rcases ho with ⟨o1, rfl⟩ | ⟨o1, rfl⟩
        · rw [if_pos rfl] at e
          refine ⟨0, by omega, i, hi, ?_⟩
          rw [o1, Nat.add_zero, prev_zero (by omega)]
          exact congrArg _ (by exact_mod_cast e)
        · rw [if_neg (by decide)] at e; omega
      · rw [if_neg (by omega)] at e
        refine ⟨j - off p, by omega, i, hi, ?_⟩
        rw [show j - off p + off p = j from by omega, prev_of_pos h0 hj]
        exact congrArg _ (by exact_mod_cast e)
    · rintro ⟨j, hj, i, hi, e⟩
      obtain ⟨rfl, rfl⟩ := Prod.mk.inj e
      refine ⟨j + off p, by omega, i, hi, rfl, ?_⟩
      rw [h _ (by omega) i hi]
      rcases Nat.eq_zero_or_pos (j + off p) with h0 | h0
      · rw [if_pos h0, h0]
        rcases ho with ⟨o1, rfl⟩ | ⟨o1, rfl⟩
        · rw [if_pos rfl, prev_zero (by omega)]
        · omega
      · rw [if_neg (by omega), prev_of_pos h0 (by omega)]
  · have e1 := congrArg Prod.fst e
    obtain ⟨h1, h2⟩ := idx_inj hi hi' e1
    exact ⟨by omega, h2⟩

/-- Specification: what lies before the first cells of the rows of the only tile, in the dimension `i`: nothing, or (if the tile is connected with itself) the last cell of the row. -/
def edgeX (n : ℕ) (per : Bool) (t j : ℕ) : ℤ := if per then (tcell n t j (n - 1) : ℤ) else -1

/-- the same in the dimension `j` -/
def edgeY (n : ℕ) (per : Bool) (t i : ℕ) : ℤ := if per then (tcell n t (n - 1) i : ℤ) else -1

variable {F : Type*} [FloatLike F]

/-- **C188** One tile of `n` by `n` casts, connected with itself in the dimensions that are periodic: the grid that `xgcm.build_grid` builds, for dimensions `(tile, j, i)` and shifts to the
left, has the same edges from the same end, with the same distances and face lengths, as the one that `rectilinear.build_grid` builds of the same lengths; only their order differs. -/
theorem one_tile {tile : String} (h1 : tile ≠ "i") (h2 : tile ≠ "j") {n : ℕ} (pj pi : Bool) {dxC dyC dyG dxG : ℕ → F} {dxC' dyC' dyG' dxG' : Data F} {x y yg xg : ℕ → ℕ → F}
    (hx : broadcastTo n n dxC' = .ok x) (hy : broadcastTo n n dyC' = .ok y) (hyg : broadcastTo n n dyG' = .ok yg) (hxg : broadcastTo n n dxG' = .ok xg)
    (hs : ∀ j < n, ∀ i < n, dxC (cell n j i) = x j i ∧ dyC (cell n j i) = y j i ∧ dyG (cell n j i) = yg j i ∧ dxG (cell n j i) = xg j i) :
    ∃ g g', xgcmBuild n 1 tile [tile, "j", "i"] 'l' 'l' (edgeX n pi) (edgeY n pj) (.arr dxC) (.arr dyC) (.arr dyG) (.arr dxG) = some (.ok g) ∧
      rectGrid n n pj pi dxC' dyC' dyG' dxG' = .ok g' ∧
      ∃ T T' : List ((ℕ × ℕ) × F × F), T.Perm T' ∧
        g.edges = T.map (fun x => x.1) ∧ g.dist = T.map (fun x => x.2.1) ∧ g.distperp = T.map (fun x => x.2.2) ∧
        g'.edges = T'.map (fun x => x.1) ∧ g'.dist = T'.map (fun x => x.2.1) ∧ g'.distperp = T'.map (fun x => x.2.2) := by
  obtain ⟨im1, jm1, e1, e2⟩ := neighbours_left_partial (n := n) (nf := 1) h1 h2 true (edgeX n pi) (edgeY n pj)
  obtain ⟨g, e3, e4, e5, e6⟩ := xgcm_edges (1 * n * n) im1 jm1 dxC dyC dyG dxG
  have hc : ∀ j i, tcell n 0 j i = cell n j i := by intro j i; unfold tcell cell; rw [Nat.zero_mul, Nat.zero_add]
  have hI : ∀ j < n, ∀ i < n, im1 (cell n j i) = if i = 0 then (if pi then (cell n j (n - 1) : ℤ) else -1) else (cell n j (i - 1) : ℤ) := by
    intro j hj i hi
    have := (e2 0 (by omega) j hj i hi).1
    rw [if_pos rfl] at this
    unfold edgeX at this
    simpa only [hc] using this
  have hJ : ∀ j < n, ∀ i < n, jm1 (cell n j i) = if j = 0 then (if pj then (cell n (n - 1) i : ℤ) else -1) else (cell n (j - 1) i : ℤ) := by
    intro j hj i hi
    have := (e2 0 (by omega) j hj i hi).2
    unfold edgeY at this
    simpa only [hc] using this
  have hf : ∀ (a b : ℕ) (f g : ℕ → ℕ → F), (∀ i < a, ∀ j < b, f i j = g i j) → flat a b f = flat a b g := by
    intro a b f g h
    have := Omega.flat_forall₂ (R := Eq) h
    rwa [List.forall₂_eq_eq_eq] at this
  have h0 : ∀ (f : ℕ → F) (q : ℕ → ℕ → F), (∀ j < n, ∀ i < n, f (cell n j i) = q j i) →
      flat (n - off pj) n (fun j i => q (j + off pj) i) = flat (n - off pj) n fun j i => f (cell n (j + off pj) i) :=
    fun f q h => hf _ _ _ _ fun j hj i hi => (h _ (by omega) _ hi).symm
  have h3 : ∀ (f : ℕ → F) (q : ℕ → ℕ → F), (∀ j < n, ∀ i < n, f (cell n j i) = q j i) →
      flat n (n - off pi) (fun j i => q j (i + off pi)) = flat n (n - off pi) fun j i => f (cell n j (i + off pi)) :=
    fun f q h => hf _ _ _ _ fun j hj i hi => (h _ hj _ (by omega)).symm
  have sx := fun j hj i hi => (hs j hj i hi).1
  have sy := fun j hj i hi => (hs j hj i hi).2.1
  have syg := fun j hj i hi => (hs j hj i hi).2.2.1
  have sxg := fun j hj i hi => (hs j hj i hi).2.2.2
  rw [Nat.one_mul] at e4 e5 e6
  refine ⟨g, ⟨rectEdges n n pj pi, flat (n - off pj) n (fun j i => dxC (cell n (j + off pj) i)) ++ flat n (n - off pi) (fun j i => dyC (cell n j (i + off pi))),
    flat (n - off pj) n (fun j i => dyG (cell n (j + off pj) i)) ++ flat n (n - off pi) (fun j i => dxG (cell n j (i + off pi)))⟩, ?_, ?_,
    (linksTo n im1).map (fun ab => (ab, dyC ab.1, dxG ab.1)) ++ (linksTo n jm1).map (fun ab => (ab, dxC ab.1, dyG ab.1)),
    (flat (n - off pj) n fun j i => (cell n (j + off pj) i, cell n (prev n pj (j + off pj)) i)).map (fun ab => (ab, dxC ab.1, dyG ab.1)) ++
      (flat n (n - off pi) fun j i => (cell n j (i + off pi), cell n j (prev n pi (i + off pi)))).map (fun ab => (ab, dyC ab.1, dxG ab.1)), ?_, ?_, ?_, ?_, ?_, ?_, ?_⟩
  · unfold xgcmBuild
    rw [if_neg (by decide)]
    simp only [decide_true, e1, e3]
  · unfold rectGrid rectData
    simp only [hx, hy, hyg, hxg]
    rw [h0 _ _ sx, h3 _ _ sy, h0 _ _ syg, h3 _ _ sxg]
  · exact (((linksTo_second hI).map _).append ((linksTo_first hJ).map _)).trans List.perm_append_comm
  · rw [e4]; unfold linksTo; simp only [List.map_append, List.map_map, Function.comp_def]
  · rw [e5]; unfold linksTo; simp only [List.map_append, List.map_map, Function.comp_def]
  · rw [e6]; unfold linksTo; simp only [List.map_append, List.map_map, Function.comp_def]
  · rw [rectEdges_eq]; simp only [List.map_append, Omega.flat_map]
  · simp only [List.map_append, Omega.flat_map]
  · simp only [List.map_append, Omega.flat_map]

end Grid

namespace Omega

open FloatLike Lib Traj Bfs VertSolve
open Fl hiding nan

/-- a link as an entry of the lists of a grid -/
noncomputable def asEntry (l : Link) : (ℕ × ℕ) × Fl ℝ × Fl ℝ := (l.ends, fin l.dist, fin l.perp)

noncomputable def ofFin : Fl ℝ → ℝ
  | .fin x => x
  | _ => 0

noncomputable def asLink (t : (ℕ × ℕ) × Fl ℝ × Fl ℝ) : Link := ⟨t.1, ofFin t.2.1, ofFin t.2.2⟩

theorem entries_eq {A B C : Type*} : ∀ {T T' : List (A × B × C)}, T.map (fun x => x.1) = T'.map (fun x => x.1) → T.map (fun x => x.2.1) = T'.map (fun x => x.2.1) →
    T.map (fun x => x.2.2) = T'.map (fun x => x.2.2) → T = T'
  | [], [], _, _, _ => rfl
  | [], _ :: _, h, _, _ => by simp at h
  | _ :: _, [], h, _, _ => by simp at h
  | a :: T, b :: T', h1, h2, h3 => by
    simp only [List.map_cons, List.cons.injEq] at h1 h2 h3
    rw [entries_eq h1.2 h2.2 h3.2]
    congr 1
    exact Prod.ext h1.1 (Prod.ext h2.1 h3.1)

/-- **C188** The grid of one tile has the links of the rectilinear grid. -/
theorem one_tile_links {tile : String} (h1 : tile ≠ "i") (h2 : tile ≠ "j") {n : ℕ} (pj pi : Bool) {dxC dyC dyG dxG : ℕ → Fl ℝ} {x y yg xg : ℕ → ℕ → ℝ}
    (hs : ∀ j < n, ∀ i < n, dxC (Grid.cell n j i) = fin (x j i) ∧ dyC (Grid.cell n j i) = fin (y j i) ∧ dyG (Grid.cell n j i) = fin (yg j i) ∧ dxG (Grid.cell n j i) = fin (xg j i)) :
    ∃ g L, Grid.xgcmBuild n 1 tile [tile, "j", "i"] 'l' 'l' (Grid.edgeX n pi) (Grid.edgeY n pj) (.arr dxC) (.arr dyC) (.arr dyG) (.arr dxG) = some (.ok g) ∧
      (⟨g.edges, some g.dist, some g.distperp⟩ : GridDict (Fl ℝ)) = gridOf L ∧ (rectLinks n n pj pi x y yg xg).Perm L := by
  have hm : ∀ f : ℕ → ℕ → ℝ, Grid.broadcastTo n n (.mat n n fun j i => (fin (f j i) : Fl ℝ)) = .ok fun j i => fin (f (Grid.bidx n j) (Grid.bidx n i)) :=
    fun f => if_pos ⟨Or.inl rfl, Or.inl rfl⟩
  have hb : ∀ i < n, Grid.bidx n i = i := by
    intro i hi; unfold Grid.bidx; split
    · omega
    · rfl
  obtain ⟨g, g', e1, e2, T, T', hT, a1, a2, a3, b1, b2, b3⟩ := Grid.one_tile (F := Fl ℝ) h1 h2 pj pi (hm x) (hm y) (hm yg) (hm xg)
    (fun j hj i hi => by rw [hb j hj, hb i hi]; exact hs j hj i hi)
  obtain ⟨g'', e3, e4⟩ := rectGrid_links (p0 := pj) (p1 := pi) (hm x) (hm y) (hm yg) (hm xg)
  obtain rfl : g' = g'' := by rw [e2] at e3; injection e3
  have hL : rectLinks n n pj pi (fun j i => x (Grid.bidx n j) (Grid.bidx n i)) (fun j i => y (Grid.bidx n j) (Grid.bidx n i))
      (fun j i => yg (Grid.bidx n j) (Grid.bidx n i)) (fun j i => xg (Grid.bidx n j) (Grid.bidx n i)) = rectLinks n n pj pi x y yg xg := by
    unfold rectLinks
    congr 1
    · have := flat_forall₂ (R := Eq) (n := n - Grid.off pj) (m := n)
        (f := fun i j => (⟨(Grid.cell n (i + Grid.off pj) j, Grid.cell n (Grid.prev n pj (i + Grid.off pj)) j), x (Grid.bidx n (i + Grid.off pj)) (Grid.bidx n j),
          yg (Grid.bidx n (i + Grid.off pj)) (Grid.bidx n j)⟩ : Link))
        (g := fun i j => ⟨(Grid.cell n (i + Grid.off pj) j, Grid.cell n (Grid.prev n pj (i + Grid.off pj)) j), x (i + Grid.off pj) j, yg (i + Grid.off pj) j⟩)
        (fun i hi j hj => by rw [hb _ (by omega), hb _ hj])
      rwa [List.forall₂_eq_eq_eq] at this
    · have := flat_forall₂ (R := Eq) (n := n) (m := n - Grid.off pi)
        (f := fun i j => (⟨(Grid.cell n i (j + Grid.off pi), Grid.cell n i (Grid.prev n pi (j + Grid.off pi))), y (Grid.bidx n i) (Grid.bidx n (j + Grid.off pi)),
          xg (Grid.bidx n i) (Grid.bidx n (j + Grid.off pi))⟩ : Link))
        (g := fun i j => ⟨(Grid.cell n i (j + Grid.off pi), Grid.cell n i (Grid.prev n pi (j + Grid.off pi))), y i (j + Grid.off pi), xg i (j + Grid.off pi)⟩)
        (fun i hi j hj => by rw [hb _ (by omega), hb _ (by omega)])
      rwa [List.forall₂_eq_eq_eq] at this
  rw [hL] at e4
  unfold gridOf at e4
  injection e4 with c1 c2 c3
  injection c2 with c2
  injection c3 with c3
  have hT' : T' = (rectLinks n n pj pi x y yg xg).map asEntry := by
    apply entries_eq
    · rw [← b1, c1, List.map_map]; rfl
    · rw [← b2, c2, List.map_map]; rfl
    · rw [← b3, c3, List.map_map]; rfl
  have hback : T = (T.map asLink).map asEntry := by
    rw [List.map_map]
    conv_lhs => rw [← List.map_id T]
    refine List.map_congr_left fun t ht => ?_
    have h := hT.mem_iff.1 ht
    rw [hT'] at h
    obtain ⟨l, -, rfl⟩ := List.mem_map.1 h
    rfl
  refine ⟨g, T.map asLink, e1, ?_, ?_⟩
  · unfold gridOf
    rw [a1, a2, a3, hback]
    simp only [List.map_map]
    rfl
  · have h := (hT.map asLink).symm
    rw [hT', List.map_map] at h
    have e : asLink ∘ asEntry = id := rfl
    rwa [e, List.map_id] at h

/-- a call on a grid is one on the grid with its links in another order -/
theorem Call.reorder {o : Opts (Fl ℝ)} {dims : Option (List String)} {coord : String → Option (List ℚ)} {S T : Nd (Fl ℝ)} {P : PArg (Fl ℝ)}
    {v : ℕ} {pr : List ℕ → ℕ → Fl ℝ} {L L' : List Link} {pc : PinCast} {m0 : List ℕ} {p0 : ℝ} {e : ℝ → ℝ → ℝ → ℝ} {smin tol : ℝ} {n : ℕ} {b : List ℕ → ℕ → ℝ}
    (C : Call o dims coord S T P v pr L pc m0 p0 e smin tol n b) (h : L.Perm L') : Call o dims coord S T P v pr L' pc m0 p0 e smin tol n b :=
  { C with
    within := fun x hx => C.within x (h.mem_iff.2 hx)
    dist := fun x hx => C.dist x (h.mem_iff.2 hx)
    solver := by
      obtain ⟨w, hw, h1, h2⟩ := C.solver
      exact ⟨w, hw, fun x hx => h1 x (h.mem_iff.2 hx), h2⟩ }

/-- the indices of one tile -/
theorem tile_matching (n : ℕ) : Matching [n, n] [1, n, n] (fun m => 0 :: m) List.tail where
  there m h := .cons (by norm_num) h
  back m h := by
    unfold Valid at h
    cases h with
    | cons _ h => exact h
  left m _ := rfl
  right m h := by
    unfold Valid at h
    cases h with
    | @cons _ i _ m hi h =>
      obtain rfl : i = 0 := by omega
      rfl
  size := by simp

theorem tile_links {n : ℕ} {L L' : List Link} (hw : ∀ x ∈ L, x.ends.1 < [n, n].prod ∧ x.ends.2 < [n, n].prod) (h : L.Perm L') :
    SameLinks [n, n] [1, n, n] (fun m => 0 :: m) L L' := by
  have hk : ∀ k < [n, n].prod, ravel [1, n, n] (0 :: unravel [n, n] k) = k := by
    intro k hk
    have := (valid_unravel hk).2
    simpa [ravel] using this
  refine ⟨L, ?_, h⟩
  rw [List.forall₂_same]
  intro x hx
  refine ⟨rfl, rfl, .inl ?_⟩
  obtain ⟨h1, h2⟩ := hw x hx
  exact Prod.ext (hk _ h1).symm (hk _ h2).symm

/-- **C188** `omega_surf` returns the same surface, after the same number of passes, for the casts of one tile on the grid that `xgcm.build_grid` builds, and for the same casts
without the dimension of tiles on the grid that `rectilinear.build_grid` builds of the same lengths. -/
theorem omegaSurf_one_tile {o o' : Opts (Fl ℝ)} {dims dims' : Option (List String)} {coord coord' : String → Option (List ℚ)} {S T S' T' : Nd (Fl ℝ)}
    {P P' : PArg (Fl ℝ)} {v v' : ℕ} {pr pr' : List ℕ → ℕ → Fl ℝ} {pc pc' : PinCast} {m0 : List ℕ} {pin : ℝ}
    {e : ℝ → ℝ → ℝ → ℝ} {smin tol : ℝ} {k : ℕ} {b b' : List ℕ → ℕ → ℝ} {p p' : Nd (Fl ℝ)}
    {tile : String} (h1 : tile ≠ "i") (h2 : tile ≠ "j") {n : ℕ} {pj pi : Bool} {dxC dyC dyG dxG : ℕ → Fl ℝ} {dxC' dyC' dyG' dxG' : Grid.Data (Fl ℝ)} {x y yg xg : ℕ → ℕ → ℝ}
    (hx : Grid.broadcastTo n n dxC' = .ok fun i j => fin (x i j)) (hy : Grid.broadcastTo n n dyC' = .ok fun i j => fin (y i j))
    (hyg : Grid.broadcastTo n n dyG' = .ok fun i j => fin (yg i j)) (hxg : Grid.broadcastTo n n dxG' = .ok fun i j => fin (xg i j))
    (hs : ∀ j < n, ∀ i < n, dxC (Grid.cell n j i) = fin (x j i) ∧ dyC (Grid.cell n j i) = fin (y j i) ∧ dyG (Grid.cell n j i) = fin (yg j i) ∧ dxG (Grid.cell n j i) = fin (xg j i))
    (hsh : S.shape.eraseIdx v = [n, n]) (hsh' : S'.shape.eraseIdx v' = [1, n, n])
    (C : Call o dims coord S T P v pr (rectLinks n n pj pi x y yg xg) pc m0 pin e smin tol k b)
    (C' : Call o' dims' coord' S' T' P' v' pr' (rectLinks n n pj pi x y yg xg) pc' (0 :: m0) pin e smin tol k b')
    (hS : SameOcean o o' S T S' T' v v' pr pr' [n, n] [1, n, n] (fun m => 0 :: m) p p' m0 pin) :
    ∃ g g' out out' st st',
      Grid.rectGrid n n pj pi dxC' dyC' dyG' dxG' = .ok g ∧
      Grid.xgcmBuild n 1 tile [tile, "j", "i"] 'l' 'l' (Grid.edgeX n pi) (Grid.edgeY n pj) (.arr dxC) (.arr dyC) (.arr dyG) (.arr dxG) = some (.ok g') ∧
      omegaSurf o dims coord S T P ⟨g.edges, some g.dist, some g.distperp⟩ pc (.array p) = .ok ([n, n], out, st) ∧
      omegaSurf o' dims' coord' S' T' P' ⟨g'.edges, some g'.dist, some g'.distperp⟩ pc' (.array p') = .ok ([1, n, n], out', st') ∧
      (∀ j < n, ∀ i < n, out' [0, j, i] = out [j, i]) ∧ st'.last = st.last := by
  obtain ⟨g, e1, e2⟩ := rectGrid_links (p0 := pj) (p1 := pi) hx hy hyg hxg
  obtain ⟨g', L, e3, e4, hL⟩ := one_tile_links h1 h2 pj pi hs
  obtain ⟨out, out', st, st', r1, r2, r3, r4⟩ := omegaSurf_relabel (σ := fun m => 0 :: m) (τ := List.tail) (by rw [hsh, hsh']; exact tile_matching n) C (C'.reorder hL)
    (by rw [hsh, hsh']; exact hS) (by rw [hsh, hsh']; exact tile_links (by rw [← hsh]; exact C.within) hL)
  rw [hsh] at r1 r3
  rw [hsh'] at r2
  rw [← e2] at r1
  rw [← e4] at r2
  exact ⟨g, g', out, out', st, st', e1, e3, r1, r2, fun j hj i hi => r3 [j, i] (valid_pair hj hi), r4⟩

/-! ## Example: four casts, one of them land, with and without the dimension of tiles -/

noncomputable def sqS : Nd (Fl ℝ) := ⟨[5, 2, 2], fun i => if i.drop 1 = [1, 1] then Fl.nan else exCast.S.get (i.getD 0 0)⟩
noncomputable def sqT : Nd (Fl ℝ) := ⟨[5, 2, 2], fun i => if i.drop 1 = [1, 1] then Fl.nan else exCast.T.get (i.getD 0 0)⟩
noncomputable def tileS : Nd (Fl ℝ) := ⟨[5, 1, 2, 2], fun i => if i.drop 2 = [1, 1] then Fl.nan else exCast.S.get (i.getD 0 0)⟩
noncomputable def tileT : Nd (Fl ℝ) := ⟨[5, 1, 2, 2], fun i => if i.drop 2 = [1, 1] then Fl.nan else exCast.T.get (i.getD 0 0)⟩

theorem sq_links : rectLinks 2 2 false false (fun _ _ => 1) (fun _ _ => 2) (fun _ _ => 6) (fun _ _ => 6) =
    [⟨(2, 0), 1, 6⟩, ⟨(3, 1), 1, 6⟩, ⟨(1, 0), 2, 6⟩, ⟨(3, 2), 2, 6⟩] := by
  simp [rectLinks, Grid.flat, Grid.off, List.range_succ, Grid.cell, Grid.prev]

theorem sq_call {S T : Nd (Fl ℝ)} {m0 : List ℕ} (hsh : S.shape = [5, 2, 2] ∧ T.shape = [5, 2, 2] ∨ S.shape = [5, 1, 2, 2] ∧ T.shape = [5, 1, 2, 2])
    (hm0 : Valid (S.shape.eraseIdx 0) m0)
    (hc : ∀ m, Valid (S.shape.eraseIdx 0) m → ∃ l : Bool, (m = m0 → l = false) ∧ castAt S T (fun _ k => exCast.P.get k) 0 m = ⟨⟨5, fun k => if l then Fl.nan else exCast.S.get k⟩,
      ⟨5, fun k => if l then Fl.nan else exCast.T.get k⟩, exCast.P⟩)
    {f : String} {spsolve} {lsqr} {b} (hf : Formulated (ringO f spsolve lsqr) 2 b) :
    Call (ringO f spsolve lsqr) none (fun _ => none) S T (.small 5 exCast.P.get) 0 (fun _ k => exCast.P.get k)
      (rectLinks 2 2 false false (fun _ _ => 1) (fun _ _ => 2) (fun _ _ => 6) (fun _ _ => 6)) (.tuple (m0.map fun i : ℕ => (i : ℤ))) m0 1 (fun s t _ => s - t) 0 (1 / 100) 600 b where
  args := by
    rcases hsh with ⟨h, h'⟩ | ⟨h, h'⟩
    · exact ⟨rfl, by rw [h]; decide, by rw [h, h'], by rw [h]; rfl, fun _ _ => rfl⟩
    · exact ⟨rfl, by rw [h]; decide, by rw [h, h'], by rw [h]; rfl, fun _ _ => rfl⟩
  horiz := by rcases hsh with ⟨h, -⟩ | ⟨h, -⟩ <;> rw [h] <;> decide
  pin := rfl
  valid := hm0
  within := by
    have : (S.shape.eraseIdx 0).prod = 4 := by rcases hsh with ⟨h, -⟩ | ⟨h, -⟩ <;> rw [h] <;> rfl
    rw [sq_links, this]
    simp
  dist := by
    rw [sq_links]
    simp
  solver := by
    refine ⟨2, by norm_num, ?_, hf⟩
    rw [sq_links]
    simp only [List.mem_cons, List.not_mem_nil, or_false, forall_eq_or_imp, forall_eq]
    norm_num
  tolEq := rfl
  tolPos := by norm_num
  fuel := rfl
  enough := by
    have : (S.shape.eraseIdx 0).prod = 4 := by rcases hsh with ⟨h, -⟩ | ⟨h, -⟩ <;> rw [h] <;> rfl
    rw [this]
    show 4 < 613; norm_num
  eos := exEos
  der := fun _ _ _ _ => ⟨1, -1, rfl⟩
  casts := by
    intro m hm
    obtain ⟨l, -, hj⟩ := hc m hm
    rw [hj]
    cases l
    · right; simp only [Bool.false_eq_true, if_false]
      exact ⟨_, _, 1, 4, _, _, _, exGood, fun i _ _ => by split_ifs <;> norm_num, by norm_num, rfl, rfl⟩
    · left; simp only [if_true]; constructor <;> decide
  start := by
    obtain ⟨l, h, hj⟩ := hc m0 hm0
    rw [hj, h rfl]
    simp only [Bool.false_eq_true, if_false]
    exact ⟨0, 3, ⟨1, 4, _, _, _, exGood, fun i _ _ => by split_ifs <;> norm_num, by norm_num, by norm_num, by norm_num⟩, by norm_num, by norm_num⟩
  below := by intro x h; cases h
  diags := by intro _; show 1 ≤ 10; norm_num

example : ∃ spsolve lsqr g g' out out' st st',
    Grid.rectGrid 2 2 false false (.scalar (fin 1)) (.scalar (fin 2)) (.scalar (fin 6)) (.scalar (fin 6)) = .ok g ∧
    Grid.xgcmBuild 2 1 "face" ["face", "j", "i"] 'l' 'l' (Grid.edgeX 2 false) (Grid.edgeY 2 false) (.arr fun _ => fin 1) (.arr fun _ => fin 2) (.arr fun _ => fin 6)
      (.arr fun _ => fin 6) = some (.ok g') ∧
    omegaSurf (ringO "poisson" spsolve lsqr) none (fun _ => none) sqS sqT (.small 5 exCast.P.get) ⟨g.edges, some g.dist, some g.distperp⟩ (.tuple [0, 1])
      (.array ⟨[2, 2], fun m => fin (if m = [0, 0] then 2 else 1)⟩) = .ok ([2, 2], out, st) ∧
    omegaSurf (ringO "gradient" spsolve lsqr) none (fun _ => none) tileS tileT (.small 5 exCast.P.get) ⟨g'.edges, some g'.dist, some g'.distperp⟩ (.tuple [0, 0, 1])
      (.array ⟨[1, 2, 2], fun m => fin (if m = [0, 0, 0] then 2 else 1)⟩) = .ok ([1, 2, 2], out', st') ∧
    out' [0, 0, 0] = out [0, 0] ∧ out' [0, 1, 0] = out [1, 0] := by
  obtain ⟨⟨spsolve, hs⟩, ⟨lsqr, hl⟩⟩ := OmegaMat.exact_solvers_exist (α := ℝ)
  have C := sq_call (S := sqS) (T := sqT) (m0 := [0, 1]) (.inl ⟨rfl, rfl⟩) (valid_pair (by norm_num) (by norm_num)) (by
    intro m hm
    refine ⟨decide (m = [1, 1]), ?_, ?_⟩
    · rintro rfl; rfl
    · unfold castAt sqS sqT; simp; rfl) (f := "poisson") (spsolve := spsolve) (lsqr := lsqr)
    (.inl ⟨by show "poisson".toLower = _; decide +kernel, 0, le_rfl, hs.near, rfl⟩)
  have C' := sq_call (S := tileS) (T := tileT) (m0 := [0, 0, 1]) (.inr ⟨rfl, rfl⟩) (.cons (by norm_num) (valid_pair (by norm_num) (by norm_num))) (by
    intro m hm
    refine ⟨decide (m.drop 1 = [1, 1]), ?_, ?_⟩
    · rintro rfl; rfl
    · unfold castAt tileS tileT; simp; rfl) (f := "gradient") (spsolve := spsolve) (lsqr := lsqr)
    (.inr ⟨by show "gradient".toLower = _; decide +kernel, 0, le_rfl, hl.near, fun _ _ => rfl, rfl⟩)
  obtain ⟨g, g', out, out', st, st', e1, e2, h1, h2, h3, -⟩ := omegaSurf_one_tile (tile := "face") (by decide) (by decide) (n := 2)
    (dxC := fun _ => fin 1) (dyC := fun _ => fin 2) (dyG := fun _ => fin 6) (dxG := fun _ => fin 6)
    (dxC' := .scalar (fin 1)) (dyC' := .scalar (fin 2)) (dyG' := .scalar (fin 6)) (dxG' := .scalar (fin 6))
    (p := ⟨[2, 2], fun m => fin (if m = [0, 0] then 2 else 1)⟩) (p' := ⟨[1, 2, 2], fun m => fin (if m = [0, 0, 0] then 2 else 1)⟩)
    rfl rfl rfl rfl (fun _ _ _ _ => ⟨rfl, rfl, rfl, rfl⟩) rfl rfl C C' {
      casts := by
        intro m hm
        unfold castAt sqS sqT tileS tileT
        simp
      opts := ⟨rfl, rfl, rfl, rfl, rfl, rfl, rfl, rfl, rfl, by show 10 < 11; norm_num, by show 10 < 11; norm_num⟩
      pml := trivial
      exact := .inl ⟨by show "poisson".toLower = _; decide +kernel, hs⟩
      exact' := .inr ⟨by show "gradient".toLower = _; decide +kernel, hl, fun _ _ => rfl⟩
      shape := rfl
      shape' := rfl
      pin := by simp
      init := by
        intro m hm
        show (fin (if 0 :: m = [0, 0, 0] then 2 else 1) : Fl ℝ) = fin (if m = [0, 0] then 2 else 1)
        simp }
  exact ⟨spsolve, lsqr, g, g', out, out', st, st', e1, e2, h1, h2, h3 0 (by norm_num) 0 (by norm_num), h3 1 (by norm_num) 0 (by norm_num)⟩

end Omega
