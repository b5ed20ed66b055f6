import Verif.Lemmas.Grid

/-! # Properties of `/repo/neutralocean/grid/rectilinear.py`, `tripolar.py`, `xgcm.py` -/

namespace Grid
open FloatLike

set_option linter.unusedSectionVars false

/-! ## Specification -/

/-- Linear index of the cell in row `i` and column `j` of an array with rows of length `n`. -/
def cell (n i j : ℕ) : ℕ := i * n + j

/-- `i'` is the index before `i` in a dimension of length `n` which wraps around if `per`. -/
def Before (n : ℕ) (per : Bool) (i i' : ℕ) : Prop := i < n ∧ (i' + 1 = i ∨ (per = true ∧ i = 0 ∧ i' + 1 = n))

/-- index before `i` -/
def prev (n : ℕ) (per : Bool) (i : ℕ) : ℕ := if per then (i + n - 1) % n else i - 1

theorem before_iff (n : ℕ) (per : Bool) (i i' : ℕ) : Before n per i i' ↔ off per ≤ i ∧ i < n ∧ i' = prev n per i := by
  unfold Before prev off
  cases per
  · simp; omega
  · simp only [if_true, true_and, Nat.zero_le]
    constructor
    · rintro ⟨h, h' | h'⟩
      · refine ⟨h, ?_⟩
        have : i + n - 1 = i' + n := by omega
        rw [this, Nat.add_mod_right, Nat.mod_eq_of_lt (by omega)]
      · refine ⟨h, ?_⟩
        have : i + n - 1 = i' := by omega
        rw [this, Nat.mod_eq_of_lt (by omega)]
    · rintro ⟨h, h'⟩
      refine ⟨h, ?_⟩
      rcases Nat.eq_zero_or_pos i with h0 | h0
      · right
        have : i + n - 1 = n - 1 := by omega
        rw [this, Nat.mod_eq_of_lt (by omega)] at h'
        omega
      · left
        have : i + n - 1 = (i - 1) + n := by omega
        rw [this, Nat.add_mod_right, Nat.mod_eq_of_lt (by omega)] at h'
        omega

theorem rectEdges_eq (ni nj : ℕ) (p0 p1 : Bool) :
    rectEdges ni nj p0 p1 =
      flat (ni - off p0) nj (fun i j => (cell nj (i + off p0) j, cell nj (prev ni p0 (i + off p0)) j)) ++
      flat ni (nj - off p1) (fun i j => (cell nj i (j + off p1), cell nj i (prev nj p1 (j + off p1)))) := by
  unfold rectEdges
  cases p0 <;> cases p1 <;> simp [off, flat_zip, prev, cell]

/-! ## C19 -/

/-- **C19.** The edges are exactly: each cell with the cell before it in the first dimension, and each cell with the cell
before it in the second dimension, wrapping around only in periodic dimensions. -/
theorem rect_mem (ni nj : ℕ) (p0 p1 : Bool) (a b : ℕ) :
    (a, b) ∈ rectEdges ni nj p0 p1 ↔ ∃ i j, i < ni ∧ j < nj ∧ a = cell nj i j ∧
      ((∃ i', Before ni p0 i i' ∧ b = cell nj i' j) ∨ (∃ j', Before nj p1 j j' ∧ b = cell nj i j')) := by
  rw [rectEdges_eq, List.mem_append, mem_flat, mem_flat]
  simp only [before_iff, Prod.mk.injEq]
  constructor
  · rintro (⟨i, hi, j, hj, rfl, rfl⟩ | ⟨i, hi, j, hj, rfl, rfl⟩)
    · exact ⟨i + off p0, j, by omega, hj, rfl, Or.inl ⟨_, ⟨by omega, by omega, rfl⟩, rfl⟩⟩
    · exact ⟨i, j + off p1, hi, by omega, rfl, Or.inr ⟨_, ⟨by omega, by omega, rfl⟩, rfl⟩⟩
  · rintro ⟨i, j, hi, hj, rfl, ⟨i', ⟨h1, h2, rfl⟩, rfl⟩ | ⟨j', ⟨h1, h2, rfl⟩, rfl⟩⟩
    · exact Or.inl ⟨i - off p0, by omega, j, hj, by rw [Nat.sub_add_cancel h1], by rw [Nat.sub_add_cancel h1]⟩
    · exact Or.inr ⟨i, hi, j - off p1, by omega, by rw [Nat.sub_add_cancel h1], by rw [Nat.sub_add_cancel h1]⟩

/-- **C19.** The number of edges. -/
theorem rect_count (ni nj : ℕ) (p0 p1 : Bool) :
    (rectEdges ni nj p0 p1).length =
      (if p0 then ni * nj else (ni - 1) * nj) + (if p1 then ni * nj else ni * (nj - 1)) := by
  rw [rectEdges_eq, List.length_append, flat_length, flat_length]
  cases p0 <;> cases p1 <;> simp [off]

theorem before_lt {n : ℕ} {per : Bool} {i i' : ℕ} (h : Before n per i i') : i' < n := by
  unfold Before at h; omega

theorem before_unique {n : ℕ} {per : Bool} {i i' i'' : ℕ} (h : Before n per i i') (h' : Before n per i i'') : i' = i'' := by
  unfold Before at h h'; omega

/-- In a dimension that is not periodic or has at least 3 cells, no two cells are before each other and no cell before
itself. -/
theorem before_asymm {n : ℕ} {per : Bool} {i i' : ℕ} (hn : per = true → 3 ≤ n) (h : Before n per i i') :
    i' ≠ i ∧ ¬ Before n per i' i := by
  unfold Before at h ⊢
  cases per
  · simp only [Bool.false_eq_true, false_and, or_false] at h ⊢; omega
  · have := hn rfl; simp only [true_and] at h ⊢; omega

/-- **C19.** Each adjacency is listed once: no edge is repeated, none is listed in both directions, none joins a cell to
itself - provided that a periodic dimension has at least 3 cells. -/
theorem rect_simple (ni nj : ℕ) (p0 p1 : Bool) (h0 : p0 = true → 3 ≤ ni) (h1 : p1 = true → 3 ≤ nj) :
    (rectEdges ni nj p0 p1).Nodup ∧ (∀ a b, (a, b) ∈ rectEdges ni nj p0 p1 → a ≠ b ∧ (b, a) ∉ rectEdges ni nj p0 p1) := by
  constructor
  · rw [rectEdges_eq, List.nodup_append]
    refine ⟨?_, ?_, ?_⟩
    · apply flat_nodup
      intro i hi j hj i' hi' j' hj' e
      have := idx_inj hj hj' (Prod.ext_iff.1 e).1
      omega
    · apply flat_nodup
      intro i hi j hj i' hi' j' hj' e
      have := idx_inj (by omega) (by omega) (Prod.ext_iff.1 e).1
      omega
    · intro x hx y hy e
      subst e
      obtain ⟨i, hi, j, hj, rfl⟩ := (mem_flat ..).1 hx
      obtain ⟨i', hi', j', hj', e⟩ := (mem_flat ..).1 hy
      rw [Prod.ext_iff] at e
      obtain ⟨e1, e2⟩ := e
      have b0 : Before ni p0 (i + off p0) (prev ni p0 (i + off p0)) := (before_iff ..).2 ⟨by omega, by omega, rfl⟩
      have b1 : Before nj p1 (j' + off p1) (prev nj p1 (j' + off p1)) := (before_iff ..).2 ⟨by omega, by omega, rfl⟩
      have k1 := idx_inj (by omega) hj e1
      have k2 := idx_inj (before_lt b1) hj e2
      exact (before_asymm h0 b0).1 (by omega)
  · intro a b hab
    rw [rect_mem] at hab
    obtain ⟨i, j, hi, hj, rfl, h⟩ := hab
    constructor
    · rcases h with ⟨i', hb, rfl⟩ | ⟨j', hb, rfl⟩
      · intro e
        exact (before_asymm h0 hb).1 (idx_inj hj hj e).1.symm
      · intro e
        exact (before_asymm h1 hb).1 (idx_inj hj (before_lt hb) e).2.symm
    · intro hba
      rw [rect_mem] at hba
      obtain ⟨k, l, hk, hl, e, h'⟩ := hba
      rcases h with ⟨i', hb, rfl⟩ | ⟨j', hb, rfl⟩
      · obtain ⟨rfl, rfl⟩ := idx_inj hj hl e
        rcases h' with ⟨i'', hb', e'⟩ | ⟨j'', hb', e'⟩
        · obtain ⟨rfl, _⟩ := idx_inj hj hj e'
          exact (before_asymm h0 hb).2 hb'
        · obtain ⟨e1, _⟩ := idx_inj hj (before_lt hb') e'
          exact (before_asymm h0 hb).1 e1.symm
      · obtain ⟨rfl, rfl⟩ := idx_inj (before_lt hb) hl e
        rcases h' with ⟨i'', hb', e'⟩ | ⟨j'', hb', e'⟩
        · obtain ⟨_, e2⟩ := idx_inj hj (before_lt hb) e'
          exact (before_asymm h1 hb).1 e2.symm
        · obtain ⟨_, rfl⟩ := idx_inj hj (before_lt hb') e'
          exact (before_asymm h1 hb).2 hb'

/-- With a periodic dimension of 2 cells each pair of cells is listed twice (in both directions), with 1 cell it is joined to
itself: the condition in `rect_simple` is needed. -/
theorem rect_simple_small : rectEdges 2 1 true false = [(0, 1), (1, 0)] ∧ rectEdges 1 2 true false = [(0, 0), (1, 1), (1, 0)] := by
  decide

example : rectEdges 3 2 true false =
    [(0, 4), (1, 5), (2, 0), (3, 1), (4, 2), (5, 3), (1, 0), (3, 2), (5, 4)] := by decide

/-! ## C20 -/

variable {F : Type*} [FloatLike F]

/-- **C20.** Broadcasting: scalars, vectors along the second dimension and full arrays mean what they should. -/
theorem broadcastTo_spec (ni nj : ℕ) (hi : 0 < ni) (hj : 0 < nj) :
    (∀ x : F, ∃ g, broadcastTo ni nj (.scalar x) = .ok g ∧ ∀ i j, g i j = x) ∧
    (∀ f : ℕ → F, ∃ g, broadcastTo ni nj (.vec nj f) = .ok g ∧ ∀ i < ni, ∀ j < nj, g i j = f j) ∧
    (∀ f : ℕ → ℕ → F, ∃ g, broadcastTo ni nj (.mat ni nj f) = .ok g ∧ ∀ i < ni, ∀ j < nj, g i j = f i j) := by
  have hb : ∀ n i, i < n → bidx n i = i := by
    intro n i h; unfold bidx; split_ifs <;> omega
  refine ⟨fun x => ⟨_, rfl, fun _ _ => rfl⟩, fun f => ⟨_, if_pos (Or.inl rfl), fun i hi j hj => by rw [hb nj j hj]⟩,
    fun f => ⟨_, if_pos ⟨Or.inl rfl, Or.inl rfl⟩, fun i hi j hj => by rw [hb ni i hi, hb nj j hj]⟩⟩

theorem rect_get {A : Type*} (ni nj : ℕ) (p0 p1 : Bool) (f g : ℕ → ℕ → A) :
    (∀ i j, off p0 ≤ i → i < ni → j < nj →
      (flat (ni - off p0) nj (fun i j => f (i + off p0) j) ++ flat ni (nj - off p1) (fun i j => g i (j + off p1)))[(i - off p0) * nj + j]? = some (f i j)) ∧
    (∀ i j, off p1 ≤ j → i < ni → j < nj →
      (flat (ni - off p0) nj (fun i j => f (i + off p0) j) ++ flat ni (nj - off p1) (fun i j => g i (j + off p1)))[(ni - off p0) * nj + (i * (nj - off p1) + (j - off p1))]? = some (g i j)) := by
  constructor
  · intro i j h1 h2 h3
    have := flat_get (ni - off p0) nj (fun i j => f (i + off p0) j) (i - off p0) j (by omega) h3
    rw [Nat.sub_add_cancel h1] at this
    rw [List.getElem?_append_left]
    · exact this
    · exact (List.getElem?_eq_some_iff.1 this).1
  · intro i j h1 h2 h3
    have := flat_get ni (nj - off p1) (fun i j => g i (j + off p1)) i (j - off p1) h2 (by omega)
    rw [Nat.sub_add_cancel h1] at this
    rw [List.getElem?_append_right (by rw [flat_length]; omega), flat_length, Nat.add_sub_cancel_left]
    exact this

/-- every position in the edge list belongs to a cell -/
theorem rect_cover (ni nj o0 o1 k : ℕ) (hk : k < (ni - o0) * nj + ni * (nj - o1)) :
    (∃ i j, o0 ≤ i ∧ i < ni ∧ j < nj ∧ k = (i - o0) * nj + j) ∨
    (∃ i j, o1 ≤ j ∧ i < ni ∧ j < nj ∧ k = (ni - o0) * nj + (i * (nj - o1) + (j - o1))) := by
  rcases Nat.lt_or_ge k ((ni - o0) * nj) with hlt | hge
  · left
    have hnj : 0 < nj := by
      rcases Nat.eq_zero_or_pos nj with h | h
      · subst h; simp at hlt
      · exact h
    have hq : k / nj < ni - o0 := (Nat.div_lt_iff_lt_mul hnj).2 hlt
    generalize hqq : k / nj = q at hq
    refine ⟨q + o0, k % nj, by omega, by omega, Nat.mod_lt k hnj, ?_⟩
    subst hqq
    rw [Nat.add_sub_cancel, Nat.mul_comm]; exact (Nat.div_add_mod k nj).symm
  · right
    set r := k - (ni - o0) * nj with hr
    have hr' : r < ni * (nj - o1) := by omega
    have hm : 0 < nj - o1 := by
      rcases Nat.eq_zero_or_pos (nj - o1) with h | h
      · rw [h] at hr'; simp at hr'
      · exact h
    have hq : r / (nj - o1) < ni := (Nat.div_lt_iff_lt_mul hm).2 hr'
    have hmod := Nat.mod_lt r hm
    refine ⟨r / (nj - o1), r % (nj - o1) + o1, by omega, hq, by omega, ?_⟩
    rw [Nat.add_sub_cancel, Nat.mul_comm (r / (nj - o1)), Nat.div_add_mod]
    omega

/-- What it means for an edge list with two lists of distances to carry at each face the right distances. `Iface i j` are the
edges to the cell before in the first dimension. -/
structure Aligned (ni nj : ℕ) (p0 p1 : Bool) (edges : List (ℕ × ℕ)) (d q : List F) (x y yg xg : ℕ → ℕ → F) : Prop where
  len : d.length = edges.length ∧ q.length = edges.length
  iface : ∀ i j i' : ℕ, j < nj → Before ni p0 i i' → ∃ k : ℕ, edges[k]? = some (cell nj i j, cell nj i' j) ∧
    d[k]? = some (x i j) ∧ q[k]? = some (yg i j)
  jface : ∀ i j j' : ℕ, i < ni → Before nj p1 j j' → ∃ k : ℕ, edges[k]? = some (cell nj i j, cell nj i j') ∧
    d[k]? = some (y i j) ∧ q[k]? = some (xg i j)
  only : ∀ k : ℕ, k < edges.length →
    (∃ i j i' : ℕ, j < nj ∧ Before ni p0 i i' ∧ edges[k]? = some (cell nj i j, cell nj i' j) ∧
      d[k]? = some (x i j) ∧ q[k]? = some (yg i j)) ∨
    (∃ i j j' : ℕ, i < ni ∧ Before nj p1 j j' ∧ edges[k]? = some (cell nj i j, cell nj i j') ∧
      d[k]? = some (y i j) ∧ q[k]? = some (xg i j))

/-- **C20.** Edges and edge data of `build_grid` are aligned: the edge between cell `(i,j)` and the cell before it in the
first dimension carries `dxC[i,j]` and `dyG[i,j]`, the edge to the cell before it in the second dimension `dyC[i,j]` and
`dxG[i,j]`; these are all edges. -/
theorem rect_aligned (ni nj : ℕ) (p0 p1 : Bool) (dxC dyC dyG dxG : Data F) (x y yg xg : ℕ → ℕ → F)
    (hx : broadcastTo ni nj dxC = .ok x) (hy : broadcastTo ni nj dyC = .ok y)
    (hyg : broadcastTo ni nj dyG = .ok yg) (hxg : broadcastTo ni nj dxG = .ok xg) :
    ∃ g, rectGrid ni nj p0 p1 dxC dyC dyG dxG = .ok g ∧ g.edges = rectEdges ni nj p0 p1 ∧
      Aligned ni nj p0 p1 g.edges g.dist g.distperp x y yg xg := by
  refine ⟨⟨rectEdges ni nj p0 p1,
    flat (ni - off p0) nj (fun i j => x (i + off p0) j) ++ flat ni (nj - off p1) (fun i j => y i (j + off p1)),
    flat (ni - off p0) nj (fun i j => yg (i + off p0) j) ++ flat ni (nj - off p1) (fun i j => xg i (j + off p1))⟩,
    by unfold rectGrid rectData; simp only [hx, hy, hyg, hxg], rfl, ?_⟩
  have gx := rect_get ni nj p0 p1 x y
  have gy := rect_get ni nj p0 p1 yg xg
  have ge := rect_get ni nj p0 p1 (fun i j => (cell nj i j, cell nj (prev ni p0 i) j))
      (fun i j => (cell nj i j, cell nj i (prev nj p1 j)))
  rw [← rectEdges_eq] at ge
  have hl : (rectEdges ni nj p0 p1).length = (ni - off p0) * nj + ni * (nj - off p1) := by
    rw [rectEdges_eq, List.length_append, flat_length, flat_length]
  refine ⟨?_, ?_, ?_, ?_⟩
  · simp only [hl, List.length_append, flat_length, and_self]
  · intro i j i' hj hb
    rw [before_iff] at hb
    obtain ⟨h1, h2, rfl⟩ := hb
    exact ⟨_, ge.1 i j h1 h2 hj, gx.1 i j h1 h2 hj, gy.1 i j h1 h2 hj⟩
  · intro i j j' hi hb
    rw [before_iff] at hb
    obtain ⟨h1, h2, rfl⟩ := hb
    exact ⟨_, ge.2 i j h1 hi h2, gx.2 i j h1 hi h2, gy.2 i j h1 hi h2⟩
  · intro k hk
    dsimp only at hk
    rw [hl] at hk
    rcases rect_cover ni nj (off p0) (off p1) k hk with ⟨i, j, h1, h2, h3, rfl⟩ | ⟨i, j, h1, h2, h3, rfl⟩
    · exact Or.inl ⟨i, j, _, h3, (before_iff ..).2 ⟨h1, h2, rfl⟩, ge.1 i j h1 h2 h3, gx.1 i j h1 h2 h3, gy.1 i j h1 h2 h3⟩
    · exact Or.inr ⟨i, j, _, h2, (before_iff ..).2 ⟨h1, h3, rfl⟩, ge.2 i j h1 h2 h3, gx.2 i j h1 h2 h3, gy.2 i j h1 h2 h3⟩

/-- **C20.** `edgedata_to_maps` undoes the layout: on the edge data of two maps it returns these maps, with NaN exactly at the
first row / column of a dimension that is not periodic. -/
theorem rect_roundtrip (ni nj : ℕ) (p0 p1 : Bool) (d0 d1 : Data F) (x y : ℕ → ℕ → F)
    (hx : broadcastTo ni nj d0 = .ok x) (hy : broadcastTo ni nj d1 = .ok y) :
    ∃ e Fi Fj, rectData ni nj p0 p1 d0 d1 = .ok e ∧ rectMaps e ni nj p0 p1 = .ok (Fi, Fj) ∧
      ∀ i j, i < ni → j < nj →
        Fi i j = (if p0 = false ∧ i = 0 then nan else x i j) ∧ Fj i j = (if p1 = false ∧ j = 0 then nan else y i j) := by
  have gx := rect_get ni nj p0 p1 x y
  set e := flat (ni - off p0) nj (fun i j => x (i + off p0) j) ++ flat ni (nj - off p1) (fun i j => y i (j + off p1)) with he
  have hl : e.length = (ni - off p0) * nj + ni * (nj - off p1) := by
    rw [he, List.length_append, flat_length, flat_length]
  refine ⟨e, _, _, by unfold rectData; simp only [hx, hy, he], by unfold rectMaps; rw [if_pos ⟨by omega, by omega⟩], ?_⟩
  intro i j hi hj
  constructor
  · have hc : (i < off p0) ↔ (p0 = false ∧ i = 0) := by
      unfold off; cases p0 <;> simp
    by_cases h : i < off p0
    · rw [if_pos h, if_pos (hc.1 h)]
    · rw [if_neg h, if_neg (fun h' => h (hc.2 h'))]
      have := gx.1 i j (by omega) hi hj
      have hlt : (i - off p0) * nj + j < (ni - off p0) * nj := by
        calc (i - off p0) * nj + j < (i - off p0) * nj + nj := by omega
          _ = (i - off p0 + 1) * nj := by ring
          _ ≤ _ := Nat.mul_le_mul_right _ (by omega)
      rw [List.getD_eq_getElem?_getD, List.getElem?_take_of_lt hlt, this]
      rfl
  · have hc : (j < off p1) ↔ (p1 = false ∧ j = 0) := by
      unfold off; cases p1 <;> simp
    by_cases h : j < off p1
    · rw [if_pos h, if_pos (hc.1 h)]
    · rw [if_neg h, if_neg (fun h' => h (hc.2 h'))]
      have := gx.2 i j (by omega) hi hj
      rw [List.getD_eq_getElem?_getD, List.getElem?_drop, this]
      rfl

example : (match rectMaps [(.fin 1 : Fl ℚ), .fin 2, .fin 3, .fin 4] 2 2 false false with
    | .ok (Fi, Fj) => [Fi 0 0, Fi 1 0, Fi 1 1, Fj 0 0, Fj 0 1, Fj 1 1] | _ => []) =
    [.nan, .fin 1, .fin 2, .nan, .fin 3, .fin 4] := by decide +kernel

/-! ## C21: tripolar -/

theorem triEdges_eq (nj ni : ℕ) :
    triEdges nj ni = flat nj ni (fun j i => (triIdx nj ni j i, triIdx nj ni (j + 1) i)) ++
      flat nj ni (fun j i => (triIdx nj ni j i, triIdx nj ni j ((i + 1) % ni))) := by
  unfold triEdges; rw [flat_zip, flat_zip]

theorem triIdx_lt {nj ni j i : ℕ} (h : j < nj) : triIdx nj ni j i = cell ni j i := by
  unfold triIdx cell; rw [if_neg (by omega)]

/-- Specification of the neighbours listed for cell `(j, i)` (`j` latitude, `i` longitude): the cell to the north - in the last
row the cell across the fold - and the cell to the east, with wrapping. -/
inductive TriNext (nj ni j i : ℕ) : ℕ → ℕ → Prop
  | north : j + 1 < nj → TriNext nj ni j i (j + 1) i
  | fold (i' : ℕ) : j + 1 = nj → i + i' + 1 = ni → TriNext nj ni j i j i'
  | east : i + 1 < ni → TriNext nj ni j i j (i + 1)
  | wrap : i + 1 = ni → TriNext nj ni j i j 0

/-- **C21.** The edges are exactly those of a tripolar grid. -/
theorem tri_mem (nj ni a b : ℕ) :
    (a, b) ∈ triEdges nj ni ↔
      ∃ j i j' i', j < nj ∧ i < ni ∧ TriNext nj ni j i j' i' ∧ a = cell ni j i ∧ b = cell ni j' i' := by
  rw [triEdges_eq, List.mem_append, mem_flat, mem_flat]
  simp only [Prod.mk.injEq]
  constructor
  · rintro (⟨j, hj, i, hi, rfl, rfl⟩ | ⟨j, hj, i, hi, rfl, rfl⟩)
    · by_cases h : j + 1 = nj
      · refine ⟨j, i, j, ni - 1 - i, hj, hi, .fold _ h (by omega), triIdx_lt hj, ?_⟩
        unfold triIdx cell; rw [if_pos h]
        congr 2; omega
      · exact ⟨j, i, j + 1, i, hj, hi, .north (by omega), triIdx_lt hj, triIdx_lt (by omega)⟩
    · by_cases h : i + 1 = ni
      · refine ⟨j, i, j, 0, hj, hi, .wrap h, triIdx_lt hj, ?_⟩
        rw [triIdx_lt hj, h, Nat.mod_self]
      · refine ⟨j, i, j, i + 1, hj, hi, .east (by omega), triIdx_lt hj, ?_⟩
        rw [triIdx_lt hj, Nat.mod_eq_of_lt (by omega)]
  · rintro ⟨j, i, j', i', hj, hi, h, rfl, rfl⟩
    cases h with
    | north h => exact Or.inl ⟨j, hj, i, hi, triIdx_lt hj, triIdx_lt h⟩
    | fold _ h h' =>
      refine Or.inl ⟨j, hj, i, hi, triIdx_lt hj, ?_⟩
      unfold triIdx cell; rw [if_pos h]
      congr 1
      · congr 1; omega
      · omega
    | east h => exact Or.inr ⟨j, hj, i, hi, triIdx_lt hj, by rw [triIdx_lt hj, Nat.mod_eq_of_lt h]⟩
    | wrap h => exact Or.inr ⟨j, hj, i, hi, triIdx_lt hj, by rw [triIdx_lt hj, h, Nat.mod_self]⟩

/-- **C21.** Edge `j * ni + i` is the northern edge of cell `(j, i)` and carries `e2v[j,i]` and `e1v[j,i]`; edge
`nj * ni + j * ni + i` its eastern edge and carries `e1u[j,i]`, `e2u[j,i]`; there are no others. -/
theorem tri_aligned (nj ni : ℕ) (e1u e2v e2u e1v : Data F) (x v y w : ℕ → ℕ → F)
    (hx : broadcastTo nj ni e1u = .ok x) (hv : broadcastTo nj ni e2v = .ok v)
    (hy : broadcastTo nj ni e2u = .ok y) (hw : broadcastTo nj ni e1v = .ok w) :
    ∃ g, triGrid nj ni e1u e2v e2u e1v = .ok g ∧ g.edges = triEdges nj ni ∧
      g.edges.length = 2 * (nj * ni) ∧ g.dist.length = 2 * (nj * ni) ∧ g.distperp.length = 2 * (nj * ni) ∧
      ∀ j i : ℕ, j < nj → i < ni →
        (∃ j' i', (TriNext nj ni j i j' i' ∧ (j' = j + 1 ∨ j + 1 = nj ∧ i + i' + 1 = ni)) ∧
          g.edges[j * ni + i]? = some (cell ni j i, cell ni j' i') ∧
          g.dist[j * ni + i]? = some (v j i) ∧ g.distperp[j * ni + i]? = some (w j i)) ∧
        (∃ i', (i' = i + 1 ∧ i' < ni ∨ i + 1 = ni ∧ i' = 0) ∧
          g.edges[nj * ni + (j * ni + i)]? = some (cell ni j i, cell ni j i') ∧
          g.dist[nj * ni + (j * ni + i)]? = some (x j i) ∧ g.distperp[nj * ni + (j * ni + i)]? = some (y j i)) := by
  have get : ∀ {A : Type _} (f g : ℕ → ℕ → A) (j i : ℕ), j < nj → i < ni →
      (flat nj ni f ++ flat nj ni g)[j * ni + i]? = some (f j i) ∧
      (flat nj ni f ++ flat nj ni g)[nj * ni + (j * ni + i)]? = some (g j i) := by
    intro A f g j i hj hi
    have h1 := flat_get nj ni f j i hj hi
    have h2 := flat_get nj ni g j i hj hi
    constructor
    · rw [List.getElem?_append_left (List.getElem?_eq_some_iff.1 h1).1, h1]
    · rw [List.getElem?_append_right (by rw [flat_length]; omega), flat_length, Nat.add_sub_cancel_left, h2]
  refine ⟨⟨triEdges nj ni, flat nj ni v ++ flat nj ni x, flat nj ni w ++ flat nj ni y⟩,
    by unfold triGrid triData; simp only [hx, hv, hy, hw], rfl, ?_, ?_, ?_, ?_⟩
  · rw [triEdges_eq, List.length_append, flat_length, flat_length]; ring
  · rw [List.length_append, flat_length, flat_length]; ring
  · rw [List.length_append, flat_length, flat_length]; ring
  · intro j i hj hi
    have ge : (triEdges nj ni)[j * ni + i]? = some (triIdx nj ni j i, triIdx nj ni (j + 1) i) ∧
        (triEdges nj ni)[nj * ni + (j * ni + i)]? = some (triIdx nj ni j i, triIdx nj ni j ((i + 1) % ni)) := by
      rw [triEdges_eq]
      have h1 := flat_get nj ni (fun j i => (triIdx nj ni j i, triIdx nj ni (j + 1) i)) j i hj hi
      have h2 := flat_get nj ni (fun j i => (triIdx nj ni j i, triIdx nj ni j ((i + 1) % ni))) j i hj hi
      constructor
      · rw [List.getElem?_append_left (List.getElem?_eq_some_iff.1 h1).1, h1]
      · rw [List.getElem?_append_right (by rw [flat_length]; omega), flat_length, Nat.add_sub_cancel_left, h2]
    have gd := get v x j i hj hi
    have gq := get w y j i hj hi
    constructor
    · by_cases h : j + 1 = nj
      · refine ⟨j, ni - 1 - i, ⟨.fold _ h (by omega), Or.inr ⟨h, by omega⟩⟩, ?_, gd.1, gq.1⟩
        show (triEdges nj ni)[j * ni + i]? = _
        rw [ge.1, triIdx_lt hj]
        have : triIdx nj ni (j + 1) i = cell ni j (ni - 1 - i) := by
          unfold triIdx cell; rw [if_pos h]
          congr 2; omega
        rw [this]
      · refine ⟨j + 1, i, ⟨.north (by omega), Or.inl rfl⟩, ?_, gd.1, gq.1⟩
        show (triEdges nj ni)[j * ni + i]? = _
        rw [ge.1, triIdx_lt hj, triIdx_lt (by omega)]
    · by_cases h : i + 1 = ni
      · refine ⟨0, Or.inr ⟨h, rfl⟩, ?_, gd.2, gq.2⟩
        show (triEdges nj ni)[_]? = _
        rw [ge.2, triIdx_lt hj, triIdx_lt hj, h, Nat.mod_self]
      · refine ⟨i + 1, Or.inl ⟨rfl, by omega⟩, ?_, gd.2, gq.2⟩
        show (triEdges nj ni)[_]? = _
        rw [ge.2, triIdx_lt hj, triIdx_lt hj, Nat.mod_eq_of_lt (by omega)]

/-- **C21.** `edgedata_to_maps` returns the maps that were laid out. -/
theorem tri_roundtrip (nj ni : ℕ) (d0 d1 : Data F) (x y : ℕ → ℕ → F)
    (hx : broadcastTo nj ni d0 = .ok x) (hy : broadcastTo nj ni d1 = .ok y) :
    ∃ e v u, triData nj ni d0 d1 = .ok e ∧ triMaps e nj ni = .ok (v, u) ∧
      ∀ j i, j < nj → i < ni → v j i = x j i ∧ u j i = y j i := by
  refine ⟨flat nj ni x ++ flat nj ni y, _, _, by unfold triData; simp only [hx, hy],
    by unfold triMaps; rw [if_pos (by rw [List.length_append, flat_length, flat_length, Nat.mul_comm ni nj]; omega)], ?_⟩
  intro j i hj hi
  have h1 := flat_get nj ni x j i hj hi
  have h2 := flat_get nj ni y j i hj hi
  have hl : (flat nj ni x).length = ni * nj := by rw [flat_length, Nat.mul_comm]
  constructor
  · rw [← hl, List.take_left, List.getD_eq_getElem?_getD, h1]; rfl
  · rw [← hl, List.drop_left, List.getD_eq_getElem?_getD, h2]; rfl

/-- **C73 is false (each adjacency once):** every adjacency across the north fold is listed twice, in both directions, and
with an odd number of columns the middle cell of the last row is joined to itself.  For all grid sizes. -/
theorem tri_fold_twice (nj ni : ℕ) (hj : 0 < nj) (i i' : ℕ) (h : i + i' + 1 = ni) :
    (cell ni (nj - 1) i, cell ni (nj - 1) i') ∈ triEdges nj ni ∧
    (cell ni (nj - 1) i', cell ni (nj - 1) i) ∈ triEdges nj ni := by
  rw [tri_mem, tri_mem]
  exact ⟨⟨nj - 1, i, nj - 1, i', by omega, by omega, .fold _ (by omega) h, rfl, rfl⟩,
    ⟨nj - 1, i', nj - 1, i, by omega, by omega, .fold _ (by omega) (by omega), rfl, rfl⟩⟩

example : triEdges 2 3 = [(0, 3), (1, 4), (2, 5), (3, 5), (4, 4), (5, 3), (0, 1), (1, 2), (2, 0), (3, 4), (4, 5), (5, 3)] := by decide

/-! ## C22 -/

/-- **C22 is false as documented:** data of the padded shape `(nj+1, ni+2)` is refused for every grid, in any argument. -/
theorem tri_padded_false (nj ni : ℕ) (hj : 0 < nj) (f : ℕ → ℕ → F) (u : Data F) :
    triData nj ni (.mat (nj + 1) (ni + 2) f) u = .valueError ∧ triData nj ni u (.mat (nj + 1) (ni + 2) f) = .valueError := by
  have : broadcastTo nj ni (.mat (nj + 1) (ni + 2) f) = .valueError := by
    unfold broadcastTo
    dsimp only
    rw [if_neg (by omega)]
  unfold triData
  constructor
  · rw [this]
  · rw [this]; cases broadcastTo nj ni u <;> rfl

/-- **C22, partial:** data of shape `(nj, ni)` is taken (all cells, as given).  Missing: padded data, see `tri_padded_false`. -/
theorem tri_unpadded_partial (nj ni : ℕ) (hj : 0 < nj) (hi : 0 < ni) (f g : ℕ → ℕ → F) :
    ∃ e v u, triData nj ni (.mat nj ni f) (.mat nj ni g) = .ok e ∧ triMaps e nj ni = .ok (v, u) ∧
      ∀ j i, j < nj → i < ni → v j i = f j i ∧ u j i = g j i := by
  obtain ⟨x, hx, hx'⟩ := (broadcastTo_spec (F := F) nj ni hj hi).2.2 f
  obtain ⟨y, hy, hy'⟩ := (broadcastTo_spec (F := F) nj ni hj hi).2.2 g
  obtain ⟨e, v, u, h1, h2, h3⟩ := tri_roundtrip nj ni _ _ x y hx hy
  exact ⟨e, v, u, h1, h2, fun j i a b => ⟨by rw [(h3 j i a b).1, hx' j a i b], by rw [(h3 j i a b).2, hy' j a i b]⟩⟩

/-! ## C23, C74: xgcm -/

theorem zip_rows {A B C : Type*} (l : List ℕ) (f : ℕ → A) (g : ℕ → B) (h : ℕ → C) :
    l.zip ((l.map f).zip ((l.map g).zip (l.map h))) = l.map fun m => (m, f m, g m, h m) := by
  induction l with
  | nil => rfl
  | cons x l ih => simp only [List.map_cons, List.zip_cons_cons, ih]

/-- **C74.** For array distances the edges are exactly node `m` with its neighbour `im1 m` and with `jm1 m`, where these
exist, in order of `m`, first all of `im1`. -/
theorem xgcm_edges (N : ℕ) (im1 jm1 : ℕ → ℤ) (dxC dyC dyG dxG : ℕ → F) :
    ∃ g, xgcmGrid N im1 jm1 (.arr dxC) (.arr dyC) (.arr dyG) (.arr dxG) = .ok g ∧
      let I := (List.range N).filter fun m => decide (0 ≤ im1 m)
      let J := (List.range N).filter fun m => decide (0 ≤ jm1 m)
      g.edges = I.map (fun m => (m, (im1 m).toNat)) ++ J.map (fun m => (m, (jm1 m).toNat)) ∧
      g.dist = I.map dyC ++ J.map dxC ∧ g.distperp = I.map dxG ++ J.map dyG := by
  unfold xgcmGrid
  dsimp only
  refine ⟨_, rfl, ?_⟩
  have e : (List.range N ++ List.range N).zip (((List.range N).map im1 ++ (List.range N).map jm1).zip
      (((List.range N).map dyC ++ (List.range N).map dxC).zip ((List.range N).map dxG ++ (List.range N).map dyG))) =
      (List.range N).map (fun m => (m, im1 m, dyC m, dxG m)) ++ (List.range N).map (fun m => (m, jm1 m, dxC m, dyG m)) := by
    rw [List.zip_append (by simp), List.zip_append (by simp), List.zip_append (by simp), zip_rows, zip_rows]
  simp only [e, List.filter_append, List.map_append, List.filter_map, List.map_map, Function.comp_def, and_self]

theorem scatter_spec (good : ℕ → Bool) (f : ℕ → F) (N m : ℕ) (hm : m < N) :
    scatter good (((List.range N).filter good).map f) m = if good m then f m else nan := by
  unfold scatter
  by_cases h : good m = true
  · rw [if_pos h, if_pos h]
    have e : List.range N = List.range m ++ m :: (List.range' (m + 1) (N - m - 1)) := by
      have h1 : List.range N = List.range' 0 (m + (1 + (N - m - 1))) := by
        rw [List.range_eq_range']; congr 1; omega
      rw [h1, ← List.range'_append_1, ← List.range'_append_1, List.range_eq_range']
      simp
    rw [e, List.filter_append, List.filter_cons, if_pos h]
    simp [List.getD_eq_getElem?_getD]
  · rw [if_neg h, if_neg h]

/-- **C74.** `edgedata_to_maps` undoes the layout: maps laid out as edge data (values at nodes that have a neighbour `im1`,
then at those that have a neighbour `jm1`) are returned, with NaN exactly at nodes without the neighbour. -/
theorem xgcm_roundtrip (N : ℕ) (im1 jm1 : ℕ → ℤ) (f g : ℕ → F) :
    ∃ Fi Fj, xgcmMaps (((List.range N).filter fun m => decide (0 ≤ im1 m)).map f ++
        ((List.range N).filter fun m => decide (0 ≤ jm1 m)).map g) N im1 jm1 = .ok (Fi, Fj) ∧
      ∀ m < N, Fi m = (if 0 ≤ im1 m then f m else nan) ∧ Fj m = (if 0 ≤ jm1 m then g m else nan) := by
  unfold xgcmMaps
  dsimp only
  rw [if_pos (by simp)]
  refine ⟨_, _, rfl, fun m hm => ?_⟩
  constructor
  · rw [show ((List.range N).filter fun m => decide (0 ≤ im1 m)).length =
      (((List.range N).filter fun m => decide (0 ≤ im1 m)).map f).length by simp, List.take_left, scatter_spec _ _ _ _ hm]
    simp
  · rw [show ((List.range N).filter fun m => decide (0 ≤ im1 m)).length =
      (((List.range N).filter fun m => decide (0 ≤ im1 m)).map f).length by simp, List.drop_left, scatter_spec _ _ _ _ hm]
    simp

/-- **C23 is false as documented:** for all tiles and data, the edge to the neighbour in the `i` dimension carries `dyC` and
`dxG` (documented: `dxC`, `dyG`), and the edge to the neighbour in the `j` dimension carries `dxC` and `dyG`; so
`edgedata_to_maps` of the built distances returns `dyC` as the map for the `i` dimension. -/
theorem xgcm_swapped_false (N : ℕ) (im1 jm1 : ℕ → ℤ) (dxC dyC dyG dxG : ℕ → F) :
    ∃ g Fi Fj, xgcmGrid N im1 jm1 (.arr dxC) (.arr dyC) (.arr dyG) (.arr dxG) = .ok g ∧
      xgcmMaps g.dist N im1 jm1 = .ok (Fi, Fj) ∧
      (∀ m < N, 0 ≤ im1 m → Fi m = dyC m) ∧ (∀ m < N, 0 ≤ jm1 m → Fj m = dxC m) := by
  obtain ⟨g, h1, _, h2, _⟩ := xgcm_edges N im1 jm1 dxC dyC dyG dxG
  obtain ⟨Fi, Fj, h3, h4⟩ := xgcm_roundtrip N im1 jm1 dyC dxC
  exact ⟨g, Fi, Fj, h1, by rw [h2]; exact h3, fun m hm h => by rw [(h4 m hm).1, if_pos h], fun m hm h => by rw [(h4 m hm).2, if_pos h]⟩

/-- **C23, partial:** the documented association does hold when the two distances agree.  Missing: all other grids. -/
theorem xgcm_isotropic_partial (N : ℕ) (im1 jm1 : ℕ → ℤ) (d q : ℕ → F) :
    ∃ g Fi Fj, xgcmGrid N im1 jm1 (.arr d) (.arr d) (.arr q) (.arr q) = .ok g ∧
      xgcmMaps g.dist N im1 jm1 = .ok (Fi, Fj) ∧
      (∀ m < N, 0 ≤ im1 m → Fi m = d m) ∧ (∀ m < N, 0 ≤ jm1 m → Fj m = d m) :=
  xgcm_swapped_false N im1 jm1 d d q q

/-- A grid where the documented distance differs: witness. -/
theorem xgcm_swapped_witness :
    (match xgcmGrid 2 (fun m => (m : ℤ) - 1) (fun _ => -1) (.arr fun _ => (.fin 1 : Fl ℚ)) (.arr fun _ => .fin 2)
      (.arr fun _ => .fin 3) (.arr fun _ => .fin 4) with
    | .ok g => some (g.edges, g.dist, g.distperp) | _ => none) = some ([(1, 0)], [.fin 2], [.fin 4]) := by decide +kernel

/-- Finding: a documented float argument (also the default 1.0) raises `AttributeError`. -/
theorem xgcm_scalar_false (N : ℕ) (im1 jm1 : ℕ → ℤ) (x : F) (a b c : XData F) :
    xgcmGrid N im1 jm1 (.scalar x) a b c = .attributeError ∧ xgcmGrid N im1 jm1 a (.scalar x) b c = .attributeError ∧
    xgcmGrid N im1 jm1 a b (.scalar x) c = .attributeError ∧ xgcmGrid N im1 jm1 a b c (.scalar x) = .attributeError := by
  refine ⟨rfl, ?_, ?_, ?_⟩ <;> cases a <;> cases b <;> cases c <;> rfl

end Grid
