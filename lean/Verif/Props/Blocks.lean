import Verif.Props.OneTile

/-! # A rectilinear grid cut into square tiles (C190) -/

set_option linter.unusedSectionVars false

namespace Grid

/-- the links of `N` cells with a cell before them, of those that have one -/
def linksOf (N : ℕ) (before : ℕ → ℤ) : List (ℕ × ℕ) := ((List.range N).filter fun m => decide (0 ≤ before m)).map fun m => (m, (before m).toNat)

theorem linksOf_nodup (N : ℕ) (before : ℕ → ℤ) : (linksOf N before).Nodup :=
  List.Nodup.map_on (fun _ _ _ _ e => congrArg Prod.fst e) (List.nodup_range.filter _)

theorem mem_linksOf {N : ℕ} {before : ℕ → ℤ} {a b : ℕ} : (a, b) ∈ linksOf N before ↔ a < N ∧ before a = b := by
  unfold linksOf
  rw [List.mem_map]
  constructor
  · rintro ⟨m, hm, e⟩
    obtain ⟨h1, h2⟩ := List.mem_filter.1 hm
    have h2 : 0 ≤ before m := by simpa using h2
    obtain ⟨rfl, rfl⟩ := Prod.mk.inj e
    exact ⟨List.mem_range.1 h1, by omega⟩
  · rintro ⟨h1, h2⟩
    exact ⟨a, List.mem_filter.2 ⟨List.mem_range.2 h1, by rw [h2]; simp⟩, by rw [h2]; rfl⟩

/-- `φ` numbers the cells of a rectangle by `0`, …, `N - 1`. -/
structure Numbering (n0 n1 N : ℕ) (φ : ℕ → ℕ → ℕ) : Prop where
  lt : ∀ j < n0, ∀ i < n1, φ j i < N
  inj : ∀ j < n0, ∀ i < n1, ∀ j' < n0, ∀ i' < n1, φ j i = φ j' i' → j = j' ∧ i = i'
  surj : ∀ m < N, ∃ j < n0, ∃ i < n1, m = φ j i

theorem off_cases (p : Bool) : off p = 0 ∧ p = true ∨ off p = 1 ∧ p = false := by
  cases p
  · exact Or.inr ⟨rfl, rfl⟩
  · exact Or.inl ⟨rfl, rfl⟩

theorem Numbering.second {n0 n1 N : ℕ} {φ : ℕ → ℕ → ℕ} (H : Numbering n0 n1 N φ) {p : Bool} {before : ℕ → ℤ}
    (h : ∀ j < n0, ∀ i < n1, before (φ j i) = if i = 0 then (if p then (φ j (n1 - 1) : ℤ) else -1) else (φ j (i - 1) : ℤ)) :
    (linksOf N before).Perm (flat n0 (n1 - off p) fun j i => (φ j (i + off p), φ j (prev n1 p (i + off p)))) := by
  have ho := off_cases p
  rw [List.perm_ext_iff_of_nodup (linksOf_nodup N before) (flat_nodup _ _ _ fun j hj i hi j' hj' i' hi' e => ?_)]
  · rintro ⟨a, b⟩
    rw [mem_linksOf, mem_flat]
    constructor
    · rintro ⟨ha, e⟩
      obtain ⟨j, hj, i, hi, rfl⟩ := H.surj a ha
      rw [h j hj i hi] at e
      rcases Nat.eq_zero_or_pos i with rfl | h0
      · rw [if_pos rfl] at e
        rcases ho with ⟨o1, rfl⟩ | ⟨o1, rfl⟩
        · rw [if_pos rfl] at e
          refine ⟨j, hj, 0, by omega, ?_⟩
          rw [o1, Nat.add_zero, prev_zero (by omega)]
          exact congrArg _ (by exact_mod_cast e)
        · rw [if_neg (by decide)] at e; omega
      · rw [if_neg (by omega)] at e
        refine ⟨j, hj, i - off p, by omega, ?_⟩
        rw [show i - off p + off p = i from by omega, prev_of_pos h0 hi]
        exact congrArg _ (by exact_mod_cast e)
    · rintro ⟨j, hj, i, hi, e⟩
      obtain ⟨rfl, rfl⟩ := Prod.mk.inj e
      refine ⟨H.lt j hj _ (by omega), ?_⟩
      rw [h j hj _ (by omega)]
      rcases Nat.eq_zero_or_pos (i + off p) with h0 | h0
      · rw [if_pos h0, h0]
        rcases ho with ⟨o1, rfl⟩ | ⟨o1, rfl⟩
        · rw [if_pos rfl, prev_zero (by omega)]
        · omega
      · rw [if_neg (by omega), prev_of_pos h0 (by omega)]
  · obtain ⟨h1, h2⟩ := H.inj j hj _ (show i + off p < n1 by omega) j' hj' _ (show i' + off p < n1 by omega) (congrArg Prod.fst e)
    exact ⟨h1, by omega⟩

theorem Numbering.first {n0 n1 N : ℕ} {φ : ℕ → ℕ → ℕ} (H : Numbering n0 n1 N φ) {p : Bool} {before : ℕ → ℤ}
    (h : ∀ j < n0, ∀ i < n1, before (φ j i) = if j = 0 then (if p then (φ (n0 - 1) i : ℤ) else -1) else (φ (j - 1) i : ℤ)) :
    (linksOf N before).Perm (flat (n0 - off p) n1 fun j i => (φ (j + off p) i, φ (prev n0 p (j + off p)) i)) := by
  have ho := off_cases p
  rw [List.perm_ext_iff_of_nodup (linksOf_nodup N before) (flat_nodup _ _ _ fun j hj i hi j' hj' i' hi' e => ?_)]
  · rintro ⟨a, b⟩
    rw [mem_linksOf, mem_flat]
    constructor
    · rintro ⟨ha, e⟩
      obtain ⟨j, hj, i, hi, rfl⟩ := H.surj a ha
      rw [h j hj i hi] at e
      rcases Nat.eq_zero_or_pos j with rfl | h0
      · rw [if_pos rfl] at e
        rcases ho with ⟨o1, rfl⟩ | ⟨o1, rfl⟩
        · rw [if_pos rfl] at e
          refine ⟨0, by omega, i, hi, ?_⟩
          rw [o1, Nat.add_zero, prev_zero (by omega)]
          exact congrArg _ (by exact_mod_cast e)
        · rw [if_neg (by decide)] at e; omega
      · rw [if_neg (by omega)] at e
        refine ⟨j - off p, by omega, i, hi, ?_⟩
        rw [show j - off p + off p = j from by omega, prev_of_pos h0 hj]
        exact congrArg _ (by exact_mod_cast e)
    · rintro ⟨j, hj, i, hi, e⟩
      obtain ⟨rfl, rfl⟩ := Prod.mk.inj e
      refine ⟨H.lt _ (by omega) i hi, ?_⟩
      rw [h _ (by omega) i hi]
      rcases Nat.eq_zero_or_pos (j + off p) with h0 | h0
      · rw [if_pos h0, h0]
        rcases ho with ⟨o1, rfl⟩ | ⟨o1, rfl⟩
        · rw [if_pos rfl, prev_zero (by omega)]
        · omega
      · rw [if_neg (by omega), prev_of_pos h0 (by omega)]
  · obtain ⟨h1, h2⟩ := H.inj _ (show j + off p < n0 by omega) i hi _ (show j' + off p < n0 by omega) i' hi' (congrArg Prod.fst e)
    exact ⟨by omega, h2⟩

/-! ## Blocks -/

/-- Specification: row `J`, column `I` of a rectangle of `mj` by `mi` tiles of `n` by `n` cells is cell `(J % n, I % n)` of the tile in row `J / n` and column `I / n`. -/
def blockCell (n mi J I : ℕ) : ℕ := tcell n (J / n * mi + I / n) (J % n) (I % n)

/-- Specification: what lies before the first cells of the rows of tile `t`, in the dimension `i`: the last cells of the tile to the left; for the first tile of a row of tiles those of
the last one if periodic and else nothing. -/
def blockX (n mi : ℕ) (per : Bool) (t j : ℕ) : ℤ :=
  if t % mi = 0 then (if per then (tcell n (t + (mi - 1)) j (n - 1) : ℤ) else -1) else (tcell n (t - 1) j (n - 1) : ℤ)

/-- the same in the dimension `j` -/
def blockY (n mj mi : ℕ) (per : Bool) (t i : ℕ) : ℤ :=
  if t / mi = 0 then (if per then (tcell n (t + (mj - 1) * mi) (n - 1) i : ℤ) else -1) else (tcell n (t - mi) (n - 1) i : ℤ)

theorem div_cell {n a b : ℕ} (h : b < n) : cell n a b / n = a ∧ cell n a b % n = b := by
  unfold cell
  have hn : 0 < n := by omega
  constructor
  · rw [Nat.mul_comm, Nat.mul_add_div hn, Nat.div_eq_of_lt h, Nat.add_zero]
  · rw [Nat.mul_comm, Nat.mul_add_mod, Nat.mod_eq_of_lt h]

theorem cell_surj {n a m : ℕ} (h : m < a * n) : ∃ i < a, ∃ j < n, m = cell n i j := by
  have hn : 0 < n := by
    rcases Nat.eq_zero_or_pos n with rfl | h'
    · omega
    · exact h'
  exact ⟨m / n, (Nat.div_lt_iff_lt_mul hn).2 h, m % n, Nat.mod_lt _ hn, by unfold cell; rw [Nat.mul_comm]; exact (Nat.div_add_mod m n).symm⟩

theorem cell_bound {n a i j : ℕ} (hi : i < a) (hj : j < n) : cell n i j < a * n := by
  unfold cell
  calc i * n + j < i * n + n := by omega
    _ = (i + 1) * n := by ring
    _ ≤ a * n := Nat.mul_le_mul_right _ hi

theorem blockCell_eq {n mi tj j ti i : ℕ} (hj : j < n) (hi : i < n) : blockCell n mi (cell n tj j) (cell n ti i) = tcell n (cell mi tj ti) j i := by
  unfold blockCell
  rw [(div_cell hj).1, (div_cell hj).2, (div_cell hi).1, (div_cell hi).2]
  rfl

theorem tcell_eq (n t j i : ℕ) : tcell n t j i = cell n (cell n t j) i := rfl

theorem block_numbering (n mj mi : ℕ) : Numbering (mj * n) (mi * n) (mj * mi * n * n) (blockCell n mi) where
  lt J hJ I hI := by
    obtain ⟨tj, h1, j, h2, rfl⟩ := cell_surj hJ
    obtain ⟨ti, h3, i, h4, rfl⟩ := cell_surj hI
    rw [blockCell_eq h2 h4, tcell_eq]
    exact cell_bound (cell_bound (cell_bound h1 h3) h2) h4
  inj J hJ I hI J' hJ' I' hI' e := by
    obtain ⟨tj, h1, j, h2, rfl⟩ := cell_surj hJ
    obtain ⟨ti, h3, i, h4, rfl⟩ := cell_surj hI
    obtain ⟨tj', h1', j', h2', rfl⟩ := cell_surj hJ'
    obtain ⟨ti', h3', i', h4', rfl⟩ := cell_surj hI'
    rw [blockCell_eq h2 h4, blockCell_eq h2' h4', tcell_eq, tcell_eq] at e
    obtain ⟨e1, rfl⟩ := idx_inj h4 h4' e
    obtain ⟨e2, rfl⟩ := idx_inj h2 h2' e1
    obtain ⟨rfl, rfl⟩ := idx_inj h3 h3' e2
    exact ⟨rfl, rfl⟩
  surj m hm := by
    obtain ⟨r, h1, i, h2, rfl⟩ := cell_surj hm
    obtain ⟨t, h3, j, h4, rfl⟩ := cell_surj h1
    obtain ⟨tj, h5, ti, h6, rfl⟩ := cell_surj h3
    exact ⟨cell n tj j, cell_bound h5 h4, cell n ti i, cell_bound h6 h2, by rw [blockCell_eq h4 h2, tcell_eq]⟩

theorem cell_last {n m : ℕ} (hn : 0 < n) (hm : 0 < m) : m * n - 1 = cell n (m - 1) (n - 1) := by
  unfold cell
  obtain ⟨k, rfl⟩ : ∃ k, m = k + 1 := ⟨m - 1, by omega⟩
  rw [Nat.add_mul, Nat.add_sub_cancel, Nat.one_mul]
  omega

theorem cell_pred {n t i : ℕ} (h : i < n) (h0 : cell n t i ≠ 0) : cell n t i - 1 = if i = 0 then cell n (t - 1) (n - 1) else cell n t (i - 1) := by
  unfold cell at h0 ⊢
  split
  · rename_i hi
    subst hi
    have ht : t ≠ 0 := by rintro rfl; simp at h0
    obtain ⟨k, rfl⟩ : ∃ k, t = k + 1 := ⟨t - 1, by omega⟩
    rw [Nat.add_mul, Nat.add_sub_cancel, Nat.one_mul]
    omega
  · omega

theorem blockX_before {n mj mi : ℕ} {per : Bool} {im1 : ℕ → ℤ}
    (h : ∀ t < mj * mi, ∀ j < n, ∀ i < n, im1 (tcell n t j i) = if i = 0 then blockX n mi per t j else (tcell n t j (i - 1) : ℤ)) :
    ∀ J < mj * n, ∀ I < mi * n, im1 (blockCell n mi J I) = if I = 0 then (if per then (blockCell n mi J (mi * n - 1) : ℤ) else -1) else (blockCell n mi J (I - 1) : ℤ) := by
  intro J hJ I hI
  obtain ⟨tj, h1, j, h2, rfl⟩ := cell_surj hJ
  obtain ⟨ti, h3, i, h4, rfl⟩ := cell_surj hI
  have hn : n - 1 < n := by omega
  rw [blockCell_eq h2 h4, h _ (cell_bound h1 h3) j h2 i h4, cell_last (by omega) (by omega), blockCell_eq h2 hn]
  unfold blockX
  rw [(div_cell h3).2]
  by_cases h0 : cell n ti i = 0
  · have : ti = 0 ∧ i = 0 := by
      unfold cell at h0
      have : ti * n = 0 := by omega
      rcases Nat.mul_eq_zero.1 this with h | h <;> omega
    obtain ⟨rfl, rfl⟩ := this
    rw [if_pos rfl, if_pos rfl, if_pos h0]
    have : cell mi tj 0 + (mi - 1) = cell mi tj (mi - 1) := by unfold cell; omega
    rw [this]
  · rw [if_neg h0, cell_pred h4 h0]
    by_cases hi : i = 0
    · subst hi
      have hti : ti ≠ 0 := by rintro rfl; exact h0 (by unfold cell; omega)
      rw [if_pos rfl, if_neg hti, if_pos rfl, blockCell_eq h2 hn]
      have : cell mi tj ti - 1 = cell mi tj (ti - 1) := by unfold cell; omega
      rw [this]
    · rw [if_neg hi, if_neg hi, blockCell_eq h2 (by omega)]

theorem blockY_before {n mj mi : ℕ} {per : Bool} {jm1 : ℕ → ℤ}
    (h : ∀ t < mj * mi, ∀ j < n, ∀ i < n, jm1 (tcell n t j i) = if j = 0 then blockY n mj mi per t i else (tcell n t (j - 1) i : ℤ)) :
    ∀ J < mj * n, ∀ I < mi * n, jm1 (blockCell n mi J I) = if J = 0 then (if per then (blockCell n mi (mj * n - 1) I : ℤ) else -1) else (blockCell n mi (J - 1) I : ℤ) := by
  intro J hJ I hI
  obtain ⟨tj, h1, j, h2, rfl⟩ := cell_surj hJ
  obtain ⟨ti, h3, i, h4, rfl⟩ := cell_surj hI
  have hn : n - 1 < n := by omega
  rw [blockCell_eq h2 h4, h _ (cell_bound h1 h3) j h2 i h4, cell_last (by omega) (by omega), blockCell_eq hn h4]
  unfold blockY
  rw [(div_cell h3).1]
  by_cases h0 : cell n tj j = 0
  · have : tj = 0 ∧ j = 0 := by
      unfold cell at h0
      have : tj * n = 0 := by omega
      rcases Nat.mul_eq_zero.1 this with h | h <;> omega
    obtain ⟨rfl, rfl⟩ := this
    rw [if_pos rfl, if_pos rfl, if_pos h0]
    have : cell mi 0 ti + (mj - 1) * mi = cell mi (mj - 1) ti := by unfold cell; omega
    rw [this]
  · rw [if_neg h0, cell_pred h2 h0]
    by_cases hj : j = 0
    · subst hj
      have htj : tj ≠ 0 := by rintro rfl; exact h0 (by unfold cell; omega)
      rw [if_pos rfl, if_neg htj, if_pos rfl, blockCell_eq hn h4]
      have : cell mi tj ti - mi = cell mi (tj - 1) ti := by
        obtain ⟨k, rfl⟩ : ∃ k, tj = k + 1 := ⟨tj - 1, by omega⟩
        unfold cell
        rw [Nat.add_mul, Nat.add_sub_cancel, Nat.one_mul]
        omega
      rw [this]
    · rw [if_neg hj, if_neg hj, blockCell_eq (by omega) h4]

/-- the cell of the blocks that is cell `k` of the rectangle -/
def toBlock (n mi k : ℕ) : ℕ := blockCell n mi (k / (mi * n)) (k % (mi * n))

theorem toBlock_cell {n mi J I : ℕ} (h : I < mi * n) : toBlock n mi (cell (mi * n) J I) = blockCell n mi J I := by
  unfold toBlock
  rw [(div_cell h).1, (div_cell h).2]

variable {F : Type*} [FloatLike F]

theorem flat_eq {A : Type*} {a b : ℕ} {f g : ℕ → ℕ → A} (h : ∀ i < a, ∀ j < b, f i j = g i j) : flat a b f = flat a b g := by
  have := Omega.flat_forall₂ (R := Eq) h
  rwa [List.forall₂_eq_eq_eq] at this

/-- **C190** A rectangle of `mj` by `mi` square tiles of `n` by `n` casts: the grid that `xgcm.build_grid` builds, for dimensions `(tile, j, i)`, shifts to the left, and tiles connected
with the tiles next to them, has the same edges, between corresponding casts, from the same end and with the same distances and face lengths, as the one that `rectilinear.build_grid` builds
for the whole rectangle; only their order differs. -/
theorem tiled {tile : String} (h1 : tile ≠ "i") (h2 : tile ≠ "j") {n mj mi : ℕ} (pj pi : Bool) {dxC dyC dyG dxG : ℕ → F} {dxC' dyC' dyG' dxG' : Data F} {x y yg xg : ℕ → ℕ → F}
    (hx : broadcastTo (mj * n) (mi * n) dxC' = .ok x) (hy : broadcastTo (mj * n) (mi * n) dyC' = .ok y)
    (hyg : broadcastTo (mj * n) (mi * n) dyG' = .ok yg) (hxg : broadcastTo (mj * n) (mi * n) dxG' = .ok xg)
    (hs : ∀ J < mj * n, ∀ I < mi * n, dxC (blockCell n mi J I) = x J I ∧ dyC (blockCell n mi J I) = y J I ∧ dyG (blockCell n mi J I) = yg J I ∧ dxG (blockCell n mi J I) = xg J I) :
    ∃ g g', xgcmBuild n (mj * mi) tile [tile, "j", "i"] 'l' 'l' (blockX n mi pi) (blockY n mj mi pj) (.arr dxC) (.arr dyC) (.arr dyG) (.arr dxG) = some (.ok g) ∧
      rectGrid (mj * n) (mi * n) pj pi dxC' dyC' dyG' dxG' = .ok g' ∧
      ∃ T T' : List ((ℕ × ℕ) × F × F), T.Perm (T'.map fun e => ((toBlock n mi e.1.1, toBlock n mi e.1.2), e.2)) ∧
        g.edges = T.map (fun x => x.1) ∧ g.dist = T.map (fun x => x.2.1) ∧ g.distperp = T.map (fun x => x.2.2) ∧
        g'.edges = T'.map (fun x => x.1) ∧ g'.dist = T'.map (fun x => x.2.1) ∧ g'.distperp = T'.map (fun x => x.2.2) := by
  obtain ⟨im1, jm1, e1, e2⟩ := neighbours_left_partial (n := n) (nf := mj * mi) h1 h2 true (blockX n mi pi) (blockY n mj mi pj)
  obtain ⟨g, e3, e4, e5, e6⟩ := xgcm_edges (mj * mi * n * n) im1 jm1 dxC dyC dyG dxG
  have hI := blockX_before (mj := mj) (per := pi) (im1 := im1) (fun t ht j hj i hi => by
    have := (e2 t ht j hj i hi).1
    rwa [if_pos rfl] at this)
  have hJ := blockY_before (per := pj) (jm1 := jm1) (fun t ht j hj i hi => (e2 t ht j hj i hi).2)
  have H := block_numbering n mj mi
  refine ⟨g, ⟨rectEdges (mj * n) (mi * n) pj pi, flat (mj * n - off pj) (mi * n) (fun j i => x (j + off pj) i) ++ flat (mj * n) (mi * n - off pi) (fun j i => y j (i + off pi)),
    flat (mj * n - off pj) (mi * n) (fun j i => yg (j + off pj) i) ++ flat (mj * n) (mi * n - off pi) (fun j i => xg j (i + off pi))⟩, ?_, ?_,
    (linksOf (mj * mi * n * n) im1).map (fun ab => (ab, dyC ab.1, dxG ab.1)) ++ (linksOf (mj * mi * n * n) jm1).map (fun ab => (ab, dxC ab.1, dyG ab.1)),
    (flat (mj * n - off pj) (mi * n) fun j i => ((cell (mi * n) (j + off pj) i, cell (mi * n) (prev (mj * n) pj (j + off pj)) i), x (j + off pj) i, yg (j + off pj) i)) ++
      (flat (mj * n) (mi * n - off pi) fun j i => ((cell (mi * n) j (i + off pi), cell (mi * n) j (prev (mi * n) pi (i + off pi))), y j (i + off pi), xg j (i + off pi))), ?_, ?_, ?_, ?_, ?_, ?_, ?_⟩
  · unfold xgcmBuild
    rw [if_neg (by decide)]
    simp only [decide_true, e1, e3]
  · unfold rectGrid rectData
    simp only [hx, hy, hyg, hxg]
  · rw [List.map_append, Omega.flat_map, Omega.flat_map]
    refine (((H.second hI).map _).append ((H.first hJ).map _)).trans (List.perm_append_comm.trans ?_)
    rw [Omega.flat_map, Omega.flat_map]
    refine List.Perm.append ?_ ?_
    · refine List.Perm.of_eq (flat_eq fun j hj i hi => ?_)
      obtain ⟨a, -, b, -⟩ := hs (j + off pj) (by omega) i hi
      simp only [toBlock_cell hi, a, b]
    · refine List.Perm.of_eq (flat_eq fun j hj i hi => ?_)
      obtain ⟨-, a, -, b⟩ := hs j hj (i + off pi) (by omega)
      have hlt : prev (mi * n) pi (i + off pi) < mi * n := by
        rcases Nat.eq_zero_or_pos (i + off pi) with h0 | h0
        · rw [h0]
          unfold prev
          split
          · exact Nat.mod_lt _ (by omega)
          · omega
        · rw [prev_of_pos h0 (by omega)]; omega
      simp only [toBlock_cell (show i + off pi < mi * n by omega), toBlock_cell hlt, a, b]
  · rw [e4]; unfold linksOf; simp only [List.map_append, List.map_map, Function.comp_def]
  · rw [e5]; unfold linksOf; simp only [List.map_append, List.map_map, Function.comp_def]
  · rw [e6]; unfold linksOf; simp only [List.map_append, List.map_map, Function.comp_def]
  · rw [rectEdges_eq]; simp only [List.map_append, Omega.flat_map]
  · simp only [List.map_append, Omega.flat_map]
  · simp only [List.map_append, Omega.flat_map]

end Grid

namespace Omega

open FloatLike Lib Traj Bfs VertSolve
open Fl hiding nan

/-- the link between the cells of the blocks -/
noncomputable def inBlocks (n mi : ℕ) (l : Link) : Link := ⟨(Grid.toBlock n mi l.ends.1, Grid.toBlock n mi l.ends.2), l.dist, l.perp⟩

/-- **C190** The grid of the tiles has the links of the rectilinear grid. -/
theorem tiled_links {tile : String} (h1 : tile ≠ "i") (h2 : tile ≠ "j") {n mj mi : ℕ} (pj pi : Bool) {dxC dyC dyG dxG : ℕ → Fl ℝ} {dxC' dyC' dyG' dxG' : Grid.Data (Fl ℝ)}
    {x y yg xg : ℕ → ℕ → ℝ}
    (hx : Grid.broadcastTo (mj * n) (mi * n) dxC' = .ok fun j i => fin (x j i)) (hy : Grid.broadcastTo (mj * n) (mi * n) dyC' = .ok fun j i => fin (y j i))
    (hyg : Grid.broadcastTo (mj * n) (mi * n) dyG' = .ok fun j i => fin (yg j i)) (hxg : Grid.broadcastTo (mj * n) (mi * n) dxG' = .ok fun j i => fin (xg j i))
    (hs : ∀ J < mj * n, ∀ I < mi * n, dxC (Grid.blockCell n mi J I) = fin (x J I) ∧ dyC (Grid.blockCell n mi J I) = fin (y J I) ∧
      dyG (Grid.blockCell n mi J I) = fin (yg J I) ∧ dxG (Grid.blockCell n mi J I) = fin (xg J I)) :
    ∃ g L, Grid.xgcmBuild n (mj * mi) tile [tile, "j", "i"] 'l' 'l' (Grid.blockX n mi pi) (Grid.blockY n mj mi pj) (.arr dxC) (.arr dyC) (.arr dyG) (.arr dxG) = some (.ok g) ∧
      (⟨g.edges, some g.dist, some g.distperp⟩ : GridDict (Fl ℝ)) = gridOf L ∧ ((rectLinks (mj * n) (mi * n) pj pi x y yg xg).map (inBlocks n mi)).Perm L := by
  obtain ⟨g, g', e1, e2, T, T', hT, a1, a2, a3, b1, b2, b3⟩ := Grid.tiled (F := Fl ℝ) h1 h2 pj pi hx hy hyg hxg hs
  obtain ⟨g'', e3, e4⟩ := rectGrid_links (p0 := pj) (p1 := pi) hx hy hyg hxg
  obtain rfl : g' = g'' := by rw [e2] at e3; injection e3
  unfold gridOf at e4
  injection e4 with c1 c2 c3
  injection c2 with c2
  injection c3 with c3
  have hT' : T' = (rectLinks (mj * n) (mi * n) pj pi x y yg xg).map asEntry := by
    apply entries_eq
    · rw [← b1, c1, List.map_map]; rfl
    · rw [← b2, c2, List.map_map]; rfl
    · rw [← b3, c3, List.map_map]; rfl
  have hB : (T'.map fun e => ((Grid.toBlock n mi e.1.1, Grid.toBlock n mi e.1.2), e.2)) = ((rectLinks (mj * n) (mi * n) pj pi x y yg xg).map (inBlocks n mi)).map asEntry := by
    rw [hT', List.map_map, List.map_map]; rfl
  rw [hB] at hT
  have hback : T = (T.map asLink).map asEntry := by
    rw [List.map_map]
    conv_lhs => rw [← List.map_id T]
    refine List.map_congr_left fun t ht => ?_
    have h := hT.mem_iff.1 ht
    obtain ⟨l, -, rfl⟩ := List.mem_map.1 h
    rfl
  refine ⟨g, T.map asLink, e1, ?_, ?_⟩
  · unfold gridOf
    rw [a1, a2, a3, hback]
    simp only [List.map_map]
    rfl
  · have h := (hT.map asLink).symm
    rw [List.map_map] at h
    have e : asLink ∘ asEntry = id := rfl
    rwa [e, List.map_id] at h

/-- Specification: the place of row `J`, column `I` among the tiles. -/
def blockOf (n mi : ℕ) : List ℕ → List ℕ
  | [J, I] => [J / n * mi + I / n, J % n, I % n]
  | m => m

/-- and back -/
def unblock (n mi : ℕ) : List ℕ → List ℕ
  | [t, j, i] => [t / mi * n + j, t % mi * n + i]
  | m => m

theorem valid_three {a b c : ℕ} {m : List ℕ} (h : Valid [a, b, c] m) : ∃ i j k, m = [i, j, k] ∧ i < a ∧ j < b ∧ k < c := by
  unfold Valid at h
  cases h with
  | @cons _ i _ m hi hm =>
    obtain ⟨j, k, rfl, hj, hk⟩ := valid_two hm
    exact ⟨i, j, k, rfl, hi, hj, hk⟩

theorem blockOf_cell {n mi tj j ti i : ℕ} (hj : j < n) (hi : i < n) : blockOf n mi [Grid.cell n tj j, Grid.cell n ti i] = [Grid.cell mi tj ti, j, i] := by
  show [Grid.cell n tj j / n * mi + Grid.cell n ti i / n, Grid.cell n tj j % n, Grid.cell n ti i % n] = _
  rw [(Grid.div_cell hj).1, (Grid.div_cell hj).2, (Grid.div_cell hi).1, (Grid.div_cell hi).2]
  rfl

theorem unblock_cell {n mi tj j ti i : ℕ} (h : ti < mi) : unblock n mi [Grid.cell mi tj ti, j, i] = [Grid.cell n tj j, Grid.cell n ti i] := by
  show [Grid.cell mi tj ti / mi * n + j, Grid.cell mi tj ti % mi * n + i] = _
  rw [(Grid.div_cell h).1, (Grid.div_cell h).2]
  rfl

theorem block_matching (n mj mi : ℕ) : Matching [mj * n, mi * n] [mj * mi, n, n] (blockOf n mi) (unblock n mi) where
  there m h := by
    obtain ⟨J, I, rfl, hJ, hI⟩ := valid_two h
    obtain ⟨tj, h1, j, h2, rfl⟩ := Grid.cell_surj hJ
    obtain ⟨ti, h3, i, h4, rfl⟩ := Grid.cell_surj hI
    rw [blockOf_cell h2 h4]
    exact .cons (Grid.cell_bound h1 h3) (valid_pair h2 h4)
  back m h := by
    obtain ⟨t, j, i, rfl, ht, hj, hi⟩ := valid_three h
    obtain ⟨tj, h1, ti, h2, rfl⟩ := Grid.cell_surj ht
    rw [unblock_cell h2]
    exact valid_pair (Grid.cell_bound h1 hj) (Grid.cell_bound h2 hi)
  left m h := by
    obtain ⟨J, I, rfl, hJ, hI⟩ := valid_two h
    obtain ⟨tj, h1, j, h2, rfl⟩ := Grid.cell_surj hJ
    obtain ⟨ti, h3, i, h4, rfl⟩ := Grid.cell_surj hI
    rw [blockOf_cell h2 h4, unblock_cell h3]
  right m h := by
    obtain ⟨t, j, i, rfl, ht, hj, hi⟩ := valid_three h
    obtain ⟨tj, h1, ti, h2, rfl⟩ := Grid.cell_surj ht
    rw [unblock_cell h2, blockOf_cell hj hi]
  size := by simp; ring

theorem ravel_block {n mj mi J I : ℕ} (hJ : J < mj * n) (hI : I < mi * n) :
    ravel [mj * mi, n, n] (blockOf n mi (unravel [mj * n, mi * n] (Grid.cell (mi * n) J I))) = Grid.toBlock n mi (Grid.cell (mi * n) J I) := by
  rw [unravel_cell hJ hI, Grid.toBlock_cell hI]
  simp [blockOf, ravel, Grid.blockCell, Grid.tcell]
  ring

/-- **C190** `omega_surf` returns the same surface, after the same number of passes, for an ocean of `mj` by `mi` square tiles on the grid that `xgcm.build_grid` builds, and for the same
casts in one rectangle on the grid that `rectilinear.build_grid` builds of the same lengths. -/
theorem omegaSurf_tiled {o o' : Opts (Fl ℝ)} {dims dims' : Option (List String)} {coord coord' : String → Option (List ℚ)} {S T S' T' : Nd (Fl ℝ)}
    {P P' : PArg (Fl ℝ)} {v v' : ℕ} {pr pr' : List ℕ → ℕ → Fl ℝ} {pc pc' : PinCast} {m0 : List ℕ} {pin : ℝ}
    {e : ℝ → ℝ → ℝ → ℝ} {smin tol : ℝ} {k : ℕ} {b b' : List ℕ → ℕ → ℝ} {p p' : Nd (Fl ℝ)}
    {tile : String} (h1 : tile ≠ "i") (h2 : tile ≠ "j") {n mj mi : ℕ} {pj pi : Bool} {dxC dyC dyG dxG : ℕ → Fl ℝ} {dxC' dyC' dyG' dxG' : Grid.Data (Fl ℝ)} {x y yg xg : ℕ → ℕ → ℝ}
    (hx : Grid.broadcastTo (mj * n) (mi * n) dxC' = .ok fun i j => fin (x i j)) (hy : Grid.broadcastTo (mj * n) (mi * n) dyC' = .ok fun i j => fin (y i j))
    (hyg : Grid.broadcastTo (mj * n) (mi * n) dyG' = .ok fun i j => fin (yg i j)) (hxg : Grid.broadcastTo (mj * n) (mi * n) dxG' = .ok fun i j => fin (xg i j))
    (hs : ∀ J < mj * n, ∀ I < mi * n, dxC (Grid.blockCell n mi J I) = fin (x J I) ∧ dyC (Grid.blockCell n mi J I) = fin (y J I) ∧
      dyG (Grid.blockCell n mi J I) = fin (yg J I) ∧ dxG (Grid.blockCell n mi J I) = fin (xg J I))
    (hsh : S.shape.eraseIdx v = [mj * n, mi * n]) (hsh' : S'.shape.eraseIdx v' = [mj * mi, n, n])
    (C : Call o dims coord S T P v pr (rectLinks (mj * n) (mi * n) pj pi x y yg xg) pc m0 pin e smin tol k b)
    (C' : Call o' dims' coord' S' T' P' v' pr' ((rectLinks (mj * n) (mi * n) pj pi x y yg xg).map (inBlocks n mi)) pc' (blockOf n mi m0) pin e smin tol k b')
    (hS : SameOcean o o' S T S' T' v v' pr pr' [mj * n, mi * n] [mj * mi, n, n] (blockOf n mi) p p' m0 pin) :
    ∃ g g' out out' st st',
      Grid.rectGrid (mj * n) (mi * n) pj pi dxC' dyC' dyG' dxG' = .ok g ∧
      Grid.xgcmBuild n (mj * mi) tile [tile, "j", "i"] 'l' 'l' (Grid.blockX n mi pi) (Grid.blockY n mj mi pj) (.arr dxC) (.arr dyC) (.arr dyG) (.arr dxG) = some (.ok g') ∧
      omegaSurf o dims coord S T P ⟨g.edges, some g.dist, some g.distperp⟩ pc (.array p) = .ok ([mj * n, mi * n], out, st) ∧
      omegaSurf o' dims' coord' S' T' P' ⟨g'.edges, some g'.dist, some g'.distperp⟩ pc' (.array p') = .ok ([mj * mi, n, n], out', st') ∧
      (∀ J < mj * n, ∀ I < mi * n, out' [J / n * mi + I / n, J % n, I % n] = out [J, I]) ∧ st'.last = st.last := by
  obtain ⟨g, e1, e2⟩ := rectGrid_links (p0 := pj) (p1 := pi) hx hy hyg hxg
  obtain ⟨g', L, e3, e4, hL⟩ := tiled_links h1 h2 pj pi hx hy hyg hxg hs
  have hw := C.within
  rw [hsh] at hw
  obtain ⟨out, out', st, st', r1, r2, r3, r4⟩ := omegaSurf_relabel (σ := blockOf n mi) (τ := unblock n mi) (by rw [hsh, hsh']; exact block_matching n mj mi) C (C'.reorder hL)
    (by rw [hsh, hsh']; exact hS) (by
      rw [hsh, hsh']
      refine ⟨_, ?_, hL⟩
      rw [List.forall₂_map_right_iff, List.forall₂_same]
      intro l hl
      refine ⟨rfl, rfl, .inl ?_⟩
      have hr : ∀ k < [mj * n, mi * n].prod, Grid.toBlock n mi k = ravel [mj * mi, n, n] (blockOf n mi (unravel [mj * n, mi * n] k)) := by
        intro k hk
        obtain ⟨J, hJ, I, hI, rfl⟩ := Grid.cell_surj (n := mi * n) (a := mj * n) (m := k) (by simpa using hk)
        exact (ravel_block hJ hI).symm
      obtain ⟨a, b⟩ := hw l hl
      exact Prod.ext (hr _ a) (hr _ b))
  rw [hsh] at r1 r3
  rw [hsh'] at r2
  rw [← e2] at r1
  rw [← e4] at r2
  exact ⟨g, g', out, out', st, st', e1, e3, r1, r2, fun J hJ I hI => r3 [J, I] (valid_pair hJ hI), r4⟩

/-! ## Example: two tiles of two by two casts, side by side, one cast being land -/

/-- calls on casts that are all the same or land -/
theorem same_call {hs : List ℕ} {S T : Nd (Fl ℝ)} {m0 : List ℕ} {L : List Link} (hS : S.shape = 5 :: hs) (hT : T.shape = 5 :: hs) (hhs : 1 ≤ hs.length) (hprod : hs.prod < 613)
    (hm0 : Valid hs m0) (hL : ∀ x ∈ L, x.ends.1 < hs.prod ∧ x.ends.2 < hs.prod ∧ 0 < x.dist ∧ 2 ≤ x.perp / x.dist)
    (hc : ∀ m, Valid hs m → ∃ l : Bool, (m = m0 → l = false) ∧ castAt S T (fun _ k => exCast.P.get k) 0 m = ⟨⟨5, fun k => if l then Fl.nan else exCast.S.get k⟩,
      ⟨5, fun k => if l then Fl.nan else exCast.T.get k⟩, exCast.P⟩)
    {f : String} {spsolve} {lsqr} {b} (hf : Formulated (ringO f spsolve lsqr) 2 b) :
    Call (ringO f spsolve lsqr) none (fun _ => none) S T (.small 5 exCast.P.get) 0 (fun _ k => exCast.P.get k) L (.tuple (m0.map fun i : ℕ => (i : ℤ))) m0 1 (fun s t _ => s - t) 0
      (1 / 100) 600 b := by
  have he : S.shape.eraseIdx 0 = hs := by rw [hS]; rfl
  exact
  { args := ⟨rfl, by rw [hS]; simp, by rw [hS, hT], by rw [hS]; rfl, fun _ _ => rfl⟩
    horiz := by rw [hS]; simp; omega
    pin := rfl
    valid := by rw [he]; exact hm0
    within := fun x hx => by rw [he]; exact ⟨(hL x hx).1, (hL x hx).2.1⟩
    dist := fun x hx => (hL x hx).2.2.1
    solver := ⟨2, by norm_num, fun x hx => (hL x hx).2.2.2, hf⟩
    tolEq := rfl
    tolPos := by norm_num
    fuel := rfl
    enough := by rw [he]; exact hprod
    eos := exEos
    der := fun _ _ _ _ => ⟨1, -1, rfl⟩
    casts := by
      intro m hm
      rw [he] at hm
      obtain ⟨l, -, hj⟩ := hc m hm
      rw [hj]
      cases l
      · right; simp only [Bool.false_eq_true, if_false]
        exact ⟨_, _, 1, 4, _, _, _, exGood, fun i _ _ => by split_ifs <;> norm_num, by norm_num, rfl, rfl⟩
      · left; simp only [if_true]; constructor <;> decide
    start := by
      obtain ⟨l, h, hj⟩ := hc m0 hm0
      rw [hj, h rfl]
      simp only [Bool.false_eq_true, if_false]
      exact ⟨0, 3, ⟨1, 4, _, _, _, exGood, fun i _ _ => by split_ifs <;> norm_num, by norm_num, by norm_num, by norm_num⟩, by norm_num, by norm_num⟩
    below := by intro x h; cases h
    diags := by intro _; show 1 ≤ 10; norm_num }

noncomputable def wideS : Nd (Fl ℝ) := ⟨[5, 2, 4], fun i => if i.drop 1 = [1, 3] then Fl.nan else exCast.S.get (i.getD 0 0)⟩
noncomputable def wideT : Nd (Fl ℝ) := ⟨[5, 2, 4], fun i => if i.drop 1 = [1, 3] then Fl.nan else exCast.T.get (i.getD 0 0)⟩
noncomputable def tilesS : Nd (Fl ℝ) := ⟨[5, 2, 2, 2], fun i => if i.drop 1 = [1, 1, 1] then Fl.nan else exCast.S.get (i.getD 0 0)⟩
noncomputable def tilesT : Nd (Fl ℝ) := ⟨[5, 2, 2, 2], fun i => if i.drop 1 = [1, 1, 1] then Fl.nan else exCast.T.get (i.getD 0 0)⟩

theorem wide_links : rectLinks (1 * 2) (2 * 2) false true (fun _ _ => 1) (fun _ _ => 2) (fun _ _ => 6) (fun _ _ => 6) =
    [⟨(4, 0), 1, 6⟩, ⟨(5, 1), 1, 6⟩, ⟨(6, 2), 1, 6⟩, ⟨(7, 3), 1, 6⟩, ⟨(0, 3), 2, 6⟩, ⟨(1, 0), 2, 6⟩, ⟨(2, 1), 2, 6⟩, ⟨(3, 2), 2, 6⟩, ⟨(4, 7), 2, 6⟩, ⟨(5, 4), 2, 6⟩,
      ⟨(6, 5), 2, 6⟩, ⟨(7, 6), 2, 6⟩] := by
  simp [rectLinks, Grid.flat, Grid.off, List.range_succ, Grid.cell, Grid.prev]

example : ∃ spsolve lsqr g g' out out' st st',
    Grid.rectGrid 2 4 false true (.scalar (fin 1)) (.scalar (fin 2)) (.scalar (fin 6)) (.scalar (fin 6)) = .ok g ∧
    Grid.xgcmBuild 2 2 "face" ["face", "j", "i"] 'l' 'l' (Grid.blockX 2 2 true) (Grid.blockY 2 1 2 false) (.arr fun _ => fin 1) (.arr fun _ => fin 2) (.arr fun _ => fin 6)
      (.arr fun _ => fin 6) = some (.ok g') ∧
    omegaSurf (ringO "poisson" spsolve lsqr) none (fun _ => none) wideS wideT (.small 5 exCast.P.get) ⟨g.edges, some g.dist, some g.distperp⟩ (.tuple [0, 1])
      (.array ⟨[2, 4], fun m => fin (if m = [0, 2] then 2 else 1)⟩) = .ok ([2, 4], out, st) ∧
    omegaSurf (ringO "gradient" spsolve lsqr) none (fun _ => none) tilesS tilesT (.small 5 exCast.P.get) ⟨g'.edges, some g'.dist, some g'.distperp⟩ (.tuple [0, 0, 1])
      (.array ⟨[2, 2, 2], fun m => fin (if m = [1, 0, 0] then 2 else 1)⟩) = .ok ([2, 2, 2], out', st') ∧
    out' [1, 0, 0] = out [0, 2] ∧ out' [0, 1, 1] = out [1, 1] := by
  obtain ⟨⟨spsolve, hs⟩, ⟨lsqr, hl⟩⟩ := OmegaMat.exact_solvers_exist (α := ℝ)
  have C := same_call (hs := [2, 4]) (S := wideS) (T := wideT) (m0 := [0, 1]) (L := rectLinks (1 * 2) (2 * 2) false true (fun _ _ => 1) (fun _ _ => 2) (fun _ _ => 6) (fun _ _ => 6))
    rfl rfl (by decide) (by decide) (valid_pair (by norm_num) (by norm_num)) (by
      rw [wide_links]
      simp only [List.mem_cons, List.not_mem_nil, or_false, forall_eq_or_imp, forall_eq]
      norm_num) (by
    intro m hm
    refine ⟨decide (m = [1, 3]), ?_, ?_⟩
    · rintro rfl; rfl
    · unfold castAt wideS wideT; simp; rfl) (f := "poisson") (spsolve := spsolve) (lsqr := lsqr)
    (.inl ⟨by show "poisson".toLower = _; decide +kernel, 0, le_rfl, hs.near, rfl⟩)
  have C' := same_call (hs := [2, 2, 2]) (S := tilesS) (T := tilesT) (m0 := [0, 0, 1])
    (L := (rectLinks (1 * 2) (2 * 2) false true (fun _ _ => 1) (fun _ _ => 2) (fun _ _ => 6) (fun _ _ => 6)).map (inBlocks 2 2))
    rfl rfl (by decide) (by decide) (.cons (by norm_num) (valid_pair (by norm_num) (by norm_num))) (by
      rw [wide_links]
      simp only [List.map_cons, List.map_nil, List.mem_cons, List.not_mem_nil, or_false, forall_eq_or_imp, forall_eq, inBlocks, Grid.toBlock, Grid.blockCell, Grid.tcell]
      norm_num) (by
    intro m hm
    refine ⟨decide (m = [1, 1, 1]), ?_, ?_⟩
    · rintro rfl; rfl
    · unfold castAt tilesS tilesT; simp; rfl) (f := "gradient") (spsolve := spsolve) (lsqr := lsqr)
    (.inr ⟨by show "gradient".toLower = _; decide +kernel, 0, le_rfl, hl.near, fun _ _ => rfl, rfl⟩)
  have hcorr : ∀ m, Valid [1 * 2, 2 * 2] m → ∃ J < 2, ∃ I < 4, m = [J, I] ∧ blockOf 2 2 m = [J / 2 * 2 + I / 2, J % 2, I % 2] := by
    intro m hm
    obtain ⟨J, I, rfl, hJ, hI⟩ := valid_two hm
    exact ⟨J, by omega, I, by omega, rfl, rfl⟩
  obtain ⟨g, g', out, out', st, st', e1, e2, h1, h2, h3, -⟩ := omegaSurf_tiled (tile := "face") (by decide) (by decide) (n := 2) (mj := 1) (mi := 2)
    (dxC := fun _ => fin 1) (dyC := fun _ => fin 2) (dyG := fun _ => fin 6) (dxG := fun _ => fin 6)
    (dxC' := .scalar (fin 1)) (dyC' := .scalar (fin 2)) (dyG' := .scalar (fin 6)) (dxG' := .scalar (fin 6))
    (p := ⟨[2, 4], fun m => fin (if m = [0, 2] then 2 else 1)⟩) (p' := ⟨[2, 2, 2], fun m => fin (if m = [1, 0, 0] then 2 else 1)⟩)
    rfl rfl rfl rfl (fun _ _ _ _ => ⟨rfl, rfl, rfl, rfl⟩) rfl rfl C C' {
      casts := by
        intro m hm
        obtain ⟨J, hJ, I, hI, rfl, e⟩ := hcorr m hm
        rw [e]
        unfold castAt wideS wideT tilesS tilesT
        interval_cases J <;> interval_cases I <;> simp
      opts := ⟨rfl, rfl, rfl, rfl, rfl, rfl, rfl, rfl, rfl, by show 10 < 11; norm_num, by show 10 < 11; norm_num⟩
      pml := trivial
      exact := .inl ⟨by show "poisson".toLower = _; decide +kernel, hs⟩
      exact' := .inr ⟨by show "gradient".toLower = _; decide +kernel, hl, fun _ _ => rfl⟩
      shape := rfl
      shape' := rfl
      pin := by simp
      init := by
        intro m hm
        obtain ⟨J, hJ, I, hI, rfl, e⟩ := hcorr m hm
        rw [e]
        interval_cases J <;> interval_cases I <;> simp }
  exact ⟨spsolve, lsqr, g, g', out, out', st, st', e1, e2, h1, h2, h3 0 (by norm_num) 2 (by norm_num), h3 1 (by norm_num) 1 (by norm_num)⟩

end Omega
