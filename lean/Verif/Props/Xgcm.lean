import Verif.Model.Xgcm
import Verif.Props.Grid
import Mathlib.Tactic.Linarith

/-!
# Neighbours on tiled grids (C102)
-/

set_option linter.unusedSectionVars false

namespace Grid
variable {F : Type*} [FloatLike F]

/-- Specification: number of cell `(t, j, i)` in C order, `n` by `n` cells in a tile. -/
def tcell (n t j i : ℕ) : ℕ := (t * n + j) * n + i

theorem tcell_div {n t j i : ℕ} (hj : j < n) (hi : i < n) :
    tcell n t j i / (n * n) = t ∧ tcell n t j i / n % n = j ∧ tcell n t j i % n = i := by
  have hn : 0 < n := by omega
  unfold tcell
  have h1 : ((t * n + j) * n + i) / n = t * n + j := by
    rw [mul_comm, Nat.mul_add_div hn, Nat.div_eq_of_lt hi, add_zero]
  refine ⟨?_, ?_, ?_⟩
  · rw [← Nat.div_div_eq_div_mul, h1, mul_comm, Nat.mul_add_div hn, Nat.div_eq_of_lt hj, add_zero]
  · rw [h1, mul_comm, Nat.mul_add_mod, Nat.mod_eq_of_lt hj]
  · rw [mul_comm, Nat.mul_add_mod, Nat.mod_eq_of_lt hi]

variable {n nf : ℕ} {tile : String}

theorem unravel_tji (h1 : tile ≠ "i") (h2 : tile ≠ "j") {t j i : ℕ} (hj : j < n) (hi : i < n) :
    let c := unravel n nf tile [tile, "j", "i"] (tcell n t j i)
    c tile = t ∧ c "j" = j ∧ c "i" = i := by
  obtain ⟨e1, e2, e3⟩ := tcell_div (t := t) hj hi
  simp [unravel, dimLen, Ne.symm h1, Ne.symm h2, e1, e2, e3]

theorem unravel_tij (h1 : tile ≠ "i") (h2 : tile ≠ "j") {t j i : ℕ} (hj : j < n) (hi : i < n) :
    let c := unravel n nf tile [tile, "i", "j"] (tcell n t j i)
    c tile = t ∧ c "i" = j ∧ c "j" = i := by
  obtain ⟨e1, e2, e3⟩ := tcell_div (t := t) hj hi
  simp [unravel, dimLen, Ne.symm h1, Ne.symm h2, e1, e2, e3]

theorem idx_tji (h1 : tile ≠ "i") (h2 : tile ≠ "j") (c : String → ℕ) :
    (idxDA n nf tile [tile, "j", "i"]).val c = tcell n (c tile) (c "j") (c "i") := by
  simp [idxDA, dimLen, Ne.symm h1, Ne.symm h2, tcell]

/-- **C102** (dims as in ECCO, shift in `j` to the left.)  The neighbour of cell `(t, j, i)` in the `i` dimension is
`(t, j, i - 1)` (or `(t, j, i + 1)` for a right shift), in the `j` dimension `(t, j - 1, i)`; beyond the tile it is what
xgcm's padding says. -/
theorem neighbours_left_partial (h1 : tile ≠ "i") (h2 : tile ≠ "j") (xl : Bool) (padX padY : ℕ → ℕ → ℤ) :
    ∃ im1 jm1, neighbours n nf tile [tile, "j", "i"] xl true padX padY = .ok (im1, jm1) ∧
      ∀ t < nf, ∀ j < n, ∀ i < n,
        im1 (tcell n t j i) = (if xl then (if i = 0 then padX t j else (tcell n t j (i - 1) : ℤ))
          else if i + 1 = n then padX t j else (tcell n t j (i + 1) : ℤ)) ∧
        jm1 (tcell n t j i) = (if j = 0 then padY t i else (tcell n t (j - 1) i : ℤ)) := by
  unfold neighbours
  simp only [List.mem_cons, true_or, or_true, not_true_eq_false, if_false, List.length_cons, List.length_nil,
    and_self, ne_eq, if_true]
  refine ⟨_, _, rfl, fun t _ j hj i hi => ?_⟩
  obtain ⟨c1, c2, c3⟩ := unravel_tji (nf := nf) h1 h2 (t := t) hj hi
  have hd : (idxDA n nf tile [tile, "j", "i"]).dims.filter (· ≠ "i") ++ ["i"] = [tile, "j", "i"] := by
    simp [idxDA, h1]
  constructor
  · unfold DA.flatten shiftDA
    dsimp only
    rw [hd, c1, c2, c3, idx_tji h1 h2, idx_tji h1 h2]
    simp [setc, h1, c1, c2]
  · unfold DA.flatten DA.transpose shiftDA
    simp only [if_true]
    rw [show (idxDA n nf tile [tile, "j", "i"]).dims = [tile, "j", "i"] from rfl, c1, c2, c3, idx_tji h1 h2]
    simp [setc, h2, c1, c3]

/-- What happens for `ysh = "right"`: entry `(t, j, i)` of `jm1` is the neighbour of cell `(t, i, j)`. -/
theorem neighbours_right (h1 : tile ≠ "i") (h2 : tile ≠ "j") (xl : Bool) (padX padY : ℕ → ℕ → ℤ) :
    ∃ im1 jm1, neighbours n nf tile [tile, "j", "i"] xl false padX padY = .ok (im1, jm1) ∧
      ∀ t < nf, ∀ j < n, ∀ i < n,
        jm1 (tcell n t j i) = (if i + 1 = n then padY t j else (tcell n t (i + 1) j : ℤ)) := by
  unfold neighbours
  simp only [List.mem_cons, true_or, or_true, not_true_eq_false, if_false, List.length_cons, List.length_nil,
    and_self, ne_eq, Bool.false_eq_true]
  refine ⟨_, _, rfl, fun t _ j hj i hi => ?_⟩
  obtain ⟨c1, c2, c3⟩ := unravel_tij (nf := nf) h1 h2 (t := t) hj hi
  have hd : (idxDA n nf tile [tile, "j", "i"]).dims.filter (· ≠ "j") ++ ["j"] = [tile, "i", "j"] := by
    simp [idxDA, h2]
  unfold DA.flatten shiftDA
  dsimp only
  rw [hd, c1, c2, c3, idx_tji h1 h2, idx_tji h1 h2]
  simp [setc, h2, c1, c2]

/-- **C102 is false for `ysh = "right"`** on every tile of at least 2 by 2 cells: with all padding -1 (no connections), cell
`(t, 0, n - 1)` has no neighbour in the `j` dimension although `(t, 1, n - 1)` is one. -/
theorem neighbours_right_false (h1 : tile ≠ "i") (h2 : tile ≠ "j") (xl : Bool) (hn : 2 ≤ n) (hf : 0 < nf) :
    ∃ im1 jm1, neighbours n nf tile [tile, "j", "i"] xl false (fun _ _ => -1) (fun _ _ => -1) = .ok (im1, jm1) ∧
      ∃ t j i, t < nf ∧ j + 1 < n ∧ i < n ∧ jm1 (tcell n t j i) ≠ tcell n t (j + 1) i := by
  obtain ⟨im1, jm1, e, h⟩ := neighbours_right (n := n) (nf := nf) h1 h2 xl (fun _ _ => -1) (fun _ _ => -1)
  refine ⟨im1, jm1, e, 0, 0, n - 1, hf, by omega, by omega, ?_⟩
  rw [h 0 hf 0 (by omega) (n - 1) (by omega), if_pos (by omega)]
  omega

/-- **C102** Names that do not fit are rejected. -/
theorem neighbours_reject (dims : List String) (xl yl : Bool) (padX padY : ℕ → ℕ → ℤ)
    (h : tile ∉ dims ∨ "i" ∉ dims ∨ "j" ∉ dims) : neighbours n nf tile dims xl yl padX padY = .valueError := by
  unfold neighbours
  by_cases a : tile ∈ dims
  · by_cases b : "i" ∈ dims ∧ "j" ∈ dims
    · rcases h with h | h | h
      · exact absurd a h
      · exact absurd b.1 h
      · exact absurd b.2 h
    · rw [if_neg (not_not_intro a), if_pos b]
  · rw [if_pos a]

/-- **C102** `xsh`, `ysh` that start with anything but `l` or `r` are rejected, and only these. -/
theorem build_shift (dims : List String) (xsh ysh : Char) (padX padY : ℕ → ℕ → ℤ) (dxC dyC dyG dxG : XData F) :
    xgcmBuild n nf tile dims xsh ysh padX padY dxC dyC dyG dxG = none ↔ xsh ∉ ['l', 'r'] ∨ ysh ∉ ['l', 'r'] := by
  unfold xgcmBuild
  simp only [List.mem_cons, List.not_mem_nil, or_false]
  split_ifs with h
  · constructor
    · intro h'
      split at h' <;> cases h'
    · intro h'
      tauto
  · tauto

/-- **C102** The grid built (dims as in ECCO, left shifts, array distances): within tiles, cells next to each other in `i` or
in `j` are joined, and every edge is one of these or one that xgcm's padding asks for. -/
theorem build_left_partial (h1 : tile ≠ "i") (h2 : tile ≠ "j") (padX padY : ℕ → ℕ → ℤ) (dxC dyC dyG dxG : ℕ → F) :
    ∃ g, xgcmBuild n nf tile [tile, "j", "i"] 'l' 'l' padX padY (.arr dxC) (.arr dyC) (.arr dyG) (.arr dxG) =
        some (.ok g) ∧
      ∀ a b, (a, b) ∈ g.edges ↔ ∃ t j i, t < nf ∧ j < n ∧ i < n ∧ a = tcell n t j i ∧
        ((0 < i ∧ b = tcell n t j (i - 1)) ∨ (0 < j ∧ b = tcell n t (j - 1) i) ∨
         (i = 0 ∧ padX t j = b) ∨ (j = 0 ∧ padY t i = b)) := by
  obtain ⟨im1, jm1, e, h⟩ := neighbours_left_partial (n := n) (nf := nf) h1 h2 true padX padY
  obtain ⟨g, e1, e2, _, _⟩ := xgcm_edges (nf * n * n) im1 jm1 dxC dyC dyG dxG
  refine ⟨g, ?_, fun a b => ?_⟩
  · unfold xgcmBuild
    rw [if_neg (by simp)]
    have e' : neighbours n nf tile [tile, "j", "i"] (decide ('l' = 'l')) (decide ('l' = 'l')) padX padY = .ok (im1, jm1) := by
      simpa using e
    rw [e']
    simp only [e1]
  have hlt : ∀ {t j i}, t < nf → j < n → i < n → tcell n t j i < nf * n * n := by
    intro t j i a1 a2 a3
    unfold tcell
    have b1 : t * n + j + 1 ≤ nf * n := by
      have := Nat.mul_le_mul_right n (show t + 1 ≤ nf by omega)
      rw [Nat.add_mul] at this; omega
    have := Nat.mul_le_mul_right n b1
    rw [Nat.add_mul] at this; omega
  have hcell : ∀ m, m < nf * n * n → ∃ t j i, t < nf ∧ j < n ∧ i < n ∧ m = tcell n t j i := by
    intro m hm
    have hn : 0 < n := by
      rcases Nat.eq_zero_or_pos n with c | c
      · subst c; simp at hm
      · exact c
    refine ⟨m / n / n, m / n % n, m % n, ?_, Nat.mod_lt _ hn, Nat.mod_lt _ hn, ?_⟩
    · rw [Nat.div_lt_iff_lt_mul hn, Nat.div_lt_iff_lt_mul hn]; exact hm
    · unfold tcell
      rw [mul_comm (m / n / n), Nat.div_add_mod, mul_comm, Nat.div_add_mod]
  rw [e2, List.mem_append]
  simp only [List.mem_map, List.mem_filter, List.mem_range, decide_eq_true_eq, Prod.mk.injEq]
  constructor
  · rintro (⟨m, ⟨hm, hp⟩, rfl, hb⟩ | ⟨m, ⟨hm, hp⟩, rfl, hb⟩)
    · obtain ⟨t, j, i, a1, a2, a3, rfl⟩ := hcell m hm
      refine ⟨t, j, i, a1, a2, a3, rfl, ?_⟩
      have := (h t a1 j a2 i a3).1
      simp only [if_true] at this
      rw [this] at hp hb
      by_cases c : i = 0
      · rw [if_pos c] at hp hb
        exact Or.inr (Or.inr (Or.inl ⟨c, by omega⟩))
      · rw [if_neg c] at hb
        exact Or.inl ⟨by omega, by omega⟩
    · obtain ⟨t, j, i, a1, a2, a3, rfl⟩ := hcell m hm
      refine ⟨t, j, i, a1, a2, a3, rfl, ?_⟩
      have := (h t a1 j a2 i a3).2
      rw [this] at hp hb
      by_cases c : j = 0
      · rw [if_pos c] at hp hb
        exact Or.inr (Or.inr (Or.inr ⟨c, by omega⟩))
      · rw [if_neg c] at hb
        exact Or.inr (Or.inl ⟨by omega, by omega⟩)
  · rintro ⟨t, j, i, a1, a2, a3, rfl, hb⟩
    obtain ⟨g1, g2⟩ := h t a1 j a2 i a3
    simp only [if_true] at g1
    rcases hb with ⟨c, rfl⟩ | ⟨c, rfl⟩ | ⟨c, hb⟩ | ⟨c, hb⟩
    · rw [if_neg (by omega)] at g1
      exact Or.inl ⟨_, ⟨hlt a1 a2 a3, by rw [g1]; omega⟩, rfl, by rw [g1]; omega⟩
    · rw [if_neg (by omega)] at g2
      exact Or.inr ⟨_, ⟨hlt a1 a2 a3, by rw [g2]; omega⟩, rfl, by rw [g2]; omega⟩
    · rw [if_pos c, hb] at g1
      exact Or.inl ⟨_, ⟨hlt a1 a2 a3, by rw [g1]; omega⟩, rfl, by rw [g1]; omega⟩
    · rw [if_pos c, hb] at g2
      exact Or.inr ⟨_, ⟨hlt a1 a2 a3, by rw [g2]; omega⟩, rfl, by rw [g2]; omega⟩

/-- Two tiles of 2 by 2 cells, tile 1 to the right of tile 0. -/
example : (match neighbours 2 2 "tile" ["tile", "j", "i"] true true (fun t j => if t = 1 then tcell 2 0 j 1 else -1)
      (fun _ _ => -1) with
    | .ok (x, y) => some ((List.range 8).map x, (List.range 8).map y) | _ => none) =
    some ([-1, 0, -1, 2, 1, 4, 3, 6], [-1, -1, 0, 1, -1, -1, 4, 5]) := by decide +kernel

/-- The same tiles with right shifts: `jm1` should be `[2, 3, -1, -1, 6, 7, -1, -1]`. -/
example : (match neighbours 2 2 "tile" ["tile", "j", "i"] false false
      (fun t j => if t = 0 then tcell 2 1 j 0 else -1) (fun _ _ => -1) with
    | .ok (x, y) => some ((List.range 8).map x, (List.range 8).map y) | _ => none) =
    some ([1, 4, 3, 6, 5, -1, 7, -1], [2, -1, 3, -1, 6, -1, 7, -1]) := by decide +kernel

/-! ## Other orders of the dimensions -/

/-- Specification: number of the cell with coordinates `c` in an array with dimensions `dims`, in C order; `nf` tiles of `n` by `n` cells. -/
def cnum (n nf : ℕ) (tile : String) (dims : List String) (c : String → ℕ) : ℕ :=
  dims.foldl (fun m d => m * (if d = tile then nf else n) + c d) 0

theorem flat_div {s1 s2 a b d : ℕ} (hb : b < s1) (hd : d < s2) :
    ((a * s1 + b) * s2 + d) / (s1 * s2) = a ∧ ((a * s1 + b) * s2 + d) / s2 % s1 = b ∧ ((a * s1 + b) * s2 + d) % s2 = d := by
  have h1 : ((a * s1 + b) * s2 + d) / s2 = a * s1 + b := by
    rw [mul_comm, Nat.mul_add_div (by omega), Nat.div_eq_of_lt hd, add_zero]
  refine ⟨?_, ?_, ?_⟩
  · rw [mul_comm s1 s2, ← Nat.div_div_eq_div_mul, h1, mul_comm, Nat.mul_add_div (by omega), Nat.div_eq_of_lt hb, add_zero]
  · rw [h1, mul_comm, Nat.mul_add_mod, Nat.mod_eq_of_lt hb]
  · rw [mul_comm, Nat.mul_add_mod, Nat.mod_eq_of_lt hd]

/-- Coordinates within the tiles. -/
def Within (n nf : ℕ) (tile : String) (c : String → ℕ) : Prop := c tile < nf ∧ c "j" < n ∧ c "i" < n

/-- The names of the dimensions, in any order. -/
def Names (tile : String) (dims : List String) : Prop := dims.Perm [tile, "j", "i"]

theorem unravel_cnum (h1 : tile ≠ "i") (h2 : tile ≠ "j") {dims : List String} (hd : Names tile dims) {c : String → ℕ} (hc : Within n nf tile c) :
    let c' := unravel n nf tile dims (cnum n nf tile dims c)
    c' tile = c tile ∧ c' "j" = c "j" ∧ c' "i" = c "i" := by
  have hnd : dims.Nodup := hd.nodup_iff.2 (by simp [h1, h2])
  have hin : ∀ d ∈ dims, c d < dimLen n nf tile d := by
    intro d h
    have := hd.mem_iff.1 h
    simp only [List.mem_cons, List.not_mem_nil, or_false] at this
    rcases this with rfl | rfl | rfl
    · simpa [dimLen] using hc.1
    · simpa [dimLen, Ne.symm h2] using hc.2.1
    · simpa [dimLen, Ne.symm h1] using hc.2.2
  have hl : dims.length = 3 := hd.length_eq
  obtain ⟨d0, d1, d2, rfl⟩ := List.length_eq_three.1 hl
  have key : ∀ d ∈ [d0, d1, d2], unravel n nf tile [d0, d1, d2] (cnum n nf tile [d0, d1, d2] c) d = c d := by
    obtain ⟨e1, e2, e3⟩ := flat_div (a := c d0) (hin d1 (by simp)) (hin d2 (by simp))
    simp only [List.nodup_cons, List.mem_cons, List.not_mem_nil, or_false, not_or, not_false_eq_true, List.nodup_nil, and_true] at hnd
    obtain ⟨⟨n1, n2⟩, n3⟩ := hnd
    have hcn : cnum n nf tile [d0, d1, d2] c = (c d0 * dimLen n nf tile d1 + c d1) * dimLen n nf tile d2 + c d2 := by
      simp [cnum, dimLen]
    intro d h
    simp only [List.mem_cons, List.not_mem_nil, or_false] at h
    rw [hcn]
    unfold unravel
    simp only [List.getD_cons_zero, List.getD_cons_succ]
    rcases h with rfl | rfl | rfl
    · rw [if_pos rfl, e1]
    · rw [if_neg (Ne.symm n1), if_pos rfl, e2]
    · rw [if_neg (Ne.symm n2), if_neg (Ne.symm n3), e3]
  have hm := fun d => (hd.mem_iff (a := d)).2
  exact ⟨key _ (hm _ (by simp)), key _ (hm _ (by simp)), key _ (hm _ (by simp))⟩

theorem cnum_congr {dims : List String} (hd : Names tile dims) {c c' : String → ℕ} (h : c tile = c' tile ∧ c "j" = c' "j" ∧ c "i" = c' "i") :
    cnum n nf tile dims c = cnum n nf tile dims c' := by
  have : ∀ d ∈ dims, c d = c' d := by
    intro d hd'
    have := hd.mem_iff.1 hd'
    simp only [List.mem_cons, List.not_mem_nil, or_false] at this
    rcases this with rfl | rfl | rfl
    · exact h.1
    · exact h.2.1
    · exact h.2.2
  unfold cnum
  exact List.foldl_ext _ _ _ (fun a d hd' => by rw [this d hd'])

theorem idx_cnum {dims : List String} (hl : dims.length = 3) (c : String → ℕ) :
    (idxDA n nf tile dims).val c = cnum n nf tile dims c := by
  obtain ⟨d0, d1, d2, rfl⟩ := List.length_eq_three.1 hl
  simp [idxDA, dimLen, cnum]

/-- Specification: number of the neighbour of the cell with coordinates `c` in dimension `d`, to the left or to the right; `pad` beyond the tile. -/
def nextCell (n nf : ℕ) (tile : String) (dims : List String) (left : Bool) (d : String) (pad : ℤ) (c : String → ℕ) : ℤ :=
  if left then (if c d = 0 then pad else cnum n nf tile dims (Function.update c d (c d - 1)))
  else (if c d + 1 = n then pad else cnum n nf tile dims (Function.update c d (c d + 1)))

theorem shift_cnum (h1 : tile ≠ "i") (h2 : tile ≠ "j") {dims : List String} (hd : Names tile dims) {c : String → ℕ} (hc : Within n nf tile c)
    (left : Bool) (d : String) (hdm : d = "i" ∨ d = "j") (pad : (String → ℕ) → ℤ) (A : DA)
    (hA : A.dims = dims ∧ A.val = (shiftDA n left d pad (idxDA n nf tile dims)).val) :
    A.flatten n nf tile (cnum n nf tile dims c) =
      nextCell n nf tile dims left d (pad (unravel n nf tile dims (cnum n nf tile dims c))) c := by
  obtain ⟨c1, c2, c3⟩ := unravel_cnum h1 h2 hd hc
  unfold DA.flatten nextCell
  rw [hA.1, hA.2]
  unfold shiftDA
  dsimp only
  rw [idx_cnum hd.length_eq, idx_cnum hd.length_eq]
  have hcd : unravel n nf tile dims (cnum n nf tile dims c) d = c d := by
    rcases hdm with rfl | rfl
    · exact c3
    · exact c2
  rw [hcd]
  have hs : ∀ x, cnum n nf tile dims (setc (unravel n nf tile dims (cnum n nf tile dims c)) d x) = cnum n nf tile dims (Function.update c d x) := by
    intro x
    refine cnum_congr hd ?_
    unfold setc
    simp only [Function.update_apply, c1, c2, c3, and_self]
  rw [hs, hs]

/-- **C102** For `dims` in any order: the neighbours in the `i` dimension are those of the tiles if `i` is the last of the names, those in the `j` dimension if the shift
is to the left or `j` is the last. -/
theorem neighbours_order_partial (h1 : tile ≠ "i") (h2 : tile ≠ "j") {dims : List String} (hd : Names tile dims) (xl yl : Bool) (padX padY : ℕ → ℕ → ℤ) :
    ∃ im1 jm1, neighbours n nf tile dims xl yl padX padY = .ok (im1, jm1) ∧
      ∀ c, Within n nf tile c →
        (dims.getLast? = some "i" → im1 (cnum n nf tile dims c) = nextCell n nf tile dims xl "i" (padX (c tile) (c "j")) c) ∧
        (yl = true ∨ dims.getLast? = some "j" → jm1 (cnum n nf tile dims c) = nextCell n nf tile dims yl "j" (padY (c tile) (c "i")) c) := by
  have hm := fun d => (hd.mem_iff (a := d)).2
  have hl : dims.length = 3 := hd.length_eq
  have hnd : dims.Nodup := hd.nodup_iff.2 (by simp [h1, h2])
  have hlast : ∀ d, dims.getLast? = some d → dims.filter (· ≠ d) ++ [d] = dims := by
    intro d h
    obtain ⟨d0, d1, d2, rfl⟩ := List.length_eq_three.1 hl
    simp only [List.getLast?_cons_cons, List.getLast?_singleton, Option.some.injEq] at h
    subst h
    simp only [List.nodup_cons, List.mem_cons, List.not_mem_nil, or_false, not_or, not_false_eq_true, List.nodup_nil, and_true] at hnd
    simp [hnd.1.2, hnd.2]
  unfold neighbours
  rw [if_neg (not_not_intro (hm _ (by simp))), if_neg (not_not_intro ⟨hm _ (by simp), hm _ (by simp)⟩), if_neg (not_not_intro hl)]
  refine ⟨_, _, rfl, fun c hc => ?_⟩
  obtain ⟨c1, c2, c3⟩ := unravel_cnum h1 h2 hd hc
  constructor
  · intro h
    rw [shift_cnum h1 h2 hd hc xl "i" (Or.inl rfl) (fun c => padX (c tile) (c "j")) _ ⟨hlast _ h, rfl⟩, c1, c2]
  · intro h
    rw [shift_cnum h1 h2 hd hc yl "j" (Or.inr rfl) (fun c => padY (c tile) (c "i")) _ ⟨?_, ?_⟩, c1, c3]
    · rcases h with h | h
      · rw [h]; rfl
      · split
        · rfl
        · exact hlast _ h
    · split <;> rfl

/-- **C102 is false for `dims = (tile, i, j)`**, which the documentation allows, on every tile of at least 2 by 2 cells, for both shifts in `j`: with all padding -1, cell
`i = 1`, `j = 0` has no neighbour to its left. -/
theorem neighbours_order_false (h1 : tile ≠ "i") (h2 : tile ≠ "j") (yl : Bool) (hn : 2 ≤ n) (hf : 0 < nf) :
    ∃ im1 jm1, neighbours n nf tile [tile, "i", "j"] true yl (fun _ _ => -1) (fun _ _ => -1) = .ok (im1, jm1) ∧
      ∃ c, Within n nf tile c ∧ im1 (cnum n nf tile [tile, "i", "j"] c) ≠ nextCell n nf tile [tile, "i", "j"] true "i" (-1) c := by
  unfold neighbours
  rw [if_neg (by simp), if_neg (by simp), if_neg (by simp)]
  refine ⟨_, _, rfl, fun d => if d = "i" then 1 else 0, ⟨?_, ?_, ?_⟩, ?_⟩
  · simpa [h1] using hf
  · simp; omega
  · simp; omega
  unfold DA.flatten nextCell
  have hd : (shiftDA n true "i" (fun _ => (-1 : ℤ)) (idxDA n nf tile [tile, "i", "j"])).dims = [tile, "j", "i"] := by
    simp [shiftDA, idxDA, h1]
  have hc : cnum n nf tile [tile, "i", "j"] (fun d => if d = "i" then 1 else 0) = tcell n 0 1 0 := by
    simp [cnum, tcell, h1, Ne.symm h2]
  obtain ⟨-, -, c3⟩ := unravel_tji (nf := nf) h1 h2 (t := 0) (show 1 < n by omega) (show 0 < n by omega)
  rw [hc, hd]
  unfold shiftDA
  dsimp only
  rw [c3]
  simp

/-- Three tiles of 2 by 2 cells, `dims = (j, tile, i)`: the cell `j = 1`, `tile = 2`, `i = 1` is number 11, its neighbours 10 and 5. -/
example : Names "tile" ["j", "tile", "i"] ∧ (match neighbours 2 3 "tile" ["j", "tile", "i"] true true (fun _ _ => -1) (fun _ _ => -1) with
    | .ok (x, y) => some (x 11, y 11) | _ => none) = some (10, 5) := by
  constructor
  · exact List.Perm.swap _ _ _
  · decide +kernel

end Grid
