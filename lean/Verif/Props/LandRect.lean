import Verif.Props.LandLinks
import Verif.Props.OmegaGridSym

/-! # A rectilinear grid may be periodic or not across a land barrier (C191) -/

set_option linter.unusedSectionVars false

namespace Omega
open FloatLike Lib Bfs
variable {F : Type*} [FloatLike F]

open Grid in
/-- Specification: the links of a rectilinear grid in any arithmetic, as in `rectLinks`. -/
def rectE (ni nj : ℕ) (p0 p1 : Bool) (x y yg xg : ℕ → ℕ → F) : List ((ℕ × ℕ) × F × F) :=
  flat (ni - off p0) nj (fun i j => ((cell nj (i + off p0) j, cell nj (prev ni p0 (i + off p0)) j), x (i + off p0) j, yg (i + off p0) j)) ++
  flat ni (nj - off p1) (fun i j => ((cell nj i (j + off p1), cell nj i (prev nj p1 (j + off p1))), y i (j + off p1), xg i (j + off p1)))

/-- `build_grid` of `rectilinear` returns these links. -/
theorem rectGrid_gridL {ni nj : ℕ} {p0 p1 : Bool} {dxC dyC dyG dxG : Grid.Data F} {x y yg xg : ℕ → ℕ → F}
    (hx : Grid.broadcastTo ni nj dxC = .ok x) (hy : Grid.broadcastTo ni nj dyC = .ok y)
    (hyg : Grid.broadcastTo ni nj dyG = .ok yg) (hxg : Grid.broadcastTo ni nj dxG = .ok xg) :
    ∃ g, Grid.rectGrid ni nj p0 p1 dxC dyC dyG dxG = .ok g ∧ (⟨g.edges, some g.dist, some g.distperp⟩ : GridDict F) = gridL (rectE ni nj p0 p1 x y yg xg) := by
  have h : Grid.rectGrid ni nj p0 p1 dxC dyC dyG dxG = .ok ⟨Grid.rectEdges ni nj p0 p1,
      Grid.flat (ni - Grid.off p0) nj (fun i j => x (i + Grid.off p0) j) ++ Grid.flat ni (nj - Grid.off p1) (fun i j => y i (j + Grid.off p1)),
      Grid.flat (ni - Grid.off p0) nj (fun i j => yg (i + Grid.off p0) j) ++ Grid.flat ni (nj - Grid.off p1) (fun i j => xg i (j + Grid.off p1))⟩ := by
    unfold Grid.rectGrid Grid.rectData; simp only [hx, hy, hyg, hxg]
  refine ⟨_, h, ?_⟩
  unfold gridL rectE
  rw [Grid.rectEdges_eq]
  simp only [List.map_append, flat_map]

theorem mem_flat_at {A : Type*} {n m : ℕ} {f : ℕ → ℕ → A} {a : A} (h : a ∈ Grid.flat n m f) : ∃ i < n, ∃ j < m, a = f i j := by
  unfold Grid.flat at h
  obtain ⟨i, hi, h⟩ := List.mem_flatMap.1 h
  obtain ⟨j, hj, rfl⟩ := List.mem_map.1 h
  exact ⟨i, List.mem_range.1 hi, j, List.mem_range.1 hj, rfl⟩

theorem cell_in_grid {ni nj i j : ℕ} (hi : i < ni) (hj : j < nj) : Grid.cell nj i j < [ni, nj].prod := by
  rw [← ravel_pair ni]
  exact ravel_lt (valid_pair hi hj)

theorem rectE_range {ni nj : ℕ} {p0 p1 : Bool} {x y yg xg : ℕ → ℕ → F} :
    ∀ e ∈ rectE ni nj p0 p1 x y yg xg, e.1.1 < [ni, nj].prod ∧ e.1.2 < [ni, nj].prod := by
  intro e he
  rcases List.mem_append.1 he with he | he
  · obtain ⟨i, hi, j, hj, rfl⟩ := mem_flat_at he
    exact ⟨cell_in_grid (by omega) hj, cell_in_grid (prev_lt (by omega) (by omega)) hj⟩
  · obtain ⟨i, hi, j, hj, rfl⟩ := mem_flat_at he
    exact ⟨cell_in_grid hi (by omega), cell_in_grid hi (prev_lt (by omega) (by omega))⟩

theorem flat_first_row {A : Type*} (n m : ℕ) (f : ℕ → ℕ → A) : Grid.flat (n + 1) m f = (List.range m).map (f 0) ++ Grid.flat n m fun i j => f (i + 1) j := by
  unfold Grid.flat
  rw [List.range_succ_eq_map, List.flatMap_cons, List.flatMap_map]

theorem flat_congr_at {A : Type*} {n m : ℕ} {f g : ℕ → ℕ → A} (h : ∀ i < n, ∀ j < m, f i j = g i j) : Grid.flat n m f = Grid.flat n m g := by
  unfold Grid.flat
  apply List.flatMap_congr
  intro i hi
  apply List.map_congr_left
  intro j hj
  exact h i (List.mem_range.1 hi) j (List.mem_range.1 hj)

theorem filter_flat_at {A : Type*} (q : A → Bool) (n m : ℕ) (f : ℕ → ℕ → A) :
    (Grid.flat n m f).filter q = (List.range n).flatMap fun i => ((List.range m).map (f i)).filter q := by
  unfold Grid.flat
  rw [List.filter_flatMap]

theorem prev_succ_at {n i : ℕ} (h : i + 1 < n) (p : Bool) : Grid.prev n p (i + 1) = i := by
  unfold Grid.prev
  cases p
  · simp
  · simp only [if_true]
    rw [show i + 1 + n - 1 = i + n by omega, Nat.add_mod_right, Nat.mod_eq_of_lt (by omega)]

theorem prev_wrap {n : ℕ} (h : 0 < n) : Grid.prev n true 0 = n - 1 := by
  unfold Grid.prev
  simp only [if_true]
  rw [Nat.zero_add, Nat.mod_eq_of_lt (by omega)]

/-- One end of the dimension of length `n` is land: `land i` says that everything at index `i` is. -/
def Barrier (n : ℕ) (land : ℕ → Prop) : Prop := land 0 ∨ land (n - 1)

/-- Without the links across the ends the grid that is periodic in the first dimension is the one that is not. -/
theorem rectE_open0 {ni nj : ℕ} {p1 : Bool} {x y yg xg : ℕ → ℕ → F} {cast : List ℕ → Cast F}
    (h : Barrier ni fun i => ∀ j < nj, Few (cast [i, j]) = true) :
    (rectE ni nj true p1 x y yg xg).filter (atSea [ni, nj] cast) = (rectE ni nj false p1 x y yg xg).filter (atSea [ni, nj] cast) := by
  unfold rectE
  rw [List.filter_append, List.filter_append]
  congr 1
  cases ni with
  | zero => rfl
  | succ k =>
    show (Grid.flat (k + 1) nj _).filter _ = (Grid.flat k nj _).filter _
    rw [flat_first_row, List.filter_append]
    have h0 : ∀ g : ℕ → F × F, ((List.range nj).map fun j => ((Grid.cell nj (0 + Grid.off true) j, Grid.cell nj (Grid.prev (k + 1) true (0 + Grid.off true)) j), g j)).filter
        (atSea [k + 1, nj] cast) = [] := by
      intro g
      rw [List.filter_eq_nil_iff]
      intro e he
      obtain ⟨j, hj, rfl⟩ := List.mem_map.1 he
      have hj := List.mem_range.1 hj
      unfold atSea
      show ¬ (!Few (cast (unravel [k + 1, nj] (Grid.cell nj 0 j))) && !Few (cast (unravel [k + 1, nj] (Grid.cell nj (Grid.prev (k + 1) true 0) j)))) = true
      rw [prev_wrap (by omega), unravel_cell (by omega) hj, unravel_cell (by omega) hj]
      rcases h with h | h
      · rw [h j hj]; simp
      · rw [h j hj]; simp
    rw [h0, List.nil_append]
    congr 1
    apply flat_congr_at
    intro i hi j hj
    show ((Grid.cell nj (i + 1) j, Grid.cell nj (Grid.prev (k + 1) true (i + 1)) j), x (i + 1) j, yg (i + 1) j) =
      ((Grid.cell nj (i + 1) j, Grid.cell nj (Grid.prev (k + 1) false (i + 1)) j), x (i + 1) j, yg (i + 1) j)
    rw [prev_succ_at (by omega), prev_succ_at (by omega)]

/-- The same for the second dimension. -/
theorem rectE_open1 {ni nj : ℕ} {p0 : Bool} {x y yg xg : ℕ → ℕ → F} {cast : List ℕ → Cast F}
    (h : Barrier nj fun j => ∀ i < ni, Few (cast [i, j]) = true) :
    (rectE ni nj p0 true x y yg xg).filter (atSea [ni, nj] cast) = (rectE ni nj p0 false x y yg xg).filter (atSea [ni, nj] cast) := by
  unfold rectE
  rw [List.filter_append, List.filter_append]
  congr 1
  cases nj with
  | zero => rfl
  | succ k =>
    show (Grid.flat ni (k + 1) _).filter _ = (Grid.flat ni k _).filter _
    rw [filter_flat_at, filter_flat_at]
    apply List.flatMap_congr
    intro i hi
    have hi := List.mem_range.1 hi
    rw [List.range_succ_eq_map, List.map_cons, List.map_map, List.filter_cons]
    have h0 : ∀ g : F × F, atSea [ni, k + 1] cast ((Grid.cell (k + 1) i (0 + Grid.off true), Grid.cell (k + 1) i (Grid.prev (k + 1) true (0 + Grid.off true))), g) = false := by
      intro g
      unfold atSea
      show (!Few (cast (unravel [ni, k + 1] (Grid.cell (k + 1) i 0))) && !Few (cast (unravel [ni, k + 1] (Grid.cell (k + 1) i (Grid.prev (k + 1) true 0))))) = false
      rw [prev_wrap (by omega), unravel_cell hi (by omega), unravel_cell hi (by omega)]
      rcases h with h | h
      · rw [h i hi]; simp
      · rw [h i hi]; simp
    rw [h0]
    simp only [Bool.false_eq_true, if_false]
    congr 1
    apply List.map_congr_left
    intro j hj
    have hj := List.mem_range.1 hj
    show ((Grid.cell (k + 1) i (j + 1), Grid.cell (k + 1) i (Grid.prev (k + 1) true (j + 1))), y i (j + 1), xg i (j + 1)) =
      ((Grid.cell (k + 1) i (j + 1), Grid.cell (k + 1) i (Grid.prev (k + 1) false (j + 1))), y i (j + 1), xg i (j + 1))
    rw [prev_succ_at (by omega), prev_succ_at (by omega)]

/-- **C191.** Dimensions of a rectilinear grid may be declared periodic or not, if there is land along one of their two ends: the result of `omega_surf` is the same, to
the last bit.  `q0`, `q1` are the other declaration. -/
theorem omegaSurf_land_periodic (L : NanLaws F) (hN : isNaN (nan : F) = true) {o : Opts F} {dims : Option (List String)} {coord : String → Option (List ℚ)}
    {S T : Nd F} {P : PArg F} {v : ℕ} {pr : List ℕ → ℕ → F} (A : Args o.vertDim dims S T P v pr) {ni nj : ℕ} (hsh : S.shape.eraseIdx v = [ni, nj])
    {dxC dyC dyG dxG : Grid.Data F} {p0 p1 q0 q1 : Bool} {g g' : Grid.G F} (hg : Grid.rectGrid ni nj p0 p1 dxC dyC dyG dxG = .ok g)
    (hg' : Grid.rectGrid ni nj q0 q1 dxC dyC dyG dxG = .ok g')
    (h0 : p0 ≠ q0 → Barrier ni fun i => ∀ j < nj, Few (castAt S T pr v [i, j]) = true)
    (h1 : p1 ≠ q1 → Barrier nj fun j => ∀ i < ni, Few (castAt S T pr v [i, j]) = true)
    (hfuel : ni * nj < o.fuel) {pc : PinCast} {m0 : List ℕ} (hpc : processPinCast coord pc = .ok (m0.map fun i : ℕ => (i : ℤ)))
    (hm0 : Few (castAt S T pr v m0) = false) (pin : PArgInit F) :
    omegaSurf o dims coord S T P ⟨g'.edges, some g'.dist, some g'.distperp⟩ pc pin = omegaSurf o dims coord S T P ⟨g.edges, some g.dist, some g.distperp⟩ pc pin := by
  obtain ⟨x, y, yg, xg, hx, hy, hyg, hxg⟩ : ∃ x y yg xg, Grid.broadcastTo ni nj dxC = .ok x ∧ Grid.broadcastTo ni nj dyC = .ok y ∧
      Grid.broadcastTo ni nj dyG = .ok yg ∧ Grid.broadcastTo ni nj dxG = .ok xg := by
    unfold Grid.rectGrid Grid.rectData at hg
    revert hg
    cases Grid.broadcastTo ni nj dxC <;> cases Grid.broadcastTo ni nj dyC <;> cases Grid.broadcastTo ni nj dyG <;> cases Grid.broadcastTo ni nj dxG <;>
      intro hg <;> first | exact ⟨_, _, _, _, rfl, rfl, rfl, rfl⟩ | cases hg
  obtain ⟨_, e1, e2⟩ := rectGrid_gridL (p0 := p0) (p1 := p1) hx hy hyg hxg
  rw [hg] at e1
  cases e1
  obtain ⟨_, e1, e3⟩ := rectGrid_gridL (p0 := q0) (p1 := q1) hx hy hyg hxg
  rw [hg'] at e1
  cases e1
  rw [e2, e3]
  have hprod : [ni, nj].prod = ni * nj := by simp
  have key0 : ∀ (a b c : Bool), (a ≠ b → Barrier ni fun i => ∀ j < nj, Few (castAt S T pr v [i, j]) = true) →
      (rectE ni nj b c x y yg xg).filter (atSea [ni, nj] (castAt S T pr v)) = (rectE ni nj a c x y yg xg).filter (atSea [ni, nj] (castAt S T pr v)) := by
    intro a b c h
    cases a <;> cases b
    · rfl
    · exact rectE_open0 (h (by decide))
    · exact (rectE_open0 (h (by decide))).symm
    · rfl
  have key1 : ∀ (a b c : Bool), (a ≠ b → Barrier nj fun j => ∀ i < ni, Few (castAt S T pr v [i, j]) = true) →
      (rectE ni nj c b x y yg xg).filter (atSea [ni, nj] (castAt S T pr v)) = (rectE ni nj c a x y yg xg).filter (atSea [ni, nj] (castAt S T pr v)) := by
    intro a b c h
    cases a <;> cases b
    · rfl
    · exact rectE_open1 (h (by decide))
    · exact (rectE_open1 (h (by decide))).symm
    · rfl
  refine omegaSurf_land_links L hN A ?_ ?_ ?_ hpc hm0 ?_ pin
  · rw [hsh]; exact rectE_range
  · rw [hsh]; exact rectE_range
  · rw [hsh, hprod]; exact hfuel
  · rw [hsh, key0 p0 q0 q1 h0, key1 p1 q1 p0 h1]

/-! ## Example: three casts in a row, one of them land -/

/-- Three casts; the cast `w` is land. -/
def rowS (w : ℕ) : Nd (Fl ℚ) := ⟨[4, 3, 1], fun i => if i.getD 1 0 = w then .nan else .fin (i.getD 0 0 + min (i.getD 1 0) 1 : ℕ)⟩
def rowT : Nd (Fl ℚ) := ⟨[4, 3, 1], fun _ => .fin 0⟩

/-- The row, open or closed to a ring. -/
def rowG (p : Bool) : GridDict (Fl ℚ) :=
  match Grid.rectGrid 3 1 p false (.scalar (.fin 1)) (.scalar (.fin 1)) (.scalar (.fin 1)) (.scalar (.fin 1)) with
  | .ok g => ⟨g.edges, some g.dist, some g.distperp⟩
  | _ => ⟨[], none, none⟩

def rowRun (w : ℕ) (p : Bool) : FRes (List ℕ × (List ℕ → Fl ℚ × Fl ℚ × Fl ℚ) × State (Fl ℚ)) :=
  omegaSurf (demoO "poisson") none (fun _ => none) (rowS w) rowT demoP (rowG p) (.tuple [0, 0]) (.scalar (.fin 2))

/-- The pressures on the three casts. -/
def rowP (w : ℕ) (p : Bool) : Option (List (Fl ℚ)) :=
  match rowRun w p with
  | .ok r => some ((List.range 3).map fun i => (r.2.1 [i, 0]).2.2)
  | _ => none

theorem row_args (w : ℕ) : Args (.int 0) none (rowS w) rowT demoP 0 (fun _ k => .fin k) :=
  ⟨rfl, by show 0 < 3; decide, rfl, rfl, fun _ _ => rfl⟩

/-- Land at the end: open or closed, the same surface. -/
example : rowRun 2 true = rowRun 2 false ∧ rowP 2 true = some [.fin 2, .fin 1, Fl.nan] := by
  refine ⟨?_, by decide +kernel⟩
  have key : ∀ p, ∃ g, Grid.rectGrid 3 1 p false (.scalar (.fin 1)) (.scalar (.fin 1)) (.scalar (.fin 1)) (.scalar (.fin 1)) = .ok g ∧
      rowG p = (⟨g.edges, some g.dist, some g.distperp⟩ : GridDict (Fl ℚ)) := by
    intro p
    obtain ⟨g, hg, -⟩ := rectGrid_gridL (F := Fl ℚ) (ni := 3) (nj := 1) (p0 := p) (p1 := false) (dxC := .scalar (.fin 1)) (dyC := .scalar (.fin 1))
      (dyG := .scalar (.fin 1)) (dxG := .scalar (.fin 1)) rfl rfl rfl rfl
    exact ⟨g, hg, by unfold rowG; rw [hg]⟩
  obtain ⟨g, hg, e⟩ := key false
  obtain ⟨g', hg', e'⟩ := key true
  unfold rowRun
  rw [e, e']
  exact omegaSurf_land_periodic nanLaws_fl rfl (o := demoO "poisson") (row_args 2) rfl hg hg'
    (fun _ => .inr (by show ∀ j < 1, Few (castAt (rowS 2) rowT _ 0 [2, j]) = true; decide +kernel))
    (fun h => absurd rfl h) (by show 3 * 1 < 200; decide) (m0 := [0, 0]) rfl (by decide +kernel) _

/-- Land elsewhere does not suffice: with land in the middle the last cast is reached only across the ends. -/
theorem land_inside_matters : rowP 1 true = some [.fin 2, Fl.nan, .fin 1] ∧ rowP 1 false = some [.fin 2, Fl.nan, Fl.nan] := by
  decide +kernel

end Omega
