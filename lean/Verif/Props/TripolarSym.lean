import Verif.Props.OmegaGridSym
set_option linter.unusedSectionVars false

/-!
# Turning round a tripolar grid (C166)
-/

namespace Omega
open FloatLike Lib Traj Bfs VertSolve Interp
open Fl hiding nan

open Grid in
/-- Specification: the links of a tripolar grid of `nj` rows and `ni` columns.  The cell `(j, i)` is linked with the one north of it, or in the last row with the one across the
fold, at distance `v j i` through a face of length `w j i`, and with the one east of it, round the circle, at distance `u j i` through a face of length `y j i`. -/
def triLinks (nj ni : ℕ) (u v y w : ℕ → ℕ → ℝ) : List Link :=
  flat nj ni (fun j i => ⟨(cell ni j i, if j + 1 = nj then cell ni j (ni - 1 - i) else cell ni (j + 1) i), v j i, w j i⟩) ++
  flat nj ni (fun j i => ⟨(cell ni j i, cell ni j ((i + 1) % ni)), u j i, y j i⟩)

theorem flat_eq {A : Type*} {n m : ℕ} {f g : ℕ → ℕ → A} (h : ∀ i < n, ∀ j < m, f i j = g i j) : Grid.flat n m f = Grid.flat n m g := by
  unfold Grid.flat
  refine List.flatMap_congr fun i hi => List.map_congr_left fun j hj => ?_
  exact h i (List.mem_range.1 hi) j (List.mem_range.1 hj)

/-- `build_grid` of `tripolar` returns these links. -/
theorem triGrid_links {nj ni : ℕ} {e1u e2v e2u e1v : Grid.Data (Fl ℝ)} {u v y w : ℕ → ℕ → ℝ}
    (hu : Grid.broadcastTo nj ni e1u = .ok fun i j => fin (u i j)) (hv : Grid.broadcastTo nj ni e2v = .ok fun i j => fin (v i j))
    (hy : Grid.broadcastTo nj ni e2u = .ok fun i j => fin (y i j)) (hw : Grid.broadcastTo nj ni e1v = .ok fun i j => fin (w i j)) :
    ∃ g, Grid.triGrid nj ni e1u e2v e2u e1v = .ok g ∧ (⟨g.edges, some g.dist, some g.distperp⟩ : GridDict (Fl ℝ)) = gridOf (triLinks nj ni u v y w) := by
  have h : Grid.triGrid nj ni e1u e2v e2u e1v = .ok ⟨Grid.triEdges nj ni,
      Grid.flat nj ni (fun i j => fin (v i j)) ++ Grid.flat nj ni (fun i j => fin (u i j)),
      Grid.flat nj ni (fun i j => fin (w i j)) ++ Grid.flat nj ni (fun i j => fin (y i j))⟩ := by
    unfold Grid.triGrid Grid.triData; simp only [hu, hv, hy, hw]
  refine ⟨_, h, ?_⟩
  unfold gridOf triLinks
  rw [Grid.triEdges_eq]
  simp only [List.map_append, flat_map]
  congr 2
  · refine flat_eq fun j hj i hi => ?_
    rw [Grid.triIdx_lt hj]
    congr 1
    unfold Grid.triIdx Grid.cell
    split_ifs with h
    · rw [show nj - 1 = j by omega]
    · rfl
  · refine flat_eq fun j hj i hi => ?_
    rw [Grid.triIdx_lt hj, Grid.triIdx_lt hj]

/-- A symmetry of the columns: `f` maps them one to one, with inverse `g`, and pairs across the fold to pairs across the fold; the face east of column `i` is mapped to the one
east of column `E i`, one to one, with inverse `E'`. -/
structure TriSym (ni : ℕ) (f g E E' : ℕ → ℕ) : Prop where
  there : ∀ i < ni, f i < ni
  back : ∀ i < ni, g i < ni
  left : ∀ i < ni, g (f i) = i
  right : ∀ i < ni, f (g i) = i
  fold : ∀ i < ni, f (ni - 1 - i) = ni - 1 - f i
  east : ∀ i < ni, E i = f i ∧ f ((i + 1) % ni) = (E i + 1) % ni ∨ E i = f ((i + 1) % ni) ∧ f i = (E i + 1) % ni
  eThere : ∀ i < ni, E i < ni
  eBack : ∀ i < ni, E' i < ni
  eLeft : ∀ i < ni, E' (E i) = i
  eRight : ∀ i < ni, E (E' i) = i

/-- East and west exchanged. -/
theorem TriSym.mirror (ni : ℕ) : TriSym ni (fun i => ni - 1 - i) (fun i => ni - 1 - i) (fun i => if i + 1 = ni then i else ni - 2 - i) (fun i => if i + 1 = ni then i else ni - 2 - i) := by
  have hm : ∀ i < ni, (i + 1) % ni = if i + 1 = ni then 0 else i + 1 := by
    intro i hi
    split_ifs with h
    · rw [h, Nat.mod_self]
    · exact Nat.mod_eq_of_lt (by omega)
  refine ⟨fun i h => by omega, fun i h => by omega, fun i h => by omega, fun i h => by omega, fun i h => rfl, ?_, ?_, ?_, ?_, ?_⟩
  · intro i h
    right
    rw [hm i h]
    split_ifs with h1
    · refine ⟨by omega, ?_⟩
      rw [h1, Nat.mod_self]
      omega
    · refine ⟨by omega, ?_⟩
      rw [Nat.mod_eq_of_lt (by omega)]
      omega
  all_goals
    intro i h
    split_ifs <;> omega

/-- Rolled by half the circle, for an even number of columns. -/
theorem TriSym.half (h : ℕ) : TriSym (2 * h) (fun i => (i + h) % (2 * h)) (fun i => (i + h) % (2 * h)) (fun i => (i + h) % (2 * h)) (fun i => (i + h) % (2 * h)) := by
  have hm : ∀ i < 2 * h, (i + h) % (2 * h) = if i < h then i + h else i - h := by
    intro i hi
    split_ifs with h1
    · exact Nat.mod_eq_of_lt (by omega)
    · rw [show i + h = i - h + 2 * h by omega, Nat.add_mod_right]
      exact Nat.mod_eq_of_lt (by omega)
  have hlt : ∀ i < 2 * h, (i + h) % (2 * h) < 2 * h := fun i hi => Nat.mod_lt _ (by omega)
  have hinv : ∀ i < 2 * h, ((i + h) % (2 * h) + h) % (2 * h) = i := by
    intro i hi
    rw [hm _ (hlt i hi), hm i hi]
    split_ifs <;> omega
  refine ⟨hlt, hlt, hinv, hinv, ?_, ?_, hlt, hlt, hinv, hinv⟩
  · intro i hi
    rw [hm i hi, hm _ (by omega)]
    split_ifs <;> omega
  · intro i hi
    left
    refine ⟨rfl, ?_⟩
    rw [Nat.mod_add_mod, Nat.mod_add_mod, Nat.add_right_comm]

section
variable {nj ni : ℕ} {f g E E' : ℕ → ℕ}

theorem TriSym.matching (D : TriSym ni f g E E') : Matching [nj, ni] [nj, ni] (onBoth (fun j => j) f) (onBoth (fun j => j) g) where
  there m h := by obtain ⟨j, i, rfl, hj, hi⟩ := valid_two h; exact valid_pair hj (D.there i hi)
  back m h := by obtain ⟨j, i, rfl, hj, hi⟩ := valid_two h; exact valid_pair hj (D.back i hi)
  left m h := by
    obtain ⟨j, i, rfl, hj, hi⟩ := valid_two h
    show [j, g (f i)] = _
    rw [D.left i hi]
  right m h := by
    obtain ⟨j, i, rfl, hj, hi⟩ := valid_two h
    show [j, f (g i)] = _
    rw [D.right i hi]
  size := rfl

/-- **C166** The links of a tripolar grid, and those of the grid whose columns are exchanged by a symmetry. -/
theorem tri_symmetric (D : TriSym ni f g E E') {u v y w u' v' y' w' : ℕ → ℕ → ℝ}
    (hv : ∀ j < nj, ∀ i < ni, v' j (f i) = v j i ∧ w' j (f i) = w j i) (hu : ∀ j < nj, ∀ i < ni, u' j (E i) = u j i ∧ y' j (E i) = y j i) :
    SameLinks [nj, ni] [nj, ni] (onBoth (fun j => j) f) (triLinks nj ni u v y w) (triLinks nj ni u' v' y' w') := by
  have hmap : ∀ j < nj, ∀ i < ni, ravel [nj, ni] (onBoth (fun j => j) f (unravel [nj, ni] (Grid.cell ni j i))) = Grid.cell ni j (f i) := by
    intro j hj i hi
    rw [unravel_cell hj hi]
    exact ravel_pair ..
  refine ⟨Grid.flat nj ni (fun j i => ⟨(Grid.cell ni j (f i), if j + 1 = nj then Grid.cell ni j (ni - 1 - f i) else Grid.cell ni (j + 1) (f i)), v' j (f i), w' j (f i)⟩) ++
    Grid.flat nj ni (fun j i => ⟨(Grid.cell ni j (E i), Grid.cell ni j ((E i + 1) % ni)), u' j (E i), y' j (E i)⟩),
    List.rel_append (flat_forall₂ ?_) (flat_forall₂ ?_), List.Perm.append ?_ ?_⟩
  · intro j hj i hi
    obtain ⟨h1, h2⟩ := hv j hj i hi
    refine ⟨h1, h2, .inl ?_⟩
    simp only
    rw [hmap j hj i hi]
    congr 1
    split_ifs with h
    · rw [hmap j hj _ (by omega), D.fold i hi]
    · rw [hmap (j + 1) (by omega) i hi]
  · intro j hj i hi
    obtain ⟨h1, h2⟩ := hu j hj i hi
    refine ⟨h1, h2, ?_⟩
    simp only
    have hn : (i + 1) % ni < ni := Nat.mod_lt _ (by omega)
    rw [hmap j hj i hi, hmap j hj _ hn]
    rcases D.east i hi with ⟨a, b⟩ | ⟨a, b⟩
    · left; rw [b, a]
    · right; rw [← a, ← b]
  · exact flat_perm (fun q => (q.1, f q.2)) (fun q => (q.1, g q.2)) (fun j hj i hi => ⟨hj, D.there i hi⟩) (fun j hj i hi => ⟨hj, D.back i hi⟩)
      (fun j hj i hi => by dsimp only; rw [D.left i hi]) (fun j hj i hi => by dsimp only; rw [D.right i hi]) (fun j hj i hi => rfl)
  · exact flat_perm (fun q => (q.1, E q.2)) (fun q => (q.1, E' q.2)) (fun j hj i hi => ⟨hj, D.eThere i hi⟩) (fun j hj i hi => ⟨hj, D.eBack i hi⟩)
      (fun j hj i hi => by dsimp only; rw [D.eLeft i hi]) (fun j hj i hi => by dsimp only; rw [D.eRight i hi]) (fun j hj i hi => rfl)

/-- **C166** `omega_surf` on a tripolar grid: exchanging the columns by a symmetry exchanges those of the surface returned. -/
theorem omegaSurf_tripolar {o o' : Opts (Fl ℝ)} {dims dims' : Option (List String)} {coord coord' : String → Option (List ℚ)} {S T S' T' : Nd (Fl ℝ)}
    {P P' : PArg (Fl ℝ)} {k k' : ℕ} {pr pr' : List ℕ → ℕ → Fl ℝ} {pc pc' : PinCast} {m0 : List ℕ} {pin : ℝ}
    {e : ℝ → ℝ → ℝ → ℝ} {smin tol : ℝ} {n : ℕ} {b b' : List ℕ → ℕ → ℝ} {p p' : Nd (Fl ℝ)} (D : TriSym ni f g E E') {u v y w u' v' y' w' : ℕ → ℕ → ℝ}
    (hv : ∀ j < nj, ∀ i < ni, v' j (f i) = v j i ∧ w' j (f i) = w j i) (hu : ∀ j < nj, ∀ i < ni, u' j (E i) = u j i ∧ y' j (E i) = y j i)
    (hsh : S.shape.eraseIdx k = [nj, ni]) (hsh' : S'.shape.eraseIdx k' = [nj, ni])
    (C : Call o dims coord S T P k pr (triLinks nj ni u v y w) pc m0 pin e smin tol n b)
    (C' : Call o' dims' coord' S' T' P' k' pr' (triLinks nj ni u' v' y' w') pc' (onBoth (fun j => j) f m0) pin e smin tol n b')
    (hS : SameOcean o o' S T S' T' k k' pr pr' [nj, ni] [nj, ni] (onBoth (fun j => j) f) p p' m0 pin) :
    ∃ out out' st st', omegaSurf o dims coord S T P (gridOf (triLinks nj ni u v y w)) pc (.array p) = .ok ([nj, ni], out, st) ∧
      omegaSurf o' dims' coord' S' T' P' (gridOf (triLinks nj ni u' v' y' w')) pc' (.array p') = .ok ([nj, ni], out', st') ∧
      (∀ j < nj, ∀ i < ni, out' [j, f i] = out [j, i]) ∧ st'.last = st.last := by
  obtain ⟨out, out', st, st', h1, h2, h3, h4⟩ := omegaSurf_relabel (σ := onBoth (fun j => j) f) (τ := onBoth (fun j => j) g) (by rw [hsh, hsh']; exact D.matching) C C'
    (by rw [hsh, hsh']; exact hS) (by rw [hsh, hsh']; exact tri_symmetric D hv hu)
  rw [hsh] at h1 h3
  rw [hsh'] at h2
  exact ⟨out, out', st, st', h1, h2, fun j hj i hi => h3 [j, i] (valid_pair hj hi), h4⟩

end

/-! ## Example: one row of three casts, one of them land, and the same turned round -/

theorem exTri_links : triLinks 1 3 (fun _ _ => 1) (fun _ _ => 2) (fun _ _ => 6) (fun _ _ => 6) =
    [⟨(0, 2), 2, 6⟩, ⟨(1, 1), 2, 6⟩, ⟨(2, 0), 2, 6⟩, ⟨(0, 1), 1, 6⟩, ⟨(1, 2), 1, 6⟩, ⟨(2, 0), 1, 6⟩] := by
  simp [triLinks, Grid.flat, List.range_succ, Grid.cell]

theorem exTri_call {land : ℕ} (hne : 1 ≠ land) {f : String} {spsolve} {lsqr} {b} (hf : Formulated (ringO f spsolve lsqr) 2 b) :
    Call (ringO f spsolve lsqr) none (fun _ => none) (ringS land) (ringT land) (.small 5 exCast.P.get) 0 (fun _ k => exCast.P.get k)
      (triLinks 1 3 (fun _ _ => 1) (fun _ _ => 2) (fun _ _ => 6) (fun _ _ => 6)) (.tuple [0, 1]) [0, 1] 1 (fun s t _ => s - t) 0 (1 / 100) 600 b := by
  have C := ring_call (land := land) (pin := 1) (k := 0) (by norm_num) hne hf
  refine ⟨C.args, C.horiz, C.pin, C.valid, ?_, ?_, ?_, C.tolEq, C.tolPos, C.fuel, C.enough, C.eos, C.der, C.casts, C.start, C.below, C.diags⟩
  · rw [exTri_links]
    show ∀ x : Link, x ∈ _ → x.ends.1 < 3 ∧ x.ends.2 < 3
    simp
  · rw [exTri_links]
    simp
  · refine ⟨2, by norm_num, ?_, hf⟩
    rw [exTri_links]
    simp only [List.mem_cons, List.not_mem_nil, or_false, forall_eq_or_imp, forall_eq]
    norm_num

/-- The grid that `build_grid` of `tripolar` returns for these distances. -/
example : ∃ g, Grid.triGrid 1 3 (.scalar (fin (1 : ℝ))) (.scalar (fin 2)) (.scalar (fin 6)) (.scalar (fin 6)) = .ok g ∧
    (⟨g.edges, some g.dist, some g.distperp⟩ : GridDict (Fl ℝ)) = gridOf (triLinks 1 3 (fun _ _ => 1) (fun _ _ => 2) (fun _ _ => 6) (fun _ _ => 6)) :=
  triGrid_links rfl rfl rfl rfl

/-- Twenty columns rolled by ten: the fold pairs columns 3 and 16, and after it 13 and 6. -/
example : TriSym 20 (fun i => (i + 10) % 20) (fun i => (i + 10) % 20) (fun i => (i + 10) % 20) (fun i => (i + 10) % 20) := TriSym.half 10

/-- Land at 2, and with east and west exchanged at 0. -/
example : ∃ spsolve lsqr out out' st st',
    omegaSurf (ringO "poisson" spsolve lsqr) none (fun _ => none) (ringS 2) (ringT 2) (.small 5 exCast.P.get)
      (gridOf (triLinks 1 3 (fun _ _ => 1) (fun _ _ => 2) (fun _ _ => 6) (fun _ _ => 6))) (.tuple [0, 1])
      (.array ⟨[1, 3], fun m => fin (if m = [0, 0] then 2 else 1)⟩) = .ok ([1, 3], out, st) ∧
    omegaSurf (ringO "gradient" spsolve lsqr) none (fun _ => none) (ringS 0) (ringT 0) (.small 5 exCast.P.get)
      (gridOf (triLinks 1 3 (fun _ _ => 1) (fun _ _ => 2) (fun _ _ => 6) (fun _ _ => 6))) (.tuple [0, 1])
      (.array ⟨[1, 3], fun m => fin (if m = [0, 2] then 2 else 1)⟩) = .ok ([1, 3], out', st') ∧
    out' [0, 2] = out [0, 0] ∧ out' [0, 1] = out [0, 1] ∧ out' [0, 0] = out [0, 2] := by
  obtain ⟨⟨spsolve, hs⟩, ⟨lsqr, hl⟩⟩ := OmegaMat.exact_solvers_exist (α := ℝ)
  have C := exTri_call (land := 2) (by norm_num) (f := "poisson") (spsolve := spsolve) (lsqr := lsqr)
    (.inl ⟨by show "poisson".toLower = _; decide +kernel, 0, le_rfl, hs.near, rfl⟩)
  have C' := exTri_call (land := 0) (by norm_num) (f := "gradient") (spsolve := spsolve) (lsqr := lsqr)
    (.inr ⟨by show "gradient".toLower = _; decide +kernel, 0, le_rfl, hl.near, fun _ _ => rfl, rfl⟩)
  have hS : SameOcean (ringO "poisson" spsolve lsqr) (ringO "gradient" spsolve lsqr) (ringS 2) (ringT 2) (ringS 0) (ringT 0) 0 0 (fun _ k => exCast.P.get k)
      (fun _ k => exCast.P.get k) [1, 3] [1, 3] (onBoth (fun j => j) fun i => 3 - 1 - i) ⟨[1, 3], fun m => fin (if m = [0, 0] then 2 else 1)⟩
      ⟨[1, 3], fun m => fin (if m = [0, 2] then 2 else 1)⟩ [0, 1] 1 := {
      casts := by
        intro m hm
        obtain ⟨i, j, rfl, hi, hj3⟩ := valid_two hm
        show castAt (ringS 0) (ringT 0) _ 0 [i, 3 - 1 - j] = castAt (ringS 2) (ringT 2) _ 0 [i, j]
        unfold castAt ringS ringT
        interval_cases j <;> simp
      opts := ⟨rfl, rfl, rfl, rfl, rfl, rfl, rfl, rfl, rfl, by show 10 < 11; norm_num, by show 10 < 11; norm_num⟩
      pml := trivial
      exact := .inl ⟨by show "poisson".toLower = _; decide +kernel, hs⟩
      exact' := .inr ⟨by show "gradient".toLower = _; decide +kernel, hl, fun _ _ => rfl⟩
      shape := rfl
      shape' := rfl
      pin := by simp
      init := by
        intro m hm
        obtain ⟨i, j, rfl, hi, hj3⟩ := valid_two hm
        obtain rfl : i = 0 := by omega
        show (fin (if [0, 3 - 1 - j] = [0, 2] then 2 else 1) : Fl ℝ) = fin (if [0, j] = [0, 0] then 2 else 1)
        interval_cases j <;> simp }
  obtain ⟨out, out', st, st', h1, h2, h3, -⟩ := omegaSurf_tripolar (TriSym.mirror 3) (u := fun _ _ => 1) (v := fun _ _ => 2) (y := fun _ _ => 6) (w := fun _ _ => 6)
    (u' := fun _ _ => 1) (v' := fun _ _ => 2) (y' := fun _ _ => 6) (w' := fun _ _ => 6) (fun _ _ _ _ => ⟨rfl, rfl⟩) (fun _ _ _ _ => ⟨rfl, rfl⟩) rfl rfl C C' hS
  exact ⟨spsolve, lsqr, out, out', st, st', h1, h2, h3 0 (by norm_num) 0 (by norm_num), h3 0 (by norm_num) 1 (by norm_num), h3 0 (by norm_num) 2 (by norm_num)⟩

end Omega
