import Verif.Props.LandSea

/-! # An ocean may be cropped along land (C194) -/

set_option linter.unusedSectionVars false

namespace Omega
open FloatLike Lib Bfs
variable {F : Type*} [FloatLike F]

/-- The cast is in one of the first `n` rows. -/
def inRows (n : ℕ) (m : List ℕ) : Bool := decide (m.headD 0 < n)

theorem valid_inRows {n n' : ℕ} {r m : List ℕ} (h : Valid (n' :: r) m) : inRows n m = true ↔ (Valid (n :: r) m) := by
  cases h with
  | cons h1 h2 =>
    unfold inRows
    exact ⟨fun h => .cons (of_decide_eq_true h) h2, fun h => by cases h with | cons a _ => exact decide_eq_true a⟩

theorem inRows_of {n : ℕ} {r m : List ℕ} (h : Valid (n :: r) m) : inRows n m = true := (valid_inRows h).2 h

/-- The initial pressure of both calls: one number, or two arrays that agree in the first rows; interpolation to the larger raises nowhere. -/
def CropStart (n n' : ℕ) (r : List ℕ) (kind : PPKind) (casts : List ℕ → Cast F) : PArgInit F → PArgInit F → Prop
  | .scalar p, .scalar p' => p' = p
  | .array p, .array p' => p.shape = n :: r ∧ p'.shape = n' :: r ∧ (∀ m, Valid (n :: r) m → p'.get m = p.get m) ∧
      ∀ m, Valid (n' :: r) m → (interpOn kind (casts m) (p'.get m)).isSome = true
  | _, _ => False

theorem cropStart_both {n n' : ℕ} (hn : n ≤ n') {r : List ℕ} {kind : PPKind} {casts casts' : List ℕ → Cast F} (hc : ∀ m, Valid (n :: r) m → casts' m = casts m)
    {x y : PArgInit F} (h : CropStart n n' r kind casts' x y) : StartBoth n n' r kind casts x y := by
  cases x <;> cases y
  case scalar.scalar => exact h
  case array.array =>
    refine ⟨h.1, h.2.1, fun m hm => ⟨h.2.2.1 m hm, ?_⟩⟩
    rw [← hc m hm, ← h.2.2.1 m hm]
    exact h.2.2.2 m (valid_more hn hm)
  all_goals exact h.elim

theorem cropStart_same {n n' : ℕ} {r : List ℕ} {kind : PPKind} {casts : List ℕ → Cast F} {x y : PArgInit F} (B : List ℕ → Bool)
    (h : CropStart n n' r kind casts x y) : SameStart (n' :: r) B kind casts y y := by
  cases x <;> cases y
  case scalar.scalar => exact rfl
  case array.array => exact ⟨h.2.1, fun _ _ _ => rfl, h.2.2.2⟩
  all_goals exact h.elim

theorem pmlRows_same {n n' : ℕ} {r : List ℕ} {x y : Option (Nd F)} (B : List ℕ → Bool) (h : PmlRows n n' r x y) : AgreePml (n' :: r) B y y := by
  cases x <;> cases y
  · trivial
  · exact h.elim
  · exact h.elim
  · exact ⟨h.2.1, h.2.1, fun _ _ _ => rfl⟩

/-- **C194.** An ocean is cropped to its first `n` rows, where every link between these and the others touches land.
`omega_surf` returns on one exactly if it returns on the other, after the same number of passes, and the surfaces are the same in the first rows. -/
theorem omegaSurf_crop (L : NanLaws F) (hN : isNaN (nan : F) = true) {o : Opts F} {pml' : Option (Nd F)} {dims : Option (List String)}
    {coord : String → Option (List ℚ)} {S T S' T' : Nd F} {P P' : PArg F} {v : ℕ} {pr pr' : List ℕ → ℕ → F} (A : Args o.vertDim dims S T P v pr)
    (A' : Args o.vertDim dims S' T' P' v pr') {n n' : ℕ} (hn : n ≤ n') {r : List ℕ} (hsh : S.shape.eraseIdx v = n :: r) (hsh' : S'.shape.eraseIdx v = n' :: r)
    {E E' : List ((ℕ × ℕ) × F × F)} (hE : ∀ e ∈ E, e.1.1 < (n :: r).prod ∧ e.1.2 < (n :: r).prod)
    (hE' : ∀ e ∈ E', e.1.1 < (n' :: r).prod ∧ e.1.2 < (n' :: r).prod) (hfuel : (n' :: r).prod < o.fuel)
    {pc : PinCast} {m0 : List ℕ} (hpc : processPinCast coord pc = .ok (m0.map fun i : ℕ => (i : ℤ))) (hm0 : Valid (n :: r) m0)
    (hsea : Few (castAt S T pr v m0) = false) (hcast : ∀ m, Valid (n :: r) m → castAt S' T' pr' v m = castAt S T pr v m)
    (hcross : ∀ e ∈ E', inRows n (unravel (n' :: r) e.1.1) ≠ inRows n (unravel (n' :: r) e.1.2) → atSea (n' :: r) (castAt S' T' pr' v) e = false)
    (h : (E'.filter fun e => inRows n (unravel (n' :: r) e.1.1)).filter (atSea (n' :: r) (castAt S' T' pr' v)) = E.filter (atSea (n :: r) (castAt S T pr v)))
    (hpml : PmlRows n n' r o.pml pml') {p0 p0' : PArgInit F} (hp0 : CropStart n n' r o.kind (fun m => castAt S' T' pr' v m) p0 p0') :
    (∀ hs out st, omegaSurf o dims coord S T P (gridL E) pc p0 = .ok (hs, out, st) →
      ∃ out' st', omegaSurf { o with pml := pml' } dims coord S' T' P' (gridL E') pc p0' = .ok (n' :: r, out', st') ∧ st'.last = st.last ∧
        ∀ m, Valid (n :: r) m → out' m = out m) ∧
    ∀ hs' out' st', omegaSurf { o with pml := pml' } dims coord S' T' P' (gridL E') pc p0' = .ok (hs', out', st') →
      ∃ out st, omegaSurf o dims coord S T P (gridL E) pc p0 = .ok (n :: r, out, st) ∧ st'.last = st.last ∧ ∀ m, Valid (n :: r) m → out' m = out m := by
  obtain ⟨Z, hZ⟩ : ∃ Z, Z = onlyOn (inRows n) S' v := ⟨_, rfl⟩
  have AZ : Args o.vertDim dims Z T' P' v pr' := by rw [hZ]; exact args_onlyOn A' _
  have hshZ : Z.shape.eraseIdx v = n' :: r := by rw [hZ]; exact hsh'
  have cZ : ∀ m, inRows n m = true → castAt Z T' pr' v m = castAt S' T' pr' v m := by
    intro m hm; rw [hZ]; exact castAt_onlyOn hm
  have fZ : ∀ m, inRows n m = false → Few (castAt Z T' pr' v m) = true := by
    intro m hm; rw [hZ]; exact few_onlyOn L hm
  have crossZ : ∀ e ∈ E', inRows n (unravel (n' :: r) e.1.1) ≠ inRows n (unravel (n' :: r) e.1.2) → atSea (n' :: r) (castAt Z T' pr' v) e = false := by
    intro e _ hne
    unfold atSea
    cases h1 : inRows n (unravel (n' :: r) e.1.1)
    · rw [fZ _ h1]; rfl
    · cases h2 : inRows n (unravel (n' :: r) e.1.2)
      · rw [fZ _ h2]; exact Bool.and_false _
      · exact absurd (h1.trans h2.symm) hne
  have hfil : E'.filter (atSea (n' :: r) (castAt Z T' pr' v)) = E.filter (atSea (n :: r) (castAt S T pr v)) := by
    rw [← h, List.filter_filter]
    apply List.filter_congr
    intro e he
    cases h1 : inRows n (unravel (n' :: r) e.1.1)
    · rw [Bool.and_false]
      unfold atSea
      rw [fZ _ h1]; rfl
    · rw [Bool.and_true]
      cases h2 : inRows n (unravel (n' :: r) e.1.2)
      · rw [crossZ e he (by rw [h1, h2]; exact Bool.noConfusion), hcross e he (by rw [h1, h2]; exact Bool.noConfusion)]
      · unfold atSea
        rw [cZ _ h1, cZ _ h2]
  obtain ⟨up, down⟩ := omegaSurf_land_rows L hN (pml' := pml') A AZ hn hsh hshZ hE hE' hfuel hpc hm0 hsea
    (fun m hm => by rw [cZ m (inRows_of hm)]; exact hcast m hm)
    (fun m hm hne => fZ m (by
      cases hb : inRows n m
      · rfl
      · exact absurd ((valid_inRows hm).1 hb) hne))
    hfil hpml (cropStart_both hn hcast hp0)
  have hin := inRows_of hm0
  have hm0' := valid_more hn hm0
  have hcoastZ : ∀ e ∈ E', inRows n (unravel (Z.shape.eraseIdx v) e.1.1) ≠ inRows n (unravel (Z.shape.eraseIdx v) e.1.2) →
      atSea (Z.shape.eraseIdx v) (castAt Z T' pr' v) e = false ∧ atSea (Z.shape.eraseIdx v) (castAt S' T' pr' v) e = false := by
    rw [hshZ]
    exact fun e he hne => ⟨crossZ e he hne, hcross e he hne⟩
  have hcoast : ∀ e ∈ E', inRows n (unravel (S'.shape.eraseIdx v) e.1.1) ≠ inRows n (unravel (S'.shape.eraseIdx v) e.1.2) →
      atSea (S'.shape.eraseIdx v) (castAt S' T' pr' v) e = false ∧ atSea (S'.shape.eraseIdx v) (castAt Z T' pr' v) e = false := by
    rw [hsh']
    exact fun e he hne => ⟨hcross e he hne, crossZ e he hne⟩
  constructor
  · intro hs out st hrun
    obtain ⟨out1, st1, a1, a2, a3⟩ := up hs out st hrun
    obtain ⟨out2, st2, b1, b2, b3⟩ := omegaSurf_behind_land L hN (o := { o with pml := pml' }) (pml' := pml') (p0' := p0') AZ A' (by rw [hZ]; rfl)
      (by rw [hshZ]; exact hE') (by rw [hshZ]; exact hfuel) (B := inRows n) hcoastZ hpc (by rw [hshZ]; exact hm0') hin
      (by rw [cZ m0 hin, hcast m0 hm0]; exact hsea) (fun m _ hb => (cZ m hb).symm) (by rw [hshZ]; exact pmlRows_same _ hpml)
      (by rw [hshZ]; exact cropStart_same _ hp0) a1
    exact ⟨out2, st2, b1, by rw [b2, a2], fun m hm => by rw [b3 m (valid_more hn hm) (inRows_of hm), a3 m hm]⟩
  · intro hs' out' st' hrun
    obtain ⟨out1, st1, a1, a2, a3⟩ := omegaSurf_behind_land L hN (o := { o with pml := pml' }) (pml' := pml') (p0' := p0') A' AZ (by rw [hZ]; rfl)
      (by rw [hsh']; exact hE') (by rw [hsh']; exact hfuel) (B := inRows n) hcoast hpc (by rw [hsh']; exact hm0') hin
      (by rw [hcast m0 hm0]; exact hsea) (fun m _ hb => cZ m hb) (by rw [hsh']; exact pmlRows_same _ hpml)
      (by rw [hsh', hZ]; exact sameStart_only L (fun _ _ _ => rfl) (cropStart_same _ hp0)) hrun
    obtain ⟨out2, st2, b1, b2, b3⟩ := down _ _ _ a1
    refine ⟨out2, st2, b1, by rw [← b2, a2], fun m hm => ?_⟩
    have hhs : hs' = n' :: r := by
      obtain ⟨_, _, q, _⟩ := up _ _ _ b1
      rw [q] at a1
      exact ((Prod.mk.inj (FRes.ok.inj a1)).1).symm
    rw [← b3 m hm, a3 m (by rw [hhs]; exact valid_more hn hm) (inRows_of hm)]

/-! ## Rectilinear grids -/

/-- The links at sea within the first `n` rows of a rectilinear grid, open in the first dimension, are those of the grid of these rows. -/
theorem rectE_crop {n k nj : ℕ} (hn : 0 < n) {p1 : Bool} {x y yg xg : ℕ → ℕ → F} {cast cast' : List ℕ → Cast F}
    (hcast : ∀ i < n, ∀ j < nj, cast' [i, j] = cast [i, j]) :
    ((rectE (n + k) nj false p1 x y yg xg).filter fun e => inRows n (unravel [n + k, nj] e.1.1)).filter (atSea [n + k, nj] cast') =
      (rectE n nj false p1 x y yg xg).filter (atSea [n, nj] cast) := by
  have same : ∀ i < n, ∀ j < nj, cast' (unravel [n + k, nj] (Grid.cell nj i j)) = cast (unravel [n, nj] (Grid.cell nj i j)) := by
    intro i hi j hj
    rw [unravel_cell (by omega) hj, unravel_cell hi hj, hcast i hi j hj]
  have row : ∀ i < n + k, ∀ j < nj, inRows n (unravel [n + k, nj] (Grid.cell nj i j)) = decide (i < n) := by
    intro i hi j hj
    rw [unravel_cell hi hj]; rfl
  have part : ∀ (a m : ℕ) (f : ℕ → ℕ → (ℕ × ℕ) × F × F),
      (∀ i < a, ∀ j < m, atSea [n + k, nj] cast' (f i j) = atSea [n, nj] cast (f i j) ∧ inRows n (unravel [n + k, nj] (f i j).1.1) = true) →
      (∀ i < k, ∀ j < m, inRows n (unravel [n + k, nj] (f (a + i) j).1.1) = false) →
      ((Grid.flat (a + k) m f).filter fun e => inRows n (unravel [n + k, nj] e.1.1)).filter (atSea [n + k, nj] cast') =
        (Grid.flat a m f).filter (atSea [n, nj] cast) := by
    intro a m f h1 h2
    have e1 : ((Grid.flat k m fun i j => f (a + i) j).filter fun e => inRows n (unravel [n + k, nj] e.1.1)) = [] := by
      rw [List.filter_eq_nil_iff]
      intro e he
      obtain ⟨i, hi, j, hj, rfl⟩ := mem_flat_at he
      rw [h2 i hi j hj]; simp
    rw [flat_add, List.filter_append, e1, List.append_nil, List.filter_filter]
    apply List.filter_congr
    intro e he
    obtain ⟨i, hi, j, hj, rfl⟩ := mem_flat_at he
    rw [(h1 i hi j hj).1, (h1 i hi j hj).2, Bool.and_true]
  unfold rectE
  rw [List.filter_append, List.filter_append, List.filter_append]
  congr 1
  · have shape : ∀ N, Grid.flat (N - Grid.off false) nj (fun i j => ((Grid.cell nj (i + Grid.off false) j, Grid.cell nj (Grid.prev N false (i + Grid.off false)) j),
        x (i + Grid.off false) j, yg (i + Grid.off false) j)) = Grid.flat (N - 1) nj fun i j => ((Grid.cell nj (i + 1) j, Grid.cell nj i j), x (i + 1) j, yg (i + 1) j) := by
      intro N
      show Grid.flat (N - 1) nj _ = _
      apply flat_congr_at
      intro i hi j hj
      show ((Grid.cell nj (i + 1) j, Grid.cell nj (Grid.prev N false (i + 1)) j), x (i + 1) j, yg (i + 1) j) = _
      rw [prev_succ_at (by omega)]
    rw [shape, shape, show n + k - 1 = n - 1 + k by omega]
    refine part (n - 1) nj _ ?_ ?_
    · intro i hi j hj
      refine ⟨?_, ?_⟩
      · unfold atSea
        dsimp only
        rw [same (i + 1) (by omega) j hj, same i (by omega) j hj]
      · dsimp only
        rw [row (i + 1) (by omega) j hj]
        exact decide_eq_true (by omega)
    · intro i hi j hj
      dsimp only
      rw [row (n - 1 + i + 1) (by omega) j hj]
      exact decide_eq_false (by omega)
  · refine part n _ _ ?_ ?_
    · intro i hi j hj
      have hb : Grid.prev nj p1 (j + Grid.off p1) < nj := prev_lt (by omega) (by omega)
      refine ⟨?_, ?_⟩
      · unfold atSea
        dsimp only
        rw [same i hi _ (by omega), same i hi _ hb]
      · dsimp only
        rw [row i (by omega) _ (by omega)]
        exact decide_eq_true hi
    · intro i hi j hj
      dsimp only
      rw [row (n + i) (by omega) _ (by omega)]
      exact decide_eq_false (by omega)

/-- The links of a rectilinear grid, open in the first dimension, between the first `n` rows and the others touch land if one of the two rows there is land. -/
theorem rectE_coast {n k nj : ℕ} {p1 : Bool} {x y yg xg : ℕ → ℕ → F} {cast' : List ℕ → Cast F}
    (hland : (0 < n ∧ ∀ j < nj, Few (cast' [n - 1, j]) = true) ∨ ∀ j < nj, Few (cast' [n, j]) = true) :
    ∀ e ∈ rectE (n + k) nj false p1 x y yg xg, inRows n (unravel [n + k, nj] e.1.1) ≠ inRows n (unravel [n + k, nj] e.1.2) → atSea [n + k, nj] cast' e = false := by
  intro e he hne
  rcases List.mem_append.1 he with he | he
  · obtain ⟨i, hi, j, hj, rfl⟩ := mem_flat_at he
    have hi : i < n + k - 1 := hi
    dsimp only at hne
    unfold atSea
    dsimp only
    have ep : Grid.prev (n + k) false (i + Grid.off false) = i := prev_succ_at (show i + 1 < n + k by omega) false
    have e1 : unravel [n + k, nj] (Grid.cell nj (i + Grid.off false) j) = [i + 1, j] := unravel_cell (i := i + 1) (by omega) hj
    rw [ep, e1, unravel_cell (by omega) hj] at hne ⊢
    obtain rfl : i + 1 = n := by
      by_contra hc
      refine hne ?_
      unfold inRows
      show decide (i + 1 < n) = decide (i < n)
      exact decide_eq_decide.2 (by omega)
    rcases hland with ⟨_, h⟩ | h
    · have := h j hj
      rw [Nat.add_sub_cancel] at this
      rw [this]; exact Bool.and_false _
    · rw [h j hj]; rfl
  · obtain ⟨i, hi, j, hj, rfl⟩ := mem_flat_at he
    have hb : Grid.prev nj p1 (j + Grid.off p1) < nj := prev_lt (by omega) (by omega)
    dsimp only at hne
    rw [unravel_cell hi (by omega), unravel_cell hi hb] at hne
    exact absurd rfl hne

/-- **C194, rectilinear grids.** An ocean on a rectilinear grid, open in the first dimension, may be cropped before or after a row of land. -/
theorem omegaSurf_rect_crop (L : NanLaws F) (hN : isNaN (nan : F) = true) {o : Opts F} {pml' : Option (Nd F)} {dims : Option (List String)}
    {coord : String → Option (List ℚ)} {S T S' T' : Nd F} {P P' : PArg F} {v : ℕ} {pr pr' : List ℕ → ℕ → F} (A : Args o.vertDim dims S T P v pr)
    (A' : Args o.vertDim dims S' T' P' v pr') {n k nj : ℕ} (hsh : S.shape.eraseIdx v = [n, nj]) (hsh' : S'.shape.eraseIdx v = [n + k, nj])
    {p1 : Bool} {dxC dyC dyG dxG dxC' dyC' dyG' dxG' : Grid.Data F} {x y yg xg : ℕ → ℕ → F}
    (hx : Grid.broadcastTo n nj dxC = .ok x) (hy : Grid.broadcastTo n nj dyC = .ok y) (hyg : Grid.broadcastTo n nj dyG = .ok yg) (hxg : Grid.broadcastTo n nj dxG = .ok xg)
    (hx' : Grid.broadcastTo (n + k) nj dxC' = .ok x) (hy' : Grid.broadcastTo (n + k) nj dyC' = .ok y)
    (hyg' : Grid.broadcastTo (n + k) nj dyG' = .ok yg) (hxg' : Grid.broadcastTo (n + k) nj dxG' = .ok xg)
    {g g' : Grid.G F} (hg : Grid.rectGrid n nj false p1 dxC dyC dyG dxG = .ok g) (hg' : Grid.rectGrid (n + k) nj false p1 dxC' dyC' dyG' dxG' = .ok g')
    (hfuel : (n + k) * nj < o.fuel) {pc : PinCast} {i0 j0 : ℕ} (hpc : processPinCast coord pc = .ok [(i0 : ℤ), (j0 : ℤ)]) (hi0 : i0 < n) (hj0 : j0 < nj)
    (hsea : Few (castAt S T pr v [i0, j0]) = false) (hcast : ∀ i < n, ∀ j < nj, castAt S' T' pr' v [i, j] = castAt S T pr v [i, j])
    (hland : (∀ j < nj, Few (castAt S' T' pr' v [n - 1, j]) = true) ∨ ∀ j < nj, Few (castAt S' T' pr' v [n, j]) = true)
    (hpml : PmlRows n (n + k) [nj] o.pml pml') {p0 p0' : PArgInit F} (hp0 : CropStart n (n + k) [nj] o.kind (fun m => castAt S' T' pr' v m) p0 p0') :
    (∀ hs out st, omegaSurf o dims coord S T P ⟨g.edges, some g.dist, some g.distperp⟩ pc p0 = .ok (hs, out, st) →
      ∃ out' st', omegaSurf { o with pml := pml' } dims coord S' T' P' ⟨g'.edges, some g'.dist, some g'.distperp⟩ pc p0' = .ok ([n + k, nj], out', st') ∧
        st'.last = st.last ∧ ∀ i < n, ∀ j < nj, out' [i, j] = out [i, j]) ∧
    ∀ hs' out' st', omegaSurf { o with pml := pml' } dims coord S' T' P' ⟨g'.edges, some g'.dist, some g'.distperp⟩ pc p0' = .ok (hs', out', st') →
      ∃ out st, omegaSurf o dims coord S T P ⟨g.edges, some g.dist, some g.distperp⟩ pc p0 = .ok ([n, nj], out, st) ∧
        st'.last = st.last ∧ ∀ i < n, ∀ j < nj, out' [i, j] = out [i, j] := by
  obtain ⟨g1, h1, e1⟩ := rectGrid_gridL (p0 := false) (p1 := p1) hx hy hyg hxg
  obtain ⟨g2, h2, e2⟩ := rectGrid_gridL (p0 := false) (p1 := p1) hx' hy' hyg' hxg'
  rw [hg] at h1
  rw [hg'] at h2
  cases h1
  cases h2
  rw [e1, e2]
  have two : ∀ {N : ℕ} {m : List ℕ}, Valid [N, nj] m → ∃ i j, m = [i, j] ∧ i < N ∧ j < nj := by
    intro N m hm
    cases hm with
    | cons a b =>
      cases b with
      | cons b c => cases c; exact ⟨_, _, rfl, a, b⟩
  have mk : ∀ {N i j : ℕ}, i < N → j < nj → Valid [N, nj] [i, j] := fun a b => .cons a (.cons b .nil)
  obtain ⟨a, b⟩ := omegaSurf_crop L hN (pml' := pml') A A' (Nat.le_add_right n k) hsh hsh' rectE_range rectE_range
    (by rw [List.prod_cons, List.prod_singleton]; exact hfuel) (m0 := [i0, j0]) hpc (mk hi0 hj0) hsea
    (fun m hm => by obtain ⟨i, j, rfl, hi, hj⟩ := two hm; exact hcast i hi j hj)
    (rectE_coast (p1 := p1) (x := x) (y := y) (yg := yg) (xg := xg) (hland.imp_left fun h => ⟨by omega, h⟩))
    (rectE_crop (p1 := p1) (x := x) (y := y) (yg := yg) (xg := xg) (by omega) hcast) hpml hp0
  constructor
  · intro hs out st hr
    obtain ⟨out', st', q1, q2, q3⟩ := a hs out st hr
    exact ⟨out', st', q1, q2, fun i hi j hj => q3 _ (mk hi hj)⟩
  · intro hs out st hr
    obtain ⟨out', st', q1, q2, q3⟩ := b hs out st hr
    exact ⟨out', st', q1, q2, fun i hi j hj => q3 _ (mk hi hj)⟩

/-! ## Example: the row of four casts, the third of them land, and its first two casts -/

def cropG : GridDict (Fl ℚ) :=
  match Grid.rectGrid 2 1 false false (.scalar (.fin 1)) (.scalar (.fin 1)) (.scalar (.fin 1)) (.scalar (.fin (1 : ℚ))) with
  | .ok g => ⟨g.edges, some g.dist, some g.distperp⟩
  | _ => ⟨[], none, none⟩

theorem crop_run : (match omegaSurf (demoO "poisson") none (fun _ => none) twoS twoT demoP cropG (.tuple [0, 0]) (.scalar (.fin 2)) with
      | .ok r => some (r.1, (r.2.1 [0, 0]).2.2, (r.2.1 [1, 0]).2.2) | _ => none) = some ([2, 1], .fin 2, .fin 1) := by
  decide +kernel

/-- Whatever the lake in the last row, the run on the four casts gives what the run on the first two gives. -/
example (x y : ℕ) : ∃ g', Grid.rectGrid (F := Fl ℚ) 4 1 false false (.scalar (.fin 1)) (.scalar (.fin 1)) (.scalar (.fin 1)) (.scalar (.fin 1)) = .ok g' ∧
    ∃ out st, omegaSurf (demoO "poisson") none (fun _ => none) (damS x y) damT demoP ⟨g'.edges, some g'.dist, some g'.distperp⟩ (.tuple [0, 0]) (.scalar (.fin 2)) =
      .ok ([4, 1], out, st) ∧ (out [0, 0]).2.2 = .fin 2 ∧ (out [1, 0]).2.2 = .fin 1 := by
  obtain ⟨g, hg, -⟩ := rectGrid_gridL (F := Fl ℚ) (ni := 2) (nj := 1) (p0 := false) (p1 := false) (dxC := .scalar (.fin 1)) (dyC := .scalar (.fin 1))
    (dyG := .scalar (.fin 1)) (dxG := .scalar (.fin 1)) rfl rfl rfl rfl
  obtain ⟨g', hg', -⟩ := rectGrid_gridL (F := Fl ℚ) (ni := 4) (nj := 1) (p0 := false) (p1 := false) (dxC := .scalar (.fin 1)) (dyC := .scalar (.fin 1))
    (dyG := .scalar (.fin 1)) (dxG := .scalar (.fin 1)) rfl rfl rfl rfl
  refine ⟨g', hg', ?_⟩
  have e : cropG = (⟨g.edges, some g.dist, some g.distperp⟩ : GridDict (Fl ℚ)) := by unfold cropG; rw [hg]
  have h := crop_run
  rw [e] at h
  have hrun : ∀ r, omegaSurf (demoO "poisson") none (fun _ => none) twoS twoT demoP ⟨g.edges, some g.dist, some g.distperp⟩ (.tuple [0, 0]) (.scalar (.fin 2)) = r →
      ∃ out st, r = .ok ([2, 1], out, st) ∧ (out [0, 0]).2.2 = .fin 2 ∧ (out [1, 0]).2.2 = .fin 1 := by
    intro r hr
    rw [hr] at h
    match r, h with
    | .ok (a, out, st), h =>
      simp only [Option.some.injEq, Prod.mk.injEq] at h
      exact ⟨out, st, by rw [h.1], h.2.1, h.2.2⟩
  obtain ⟨out, st, hr, h0, h1⟩ := hrun _ rfl
  obtain ⟨a, -⟩ := omegaSurf_rect_crop nanLaws_fl rfl (o := demoO "poisson") (pml' := none) two_args (dam_args x y) (n := 2) (k := 2) (nj := 1) rfl rfl
    (p1 := false) (dxC := .scalar (.fin 1)) (dyC := .scalar (.fin 1)) (dyG := .scalar (.fin 1)) (dxG := .scalar (.fin 1))
    (dxC' := .scalar (.fin 1)) (dyC' := .scalar (.fin 1)) (dyG' := .scalar (.fin 1)) (dxG' := .scalar (.fin 1)) rfl rfl rfl rfl rfl rfl rfl rfl hg hg'
    (by show (2 + 2) * 1 < 200; decide) (pc := .tuple [0, 0]) (coord := fun _ => none) (i0 := 0) (j0 := 0) rfl (by decide) (by decide) (by decide +kernel)
    (by
      intro i hi j hj
      obtain rfl : j = 0 := by omega
      have : i = 0 ∨ i = 1 := by omega
      rcases this with rfl | rfl <;> rfl)
    (.inr (by
      intro j hj
      obtain rfl : j = 0 := by omega
      exact dam_few x y))
    trivial (p0 := .scalar (.fin 2)) (p0' := .scalar (.fin 2)) rfl
  obtain ⟨out', st', c1, -, c3⟩ := a _ _ _ hr
  exact ⟨out', st', c1, by rw [c3 0 (by decide) 0 (by decide)]; exact h0, by rw [c3 1 (by decide) 0 (by decide)]; exact h1⟩

end Omega
