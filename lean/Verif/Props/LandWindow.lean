import Verif.Props.LandBack

/-! # An ocean may be cropped to a window along land (C196) -/

set_option linter.unusedSectionVars false

namespace Omega
open FloatLike Lib Bfs
variable {F : Type*} [FloatLike F]

/-- The cast is in the window of `ni` rows from row `a` and `nj` columns from column `b`. -/
def inWin (a ni b nj : ℕ) (m : List ℕ) : Bool := decide ((a ≤ m.getD 0 0 ∧ m.getD 0 0 < a + ni) ∧ b ≤ m.getD 1 0 ∧ m.getD 1 0 < b + nj)

theorem inWin_pair {a ni b nj i j : ℕ} : inWin a ni b nj [i, j] = true ↔ (a ≤ i ∧ i < a + ni) ∧ b ≤ j ∧ j < b + nj := by
  unfold inWin
  exact decide_eq_true_iff

theorem pmlIn_self {hs hs' : List ℕ} {φ : List ℕ → List ℕ} {x y : Option (Nd F)} (B : List ℕ → Bool) (h : PmlIn hs hs' φ x y) : AgreePml hs' B y y := by
  cases x <;> cases y
  · trivial
  · exact h.elim
  · exact h.elim
  · exact ⟨h.2.1, h.2.1, fun _ _ _ => rfl⟩

/-- Interpolation to the initial surface raises nowhere. -/
def Interpolable (hs : List ℕ) (kind : PPKind) (casts : List ℕ → Cast F) : PArgInit F → Prop
  | .array p => ∀ m, Valid hs m → (interpOn kind (casts m) (p.get m)).isSome = true
  | _ => True

theorem startIn_self {hs hs' : List ℕ} {φ : List ℕ → List ℕ} {kind : PPKind} {casts : List ℕ → Cast F} {x y : PArgInit F} (B : List ℕ → Bool)
    (h : StartIn hs hs' φ x y) (hi : Interpolable hs' kind casts y) : SameStart hs' B kind casts y y := by
  cases x <;> cases y
  case scalar.scalar => exact rfl
  case array.array => exact ⟨h.1, fun _ _ _ => rfl, hi⟩
  all_goals exact h.elim

/-- Of two neighbouring casts of the larger grid, one in the window and one not, one is land. -/
def Coast (NI NJ a ni b nj : ℕ) (cast : List ℕ → Cast F) : Prop :=
  (∀ i j, i + 1 < NI → j < NJ → inWin a ni b nj [i + 1, j] ≠ inWin a ni b nj [i, j] → Few (cast [i + 1, j]) = true ∨ Few (cast [i, j]) = true) ∧
  ∀ i j, i < NI → j + 1 < NJ → inWin a ni b nj [i, j + 1] ≠ inWin a ni b nj [i, j] → Few (cast [i, j + 1]) = true ∨ Few (cast [i, j]) = true

theorem rectE_window {NI NJ a ni b nj : ℕ} {x y yg xg : ℕ → ℕ → F} {cast : List ℕ → Cast F} (h : Coast NI NJ a ni b nj cast) :
    ∀ e ∈ rectE NI NJ false false x y yg xg, inWin a ni b nj (unravel [NI, NJ] e.1.1) ≠ inWin a ni b nj (unravel [NI, NJ] e.1.2) → atSea [NI, NJ] cast e = false := by
  intro e he hne
  rw [rectE_open] at he
  rcases List.mem_append.1 he with he | he
  · obtain ⟨i, hi, j, hj, rfl⟩ := mem_flat_at he
    unfold atSea
    dsimp only at hne ⊢
    rw [unravel_cell (by omega) hj, unravel_cell (by omega) hj] at hne ⊢
    rcases h.1 i j (by omega) hj hne with h | h
    · rw [h]; rfl
    · rw [h]; exact Bool.and_false _
  · obtain ⟨i, hi, j, hj, rfl⟩ := mem_flat_at he
    unfold atSea
    dsimp only at hne ⊢
    rw [unravel_cell hi (by omega), unravel_cell hi (by omega)] at hne ⊢
    rcases h.2 i j hi (by omega) hne with h | h
    · rw [h]; rfl
    · rw [h]; exact Bool.and_false _

/-- **C196.** An ocean on an open rectilinear grid may be cropped to any window that it meets only across land: `omega_surf` returns on the window exactly if it returns on the
whole, after the same number of passes, with the same surface in the window, to the last bit. -/
theorem omegaSurf_rect_window (L : NanLaws F) (hN : isNaN (nan : F) = true) {o : Opts F} {pml' : Option (Nd F)} {dims : Option (List String)}
    {coord : String → Option (List ℚ)} {S T S' T' : Nd F} {P P' : PArg F} {v : ℕ} {pr pr' : List ℕ → ℕ → F} (A : Args o.vertDim dims S T P v pr)
    (A' : Args o.vertDim dims S' T' P' v pr') {ni nj a c b d : ℕ} (hsh : S.shape.eraseIdx v = [ni, nj]) (hsh' : S'.shape.eraseIdx v = [a + ni + c, b + nj + d])
    {dxC dyC dyG dxG dxC' dyC' dyG' dxG' : Grid.Data F} {x y yg xg x' y' yg' xg' : ℕ → ℕ → F}
    (hx : Grid.broadcastTo ni nj dxC = .ok x) (hy : Grid.broadcastTo ni nj dyC = .ok y) (hyg : Grid.broadcastTo ni nj dyG = .ok yg) (hxg : Grid.broadcastTo ni nj dxG = .ok xg)
    (hx' : Grid.broadcastTo (a + ni + c) (b + nj + d) dxC' = .ok x') (hy' : Grid.broadcastTo (a + ni + c) (b + nj + d) dyC' = .ok y')
    (hyg' : Grid.broadcastTo (a + ni + c) (b + nj + d) dyG' = .ok yg') (hxg' : Grid.broadcastTo (a + ni + c) (b + nj + d) dxG' = .ok xg')
    (hlen : ∀ i < ni, ∀ j < nj, x' (a + i) (b + j) = x i j ∧ y' (a + i) (b + j) = y i j ∧ yg' (a + i) (b + j) = yg i j ∧ xg' (a + i) (b + j) = xg i j)
    {g g' : Grid.G F} (hg : Grid.rectGrid ni nj false false dxC dyC dyG dxG = .ok g)
    (hg' : Grid.rectGrid (a + ni + c) (b + nj + d) false false dxC' dyC' dyG' dxG' = .ok g') (hfuel : (a + ni + c) * (b + nj + d) < o.fuel)
    {pc pc' : PinCast} {i0 j0 : ℕ} (hpc : processPinCast coord pc = .ok [(i0 : ℤ), (j0 : ℤ)])
    (hpc' : processPinCast coord pc' = .ok [((a + i0 : ℕ) : ℤ), ((b + j0 : ℕ) : ℤ)]) (hi0 : i0 < ni) (hj0 : j0 < nj)
    (hsea : Few (castAt S T pr v [i0, j0]) = false) (hcast : ∀ i < ni, ∀ j < nj, castAt S' T' pr' v [a + i, b + j] = castAt S T pr v [i, j])
    (hcoast : Coast (a + ni + c) (b + nj + d) a ni b nj (castAt S' T' pr' v))
    (hpml : PmlIn [ni, nj] [a + ni + c, b + nj + d] (shiftAt a b) o.pml pml') {p0 p0' : PArgInit F}
    (hp0 : StartIn [ni, nj] [a + ni + c, b + nj + d] (shiftAt a b) p0 p0') (hps : ShapeIs [ni, nj] p0)
    (hint : Interpolable [a + ni + c, b + nj + d] o.kind (fun m => castAt S' T' pr' v m) p0') :
    (∀ hs out st, omegaSurf o dims coord S T P ⟨g.edges, some g.dist, some g.distperp⟩ pc p0 = .ok (hs, out, st) →
      ∃ out' st', omegaSurf { o with pml := pml' } dims coord S' T' P' ⟨g'.edges, some g'.dist, some g'.distperp⟩ pc' p0' =
        .ok ([a + ni + c, b + nj + d], out', st') ∧ st'.last = st.last ∧ ∀ i < ni, ∀ j < nj, out' [a + i, b + j] = out [i, j]) ∧
    ∀ hs' out' st', omegaSurf { o with pml := pml' } dims coord S' T' P' ⟨g'.edges, some g'.dist, some g'.distperp⟩ pc' p0' = .ok (hs', out', st') →
      ∃ out st, omegaSurf o dims coord S T P ⟨g.edges, some g.dist, some g.distperp⟩ pc p0 = .ok ([ni, nj], out, st) ∧ st'.last = st.last ∧
        ∀ i < ni, ∀ j < nj, out' [a + i, b + j] = out [i, j] := by
  obtain ⟨g2, h2, e2⟩ := rectGrid_gridL (p0 := false) (p1 := false) hx' hy' hyg' hxg'
  have h2' := h2
  rw [hg'] at h2'
  cases h2'
  obtain ⟨B, hB⟩ : ∃ B, B = inWin a ni b nj := ⟨_, rfl⟩
  obtain ⟨Z, hZ⟩ : ∃ Z, Z = onlyOn B S' v := ⟨_, rfl⟩
  have AZ : Args o.vertDim dims Z T' P' v pr' := by rw [hZ]; exact args_onlyOn A' _
  have hshZ : Z.shape.eraseIdx v = [a + ni + c, b + nj + d] := by rw [hZ]; exact hsh'
  have cZ : ∀ m, B m = true → castAt Z T' pr' v m = castAt S' T' pr' v m := by
    intro m hm; rw [hZ]; exact castAt_onlyOn hm
  have fZ : ∀ m, B m = false → Few (castAt Z T' pr' v m) = true := by
    intro m hm; rw [hZ]; exact few_onlyOn L hm
  have inB : ∀ i < ni, ∀ j < nj, B [a + i, b + j] = true := by
    intro i hi j hj
    rw [hB, inWin_pair]; omega
  have castZ : ∀ i < ni, ∀ j < nj, castAt Z T' pr' v [a + i, b + j] = castAt S T pr v [i, j] := by
    intro i hi j hj
    rw [cZ _ (inB i hi j hj), hcast i hi j hj]
  have landZ : ∀ i < a + ni + c, ∀ j < b + nj + d, ¬ ((a ≤ i ∧ i < a + ni) ∧ b ≤ j ∧ j < b + nj) → Few (castAt Z T' pr' v [i, j]) = true := by
    intro i _ j _ hn
    apply fZ
    rw [hB]
    exact Bool.eq_false_iff.2 fun hc => hn (inWin_pair.1 hc)
  have cross : ∀ e ∈ rectE (a + ni + c) (b + nj + d) false false x' y' yg' xg', B (unravel [a + ni + c, b + nj + d] e.1.1) ≠ B (unravel [a + ni + c, b + nj + d] e.1.2) →
      atSea [a + ni + c, b + nj + d] (castAt S' T' pr' v) e = false := by
    rw [hB]; exact rectE_window hcoast
  have crossZ : ∀ e : (ℕ × ℕ) × F × F, B (unravel [a + ni + c, b + nj + d] e.1.1) ≠ B (unravel [a + ni + c, b + nj + d] e.1.2) →
      atSea [a + ni + c, b + nj + d] (castAt Z T' pr' v) e = false := by
    intro e hne
    unfold atSea
    cases h1 : B (unravel [a + ni + c, b + nj + d] e.1.1)
    · rw [fZ _ h1]; rfl
    · cases h2 : B (unravel [a + ni + c, b + nj + d] e.1.2)
      · rw [fZ _ h2]; exact Bool.and_false _
      · exact absurd (h1.trans h2.symm) hne
  have hv0 : Valid [a + ni + c, b + nj + d] [a + i0, b + j0] := valid_pair (by omega) (by omega)
  have hfuel' : [a + ni + c, b + nj + d].prod < o.fuel := by rw [List.prod_cons, List.prod_singleton]; exact hfuel
  constructor
  · intro hs out st hrun
    obtain ⟨out1, st1, a1, a2, a3⟩ := omegaSurf_rect_margin L hN (pml' := pml') A AZ hsh hshZ hx hy hyg hxg hx' hy' hyg' hxg' hlen hg hg' hfuel hpc hpc' hi0 hj0 hsea castZ
      landZ hpml hp0 hrun
    rw [e2] at a1 ⊢
    obtain ⟨out2, st2, b1, b2, b3⟩ := omegaSurf_behind_land L hN (o := { o with pml := pml' }) (pml' := pml') (p0' := p0') AZ A' (by rw [hZ]; rfl)
      (by rw [hshZ]; exact rectE_range) (by rw [hshZ]; exact hfuel') (B := B) (by rw [hshZ]; exact fun e he hne => ⟨crossZ e hne, cross e he hne⟩)
      (m0 := [a + i0, b + j0]) hpc' (by rw [hshZ]; exact hv0) (inB i0 hi0 j0 hj0)
      (by rw [castZ i0 hi0 j0 hj0]; exact hsea) (fun m _ hb => (cZ m hb).symm) (by rw [hshZ]; exact pmlIn_self _ hpml)
      (by rw [hshZ]; exact startIn_self _ hp0 hint) a1
    exact ⟨out2, st2, b1, by rw [b2, a2], fun i hi j hj => by rw [b3 _ (valid_pair (by omega) (by omega)) (inB i hi j hj), a3 i hi j hj]⟩
  · intro hs' out' st' hrun
    rw [e2] at hrun
    obtain ⟨out1, st1, a1, a2, a3⟩ := omegaSurf_behind_land L hN (o := { o with pml := pml' }) (pml' := pml') (p0' := p0') A' AZ (by rw [hZ]; rfl)
      (by rw [hsh']; exact rectE_range) (by rw [hsh']; exact hfuel') (B := B) (by rw [hsh']; exact fun e he hne => ⟨cross e he hne, crossZ e hne⟩)
      (m0 := [a + i0, b + j0]) hpc' (by rw [hsh']; exact hv0) (inB i0 hi0 j0 hj0)
      (by rw [hcast i0 hi0 j0 hj0]; exact hsea) (fun m _ hb => cZ m hb) (by rw [hsh']; exact pmlIn_self _ hpml)
      (by rw [hsh', hZ]; exact sameStart_only L (fun _ _ _ => rfl) (startIn_self _ hp0 hint)) hrun
    rw [← e2] at a1
    obtain ⟨out2, st2, b1, b2, b3⟩ := omegaSurf_rect_trim L hN (pml' := pml') A AZ hsh hshZ hx hy hyg hxg hx' hy' hyg' hxg' hlen hg hg' hfuel hpc hpc' hi0 hj0 hsea castZ
      landZ hpml hp0 hps a1
    have hhs : hs' = [a + ni + c, b + nj + d] := by
      obtain ⟨_, _, q, _⟩ := omegaSurf_rect_margin L hN (pml' := pml') A AZ hsh hshZ hx hy hyg hxg hx' hy' hyg' hxg' hlen hg hg' hfuel hpc hpc' hi0 hj0 hsea castZ
        landZ hpml hp0 b1
      rw [q] at a1
      exact ((Prod.mk.inj (FRes.ok.inj a1)).1).symm
    refine ⟨out2, st2, b1, by rw [← b2, a2], fun i hi j hj => ?_⟩
    rw [← b3 i hi j hj, a3 _ (by rw [hhs]; exact valid_pair (by omega) (by omega)) (inB i hi j hj)]

/-! ## Example: four rows and three columns with sea in the four corners; the window is the two casts of the middle column between land -/

def windowS : Nd (Fl ℚ) := ⟨[4, 4, 3], fun m => if (m.getD 1 0 = 1 ∨ m.getD 1 0 = 2) ∧ m.getD 2 0 = 1 then twoS.get [m.getD 0 0, m.getD 1 0 - 1, m.getD 2 0 - 1] else
  if (m.getD 1 0 = 0 ∨ m.getD 1 0 = 3) ∧ m.getD 2 0 ≠ 1 then .fin (m.getD 0 0) else .nan⟩

theorem window_args : Args (.int 0) none windowS marginT demoP 0 (fun _ k => .fin k) := ⟨rfl, by show 0 < 3; decide, rfl, rfl, fun _ _ => rfl⟩

theorem window_coast : Coast (1 + 2 + 1) (1 + 1 + 1) 1 2 1 1 (castAt windowS marginT (fun _ k => .fin k) 0) := by
  have h1 : ∀ i < 3, ∀ j < 3, inWin 1 2 1 1 [i + 1, j] ≠ inWin 1 2 1 1 [i, j] →
      Few (castAt windowS marginT (fun _ k => .fin k) 0 [i + 1, j]) = true ∨ Few (castAt windowS marginT (fun _ k => .fin k) 0 [i, j]) = true := by decide +kernel
  have h2 : ∀ i < 4, ∀ j < 2, inWin 1 2 1 1 [i, j + 1] ≠ inWin 1 2 1 1 [i, j] →
      Few (castAt windowS marginT (fun _ k => .fin k) 0 [i, j + 1]) = true ∨ Few (castAt windowS marginT (fun _ k => .fin k) 0 [i, j]) = true := by decide +kernel
  exact ⟨fun i j hi hj => h1 i (by omega) j (by omega), fun i j hi hj => h2 i (by omega) j (by omega)⟩

/-- The corners are sea. -/
example : Few (castAt windowS marginT (fun _ k => .fin k) 0 [0, 0]) = false ∧ Few (castAt windowS marginT (fun _ k => .fin k) 0 [3, 2]) = false := by decide +kernel

/-- The run on the whole, pinned at its cast `[1, 1]`, gives what the run on the window gives, and that is not the initial pressure everywhere. -/
example : ∃ g', Grid.rectGrid (F := Fl ℚ) 4 3 false false (.scalar (.fin 1)) (.scalar (.fin 1)) (.scalar (.fin 1)) (.scalar (.fin 1)) = .ok g' ∧
    ∃ out st, omegaSurf (demoO "poisson") none (fun _ => none) windowS marginT demoP ⟨g'.edges, some g'.dist, some g'.distperp⟩ (.tuple [1, 1]) (.scalar (.fin 2)) =
      .ok ([4, 3], out, st) ∧ (out [1, 1]).2.2 = .fin 2 ∧ (out [2, 1]).2.2 = .fin 1 := by
  obtain ⟨g, hg, -⟩ := rectGrid_gridL (F := Fl ℚ) (ni := 2) (nj := 1) (p0 := false) (p1 := false) (dxC := .scalar (.fin 1)) (dyC := .scalar (.fin 1))
    (dyG := .scalar (.fin 1)) (dxG := .scalar (.fin 1)) rfl rfl rfl rfl
  obtain ⟨g', hg', -⟩ := rectGrid_gridL (F := Fl ℚ) (ni := 4) (nj := 3) (p0 := false) (p1 := false) (dxC := .scalar (.fin 1)) (dyC := .scalar (.fin 1))
    (dyG := .scalar (.fin 1)) (dxG := .scalar (.fin 1)) rfl rfl rfl rfl
  refine ⟨g', hg', ?_⟩
  have e : cropG = (⟨g.edges, some g.dist, some g.distperp⟩ : GridDict (Fl ℚ)) := by unfold cropG; rw [hg]
  have h := crop_run
  rw [e] at h
  have hrun : ∀ r, omegaSurf (demoO "poisson") none (fun _ => none) twoS twoT demoP ⟨g.edges, some g.dist, some g.distperp⟩ (.tuple [0, 0]) (.scalar (.fin 2)) = r →
      ∃ out st, r = .ok ([2, 1], out, st) ∧ (out [0, 0]).2.2 = .fin 2 ∧ (out [1, 0]).2.2 = .fin 1 := by
    intro r hr
    rw [hr] at h
    match r, h with
    | .ok (a, out, st), h =>
      simp only [Option.some.injEq, Prod.mk.injEq] at h
      exact ⟨out, st, by rw [h.1], h.2.1, h.2.2⟩
  obtain ⟨out, st, hr, h0, h1⟩ := hrun _ rfl
  obtain ⟨q, -⟩ := omegaSurf_rect_window nanLaws_fl rfl (o := demoO "poisson") (pml' := none) two_args window_args (ni := 2) (nj := 1) (a := 1) (c := 1)
    (b := 1) (d := 1) rfl rfl (dxC := .scalar (.fin 1)) (dyC := .scalar (.fin 1)) (dyG := .scalar (.fin 1)) (dxG := .scalar (.fin 1))
    (dxC' := .scalar (.fin 1)) (dyC' := .scalar (.fin 1)) (dyG' := .scalar (.fin 1)) (dxG' := .scalar (.fin 1)) rfl rfl rfl rfl rfl rfl rfl rfl
    (fun _ _ _ _ => ⟨rfl, rfl, rfl, rfl⟩) hg hg'
    (by show (1 + 2 + 1) * (1 + 1 + 1) < 200; decide) (pc := .tuple [0, 0]) (pc' := .tuple [1, 1]) (coord := fun _ => none) (i0 := 0) (j0 := 0) rfl rfl
    (by decide) (by decide) (by decide +kernel)
    (by
      intro i hi j hj
      obtain rfl : j = 0 := by omega
      have : i = 0 ∨ i = 1 := by omega
      rcases this with rfl | rfl <;> rfl)
    window_coast trivial (p0 := .scalar (.fin 2)) (p0' := .scalar (.fin 2)) rfl trivial trivial
  obtain ⟨out', st', c1, -, c3⟩ := q _ _ _ hr
  exact ⟨out', st', c1, by rw [c3 0 (by decide) 0 (by decide)]; exact h0, by rw [c3 1 (by decide) 0 (by decide)]; exact h1⟩

end Omega
