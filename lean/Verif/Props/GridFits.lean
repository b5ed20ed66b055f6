import Verif.Props.OmegaApi
import Verif.Props.Grid
import Verif.Props.Graph
import Verif.Props.Xgcm
set_option linter.unusedSectionVars false

/-!
# A surface can be computed on every grid that is built (C160)

Each of the five ways to build a grid, followed by `omega_surf` on data of the same shape.
-/

namespace Omega
open FloatLike Lib Traj Bfs VertSolve
open Fl hiding nan

/-- Well formed arguments other than the grid: arrays, equation of state, casts, solver, pinning cast and options. -/
structure Ocean (o : Opts (Fl ℝ)) (dims : Option (List String)) (coord : String → Option (List ℚ)) (S T : Nd (Fl ℝ)) (P : PArg (Fl ℝ))
    (v : ℕ) (pr : List ℕ → ℕ → Fl ℝ) (pc : PinCast) (m0 : List ℕ) (p0 : ℝ) (e : ℝ → ℝ → ℝ → ℝ) (smin tol : ℝ) (n : ℕ) : Prop where
  args : Args o.vertDim dims S T P v pr
  horiz : 2 ≤ S.shape.length
  pin : processPinCast coord pc = .ok (m0.map fun i : ℕ => (i : ℤ))
  valid : Valid (S.shape.eraseIdx v) m0
  solver : (o.formulation.toLower = "poisson" ∧ ∃ η, 0 ≤ η ∧ OmegaMat.NearSolve η o.spsolve) ∨
    (o.formulation.toLower = "gradient" ∧ ∃ g, 0 ≤ g ∧ OmegaMat.NearLsqr g o.lsqr ∧ ∀ x : ℝ, 0 < x → o.sqrt (fin x) = fin (√x))
  tolEq : o.tol = fin tol
  tolPos : 0 < tol
  fuel : o.fuel = n + 13
  enough : (S.shape.eraseIdx v).prod < o.fuel
  eos : EosOn o.eos e smin
  der : ∀ s t p : ℝ, smin ≤ s → ∃ x y, o.eosST (fin s) (fin t) (fin p) = (fin x, fin y)
  casts : ∀ m, Valid (S.shape.eraseIdx v) m → Land (castAt S T pr v m) ∨ ∃ A B, Sea (castAt S T pr v m) smin tol n A B
  start : ∃ A B, Sea (castAt S T pr v m0) smin tol n A B ∧ A ≤ p0 ∧ p0 ≤ B
  below : ∀ x, o.pml = some x → x.shape = S.shape.eraseIdx v ∧ lt (fin p0) (x.get m0) = false
  diags : o.diags = true → 1 ≤ o.iterMax

/-- All entries are positive numbers. -/
def AllPos (l : List (Fl ℝ)) : Prop := ∀ x ∈ l, ∃ r : ℝ, 0 < r ∧ x = fin r

/-- On this grid the surface is computed: it has the shape of the data without the vertical dimension, goes through `p0` at the pinning cast, and is on
the cast wherever it exists. -/
def Computes (o : Opts (Fl ℝ)) (dims : Option (List String)) (coord : String → Option (List ℚ)) (S T : Nd (Fl ℝ)) (P : PArg (Fl ℝ))
    (v : ℕ) (pr : List ℕ → ℕ → Fl ℝ) (pc : PinCast) (m0 : List ℕ) (p0 smin : ℝ) (edges : List (ℕ × ℕ)) (dist perp : List (Fl ℝ)) : Prop :=
  ∀ init, Starts (S.shape.eraseIdx v) m0 p0 init →
    ∃ out st, omegaSurf o dims coord S T P ⟨edges, some dist, some perp⟩ pc init = .ok (S.shape.eraseIdx v, out, st) ∧
      (∃ s0 t0, out m0 = (fin s0, fin t0, fin p0) ∧ On o.kind (castAt S T pr v m0) s0 t0 p0) ∧
      ∀ m, Valid (S.shape.eraseIdx v) m → FinePt o.kind (castAt S T pr v m) smin (out m)

/-- Lists of the same length, positive: links. -/
theorem links_of : ∀ (e : List (ℕ × ℕ)) (d q : List (Fl ℝ)), d.length = e.length → q.length = e.length → AllPos d → AllPos q →
    ∃ L : List Link, gridOf L = ⟨e, some d, some q⟩ ∧ ∀ x ∈ L, x.ends ∈ e ∧ 0 < x.dist ∧ 0 < x.perp
  | [], d, q, hd, hq, _, _ => by
    obtain rfl := List.length_eq_zero_iff.1 hd
    obtain rfl := List.length_eq_zero_iff.1 hq
    exact ⟨[], rfl, by simp⟩
  | x :: e, [], q, hd, _, _, _ => by simp at hd
  | x :: e, a :: d, [], _, hq, _, _ => by simp at hq
  | x :: e, a :: d, b :: q, hd, hq, pd, pq => by
    obtain ⟨L, h1, h2⟩ := links_of e d q (by simpa using hd) (by simpa using hq) (fun y hy => pd y (by simp [hy])) (fun y hy => pq y (by simp [hy]))
    obtain ⟨r, hr, rfl⟩ := pd a (by simp)
    obtain ⟨s, hs, rfl⟩ := pq b (by simp)
    refine ⟨⟨x, r, s⟩ :: L, ?_, ?_⟩
    · unfold gridOf at h1 ⊢
      injection h1 with e1 e2 e3
      injection e2 with e2
      injection e3 with e3
      simp only [List.map_cons, e1, e2, e3]
    · intro y hy
      rcases List.mem_cons.1 hy with rfl | hy
      · exact ⟨by simp, hr, hs⟩
      · obtain ⟨a, b⟩ := h2 y hy
        exact ⟨by simp [a], b⟩

/-- Finitely many positive weights have a positive lower bound. -/
theorem weights_bound (L : List Link) (h : ∀ x ∈ L, 0 < x.dist ∧ 0 < x.perp) : ∃ w > 0, ∀ x ∈ L, w ≤ x.perp / x.dist := by
  induction L with
  | nil => exact ⟨1, one_pos, by simp⟩
  | cons a L ih =>
    obtain ⟨w, hw, h'⟩ := ih fun x hx => h x (by simp [hx])
    have ha := h a (by simp)
    refine ⟨min w (a.perp / a.dist), lt_min hw (div_pos ha.2 ha.1), ?_⟩
    intro x hx
    rcases List.mem_cons.1 hx with rfl | hx
    · exact min_le_right _ _
    · exact (min_le_left _ _).trans (h' x hx)

variable {o : Opts (Fl ℝ)} {dims : Option (List String)} {coord : String → Option (List ℚ)} {S T : Nd (Fl ℝ)} {P : PArg (Fl ℝ)}
    {v : ℕ} {pr : List ℕ → ℕ → Fl ℝ} {pc : PinCast} {m0 : List ℕ} {p0 : ℝ} {e : ℝ → ℝ → ℝ → ℝ} {smin tol : ℝ} {n : ℕ}

/-- Any grid which joins casts of the data, with positive lengths. -/
theorem omegaSurf_positive (O : Ocean o dims coord S T P v pr pc m0 p0 e smin tol n) (edges : List (ℕ × ℕ)) (dist perp : List (Fl ℝ))
    (hin : ∀ x ∈ edges, x.1 < (S.shape.eraseIdx v).prod ∧ x.2 < (S.shape.eraseIdx v).prod)
    (hd : dist.length = edges.length) (hq : perp.length = edges.length) (pd : AllPos dist) (pq : AllPos perp) :
    Computes o dims coord S T P v pr pc m0 p0 smin edges dist perp := by
  obtain ⟨L, hL, hpos⟩ := links_of edges dist perp hd hq pd pq
  obtain ⟨w, hw, hb⟩ := weights_bound L fun x hx => (hpos x hx).2
  obtain ⟨b, hf⟩ : ∃ b, Formulated o w b := by
    rcases O.solver with ⟨h, η, h0, h1⟩ | ⟨h, g, h0, h1, h2⟩
    · exact ⟨_, .inl ⟨h, η, h0, h1, rfl⟩⟩
    · exact ⟨_, .inr ⟨h, g, h0, h1, h2, rfl⟩⟩
  intro init hI
  have C : Call o dims coord S T P v pr L pc m0 p0 e smin tol n b :=
    ⟨O.args, O.horiz, O.pin, O.valid, fun x hx => hin _ (hpos x hx).1, fun x hx => (hpos x hx).2.1, ⟨w, hw, hb, hf⟩, O.tolEq, O.tolPos,
      O.fuel, O.enough, O.eos, O.der, O.casts, O.start, O.below, O.diags⟩
  obtain ⟨out, st, h1, h2, h3, -⟩ := omegaSurf_total C hI
  rw [hL] at h1
  exact ⟨out, st, h1, h2, h3⟩

/-- A distance argument of a grid in two dimensions: broadcastable, with positive entries. -/
def PosData (ni nj : ℕ) (d : Grid.Data (Fl ℝ)) : Prop :=
  ∃ f, Grid.broadcastTo ni nj d = .ok f ∧ ∀ i < ni, ∀ j < nj, ∃ r : ℝ, 0 < r ∧ f i j = fin r

theorem cell_lt {ni nj i j : ℕ} (hi : i < ni) (hj : j < nj) : Grid.cell nj i j < ni * nj := by
  unfold Grid.cell
  calc i * nj + j < i * nj + nj := by omega
    _ = (i + 1) * nj := by ring
    _ ≤ ni * nj := Nat.mul_le_mul_right _ hi

/-- C160. On a rectilinear grid. -/
theorem rect_omega (O : Ocean o dims coord S T P v pr pc m0 p0 e smin tol n) {ni nj : ℕ} (hs : S.shape.eraseIdx v = [ni, nj]) (per0 per1 : Bool)
    {dxC dyC dyG dxG : Grid.Data (Fl ℝ)} (h1 : PosData ni nj dxC) (h2 : PosData ni nj dyC) (h3 : PosData ni nj dyG) (h4 : PosData ni nj dxG) :
    ∃ g, Grid.rectGrid ni nj per0 per1 dxC dyC dyG dxG = .ok g ∧ Computes o dims coord S T P v pr pc m0 p0 smin g.edges g.dist g.distperp := by
  obtain ⟨x, hx, px⟩ := h1
  obtain ⟨y, hy, py⟩ := h2
  obtain ⟨yg, hyg, pyg⟩ := h3
  obtain ⟨xg, hxg, pxg⟩ := h4
  have pos : ∀ a b : ℕ → ℕ → Fl ℝ, (∀ i < ni, ∀ j < nj, ∃ r : ℝ, 0 < r ∧ a i j = fin r) → (∀ i < ni, ∀ j < nj, ∃ r : ℝ, 0 < r ∧ b i j = fin r) →
      AllPos (Grid.flat (ni - Grid.off per0) nj (fun i j => a (i + Grid.off per0) j) ++ Grid.flat ni (nj - Grid.off per1) (fun i j => b i (j + Grid.off per1))) := by
    intro a b ha hb z hz
    rcases List.mem_append.1 hz with hz | hz
    · obtain ⟨i, hi, j, hj, rfl⟩ := (Grid.mem_flat _ _ _ _).1 hz
      exact ha _ (by omega) _ hj
    · obtain ⟨i, hi, j, hj, rfl⟩ := (Grid.mem_flat _ _ _ _).1 hz
      exact hb _ hi _ (by omega)
  have len : ∀ a b : ℕ → ℕ → Fl ℝ, (Grid.flat (ni - Grid.off per0) nj (fun i j => a (i + Grid.off per0) j) ++
      Grid.flat ni (nj - Grid.off per1) (fun i j => b i (j + Grid.off per1))).length = (Grid.rectEdges ni nj per0 per1).length := by
    intro a b
    rw [Grid.rectEdges_eq, List.length_append, List.length_append, Grid.flat_length, Grid.flat_length, Grid.flat_length, Grid.flat_length]
  have hg : Grid.rectGrid ni nj per0 per1 dxC dyC dyG dxG = .ok ⟨Grid.rectEdges ni nj per0 per1,
      Grid.flat (ni - Grid.off per0) nj (fun i j => x (i + Grid.off per0) j) ++ Grid.flat ni (nj - Grid.off per1) (fun i j => y i (j + Grid.off per1)),
      Grid.flat (ni - Grid.off per0) nj (fun i j => yg (i + Grid.off per0) j) ++ Grid.flat ni (nj - Grid.off per1) (fun i j => xg i (j + Grid.off per1))⟩ := by
    simp only [Grid.rectGrid, Grid.rectData, hx, hy, hyg, hxg]
  refine ⟨_, hg, ?_⟩
  refine omegaSurf_positive O _ _ _ ?_ (len x y) (len yg xg) (pos x y px py) (pos yg xg pyg pxg)
  rintro ⟨a, b⟩ hab
  rw [hs, show ([ni, nj] : List ℕ).prod = ni * nj by simp]
  obtain ⟨i, j, hi, hj, rfl, ⟨i', hb, rfl⟩ | ⟨j', hb, rfl⟩⟩ := (Grid.rect_mem ni nj per0 per1 a b).1 hab
  · exact ⟨cell_lt hi hj, cell_lt (Grid.before_lt hb) hj⟩
  · exact ⟨cell_lt hi hj, cell_lt hi (Grid.before_lt hb)⟩

/-- C160. On a tripolar grid. -/
theorem tri_omega (O : Ocean o dims coord S T P v pr pc m0 p0 e smin tol n) {nj ni : ℕ} (hs : S.shape.eraseIdx v = [nj, ni])
    {e1u e2v e2u e1v : Grid.Data (Fl ℝ)} (h1 : PosData nj ni e1u) (h2 : PosData nj ni e2v) (h3 : PosData nj ni e2u) (h4 : PosData nj ni e1v) :
    ∃ g, Grid.triGrid nj ni e1u e2v e2u e1v = .ok g ∧ Computes o dims coord S T P v pr pc m0 p0 smin g.edges g.dist g.distperp := by
  obtain ⟨x, hx, px⟩ := h1
  obtain ⟨y, hy, py⟩ := h2
  obtain ⟨yg, hyg, pyg⟩ := h3
  obtain ⟨xg, hxg, pxg⟩ := h4
  have pos : ∀ a b : ℕ → ℕ → Fl ℝ, (∀ i < nj, ∀ j < ni, ∃ r : ℝ, 0 < r ∧ a i j = fin r) → (∀ i < nj, ∀ j < ni, ∃ r : ℝ, 0 < r ∧ b i j = fin r) →
      AllPos (Grid.flat nj ni a ++ Grid.flat nj ni b) := by
    intro a b ha hb z hz
    rcases List.mem_append.1 hz with hz | hz
    · obtain ⟨i, hi, j, hj, rfl⟩ := (Grid.mem_flat _ _ _ _).1 hz
      exact ha _ hi _ hj
    · obtain ⟨i, hi, j, hj, rfl⟩ := (Grid.mem_flat _ _ _ _).1 hz
      exact hb _ hi _ hj
  have len : ∀ a b : ℕ → ℕ → Fl ℝ, (Grid.flat nj ni a ++ Grid.flat nj ni b).length = (Grid.triEdges nj ni).length := by
    intro a b
    rw [Grid.triEdges_eq, List.length_append, List.length_append, Grid.flat_length, Grid.flat_length, Grid.flat_length, Grid.flat_length]
  have hg : Grid.triGrid nj ni e1u e2v e2u e1v = .ok ⟨Grid.triEdges nj ni, Grid.flat nj ni y ++ Grid.flat nj ni x, Grid.flat nj ni xg ++ Grid.flat nj ni yg⟩ := by
    simp only [Grid.triGrid, Grid.triData, hx, hy, hyg, hxg]
  refine ⟨_, hg, ?_⟩
  refine omegaSurf_positive O _ _ _ ?_ (len y x) (len xg yg) (pos y x py px) (pos xg yg pxg pyg)
  rintro ⟨a, b⟩ hab
  rw [hs, show ([nj, ni] : List ℕ).prod = nj * ni by simp]
  obtain ⟨j, i, j', i', hj, hi, hn, rfl, rfl⟩ := (Grid.tri_mem nj ni a b).1 hab
  refine ⟨cell_lt hj hi, ?_⟩
  cases hn with
  | north h => exact cell_lt h hi
  | fold i' h h' => exact cell_lt hj (by omega)
  | east h => exact cell_lt hj h
  | wrap h => exact cell_lt hj (by omega)

/-- C160. On the grid of a matrix of connections. -/
theorem graph_omega (O : Ocean o dims coord S T P v pr pc m0 p0 e smin tol n) (A : ℕ → ℕ → Fl ℝ) :
    let g := Graph.buildGridMat (S.shape.eraseIdx v).prod A
    Computes o dims coord S T P v pr pc m0 p0 smin g.edges g.dist g.distperp := by
  intro g
  have one : ∀ l : List (ℕ × ℕ), AllPos (l.map fun _ => (lit 1 : Fl ℝ)) := by
    intro l x hx
    obtain ⟨y, -, rfl⟩ := List.mem_map.1 hx
    exact ⟨1, one_pos, by simp [FloatLike.lit]⟩
  refine omegaSurf_positive O _ _ _ ?_ (List.length_map _) (List.length_map _) (one _) (one _)
  rintro ⟨a, b⟩ hab
  obtain ⟨h1, h2, -⟩ := (Graph.mem_find _ _ a b).1 hab
  exact ⟨h1, h2⟩

/-- C160. On the grid of two matrices of lengths, where both are positive or both zero. -/
theorem lengths_omega (O : Ocean o dims coord S T P v pr pc m0 p0 e smin tol n) (D Q : ℕ → ℕ → Fl ℝ)
    (hD : ∀ i < (S.shape.eraseIdx v).prod, ∀ j < (S.shape.eraseIdx v).prod, D i j = D j i ∧ Q i j = Q j i ∧
      (D i j = fin 0 ∧ Q i j = fin 0 ∨ ∃ d q : ℝ, 0 < d ∧ 0 < q ∧ D i j = fin d ∧ Q i j = fin q)) :
    ∃ g, Graph.buildGridDict (S.shape.eraseIdx v).prod D Q = .ok g ∧ Computes o dims coord S T P v pr pc m0 p0 smin g.edges g.dist g.distperp := by
  obtain ⟨g, h1, h2, -, h4, h5⟩ := Graph.buildGridDict_spec_partial (S.shape.eraseIdx v).prod D Q
    (by
      intro i hi j hj
      obtain ⟨a, b, ⟨c, -⟩ | ⟨d, q, -, -, c, -⟩⟩ := hD i hi j hj
      · exact ⟨0, c, a ▸ c⟩
      · exact ⟨d, c, a ▸ c⟩)
    (by
      intro i hi j hj
      obtain ⟨a, b, ⟨-, c⟩ | ⟨d, q, -, -, -, c⟩⟩ := hD i hi j hj
      · exact ⟨0, c, b ▸ c⟩
      · exact ⟨q, c, b ▸ c⟩)
    (by
      intro i hi j hj
      unfold Graph.Nz
      obtain ⟨-, -, ⟨c, c'⟩ | ⟨d, q, hd, hq, c, c'⟩⟩ := hD i hi j hj
      · rw [c, c']
      · rw [c, c']; simp [hd.ne', hq.ne'])
  have pos : ∀ x ∈ g.edges, ∃ d q : ℝ, 0 < d ∧ 0 < q ∧ D x.1 x.2 = fin d ∧ Q x.1 x.2 = fin q := by
    intro x hx
    obtain ⟨a, b, c⟩ := h2 x hx
    rcases (hD _ a _ b).2.2 with ⟨d, -⟩ | d
    · exact absurd d c
    · exact d
  refine ⟨g, h1, omegaSurf_positive O _ _ _ (fun x hx => ⟨(h2 x hx).1, (h2 x hx).2.1⟩) (by rw [h4]; simp) (by rw [h5]; simp) ?_ ?_⟩
  · rw [h4]
    intro y hy
    obtain ⟨x, hx, rfl⟩ := List.mem_map.1 hy
    obtain ⟨d, q, a, b, c, c'⟩ := pos x hx
    exact ⟨d, a, c⟩
  · rw [h5]
    intro y hy
    obtain ⟨x, hx, rfl⟩ := List.mem_map.1 hy
    obtain ⟨d, q, a, b, c, c'⟩ := pos x hx
    exact ⟨q, b, c'⟩

end Omega

namespace Grid

theorem names_cases {tile : String} {l : List String} (h : Names tile l) : ∃ a b c, l = [a, b, c] := by
  have hl := h.length_eq
  match l, hl with
  | [a, b, c], _ => exact ⟨a, b, c, rfl⟩

theorem names_prod {tile : String} (h1 : tile ≠ "i") (h2 : tile ≠ "j") {l : List String} (h : Names tile l) (n nf : ℕ) :
    (l.map (dimLen n nf tile)).prod = nf * n * n := by
  rw [(h.map _).prod_eq]
  simp [dimLen, h1.symm, h2.symm, mul_assoc]

theorem unravel_within {tile : String} (h1 : tile ≠ "i") (h2 : tile ≠ "j") {l : List String} (h : Names tile l) {n nf m : ℕ} (hm : m < nf * n * n) :
    Within n nf tile (unravel n nf tile l m) := by
  have hp := names_prod h1 h2 h n nf
  have key : ∀ d ∈ l, unravel n nf tile l m d < dimLen n nf tile d := by
    obtain ⟨a, b, c, rfl⟩ := names_cases h
    simp only [List.map_cons, List.map_nil, List.prod_cons, List.prod_nil, mul_one] at hp
    rw [← hp] at hm
    have h0 : 0 < dimLen n nf tile a * (dimLen n nf tile b * dimLen n nf tile c) := by omega
    have hb : 0 < dimLen n nf tile b := Nat.pos_of_ne_zero fun z => by rw [z] at h0; simp at h0
    have hc : 0 < dimLen n nf tile c := Nat.pos_of_ne_zero fun z => by rw [z] at h0; simp at h0
    intro d hd
    simp only [unravel, List.getD_cons_zero, List.getD_cons_succ]
    split_ifs with e1 e2
    · rw [e1]; exact (Nat.div_lt_iff_lt_mul (Nat.mul_pos hb hc)).2 hm
    · rw [e2]; exact Nat.mod_lt _ hb
    · obtain rfl : d = c := by simpa [e1, e2] using hd
      exact Nat.mod_lt _ hc
  have hmem : ∀ d ∈ [tile, "j", "i"], d ∈ l := fun d hd => h.mem_iff.2 hd
  refine ⟨?_, ?_, ?_⟩
  · simpa [dimLen] using key tile (hmem _ (by simp))
  · simpa [dimLen, h2.symm] using key "j" (hmem _ (by simp))
  · simpa [dimLen, h1.symm] using key "i" (hmem _ (by simp))

theorem cnum_within {tile : String} (h1 : tile ≠ "i") (h2 : tile ≠ "j") {l : List String} (h : Names tile l) {n nf : ℕ} {c : String → ℕ}
    (hc : Within n nf tile c) : cnum n nf tile l c < nf * n * n := by
  have hp := names_prod h1 h2 h n nf
  have key : ∀ d ∈ l, c d < dimLen n nf tile d := by
    intro d hd
    have := h.mem_iff.1 hd
    simp only [List.mem_cons, List.not_mem_nil, or_false] at this
    rcases this with rfl | rfl | rfl
    · simpa [dimLen] using hc.1
    · simpa [dimLen, h2.symm] using hc.2.1
    · simpa [dimLen, h1.symm] using hc.2.2
  obtain ⟨a, b, d, rfl⟩ := names_cases h
  simp only [List.map_cons, List.map_nil, List.prod_cons, List.prod_nil, mul_one] at hp
  have ka := key a (by simp)
  have kb := key b (by simp)
  have kd := key d (by simp)
  rw [← hp]
  show ((0 * dimLen n nf tile a + c a) * dimLen n nf tile b + c b) * dimLen n nf tile d + c d < _
  have e1 : c a * dimLen n nf tile b + c b < dimLen n nf tile a * dimLen n nf tile b := Omega.cell_lt ka kb
  have e2 := Omega.cell_lt e1 kd
  unfold cell at e2
  rw [zero_mul, zero_add, ← mul_assoc]
  exact e2

theorem shift_range {tile : String} (h1 : tile ≠ "i") (h2 : tile ≠ "j") {l l' : List String} (h : Names tile l) (h' : Names tile l') {n nf : ℕ} (left : Bool)
    {d : String} (hd : d = "i" ∨ d = "j") (pad : (String → ℕ) → ℤ) (hpad : ∀ c, Within n nf tile c → pad c < (nf * n * n : ℕ)) {m : ℕ} (hm : m < nf * n * n) :
    (shiftDA n left d pad (idxDA n nf tile l)).val (unravel n nf tile l' m) < (nf * n * n : ℕ) := by
  have hw := unravel_within h1 h2 h' hm
  set c := unravel n nf tile l' m with hc
  have hcd : c d < n := by rcases hd with rfl | rfl; exacts [hw.2.2, hw.2.1]
  have hset : ∀ x < n, (idxDA n nf tile l).val (setc c d x) < (nf * n * n : ℕ) := by
    intro x hx
    rw [idx_cnum h.length_eq]
    have : Within n nf tile (setc c d x) := by
      rcases hd with rfl | rfl
      · refine ⟨?_, ?_, ?_⟩ <;> simp [setc, h1, hw.1, hw.2.1, hx]
      · refine ⟨?_, ?_, ?_⟩ <;> simp [setc, h2, hw.1, hw.2.2, hx]
    exact_mod_cast cnum_within h1 h2 h this
  unfold shiftDA
  dsimp only
  split_ifs with e1 e2 e3
  · exact hpad _ hw
  · exact hset _ (by omega)
  · exact hpad _ hw
  · exact hset _ (by omega)

/-- With any order of the dimensions, and either shift, the neighbours are casts of the data, where those beyond the tiles are. -/
theorem neighbours_range {tile : String} (h1 : tile ≠ "i") (h2 : tile ≠ "j") {l : List String} (h : Names tile l) {n nf : ℕ} (xl yl : Bool) {padX padY : ℕ → ℕ → ℤ}
    (hX : ∀ t < nf, ∀ j < n, padX t j < (nf * n * n : ℕ)) (hY : ∀ t < nf, ∀ i < n, padY t i < (nf * n * n : ℕ)) :
    ∃ im1 jm1, neighbours n nf tile l xl yl padX padY = .ok (im1, jm1) ∧
      ∀ m < nf * n * n, im1 m < (nf * n * n : ℕ) ∧ jm1 m < (nf * n * n : ℕ) := by
  have hmem : ∀ d ∈ [tile, "j", "i"], d ∈ l := fun d hd => h.mem_iff.2 hd
  have hN : ∀ d ∈ l, l.Nodup → Names tile (l.filter (· ≠ d) ++ [d]) := by
    intro d hd hn
    refine List.Perm.trans ?_ h
    have := List.perm_cons_erase hd
    rw [hn.erase_eq_filter] at this
    refine (List.perm_append_singleton d _).trans ?_
    refine List.Perm.trans ?_ this.symm
    refine List.Perm.cons _ (List.Perm.of_eq ?_)
    congr 1
    funext x
    by_cases hx : x = d <;> simp [hx]
  have hn : l.Nodup := h.nodup_iff.2 (by simp [h1, h2])
  unfold neighbours
  rw [if_neg (not_not.2 (hmem _ (by simp))), if_neg (not_not.2 ⟨hmem _ (by simp), hmem _ (by simp)⟩), if_neg (not_not.2 (show l.length = 3 from h.length_eq))]
  refine ⟨_, _, rfl, fun m hm => ⟨?_, ?_⟩⟩
  · exact shift_range h1 h2 h (hN "i" (hmem _ (by simp)) hn) xl (.inl rfl) _ (fun c hc => hX _ hc.1 _ hc.2.1) hm
  · cases yl
    · exact shift_range h1 h2 h (hN "j" (hmem _ (by simp)) hn) false (.inr rfl) _ (fun c hc => hY _ hc.1 _ hc.2.2) hm
    · exact shift_range h1 h2 h h true (.inr rfl) _ (fun c hc => hY _ hc.1 _ hc.2.2) hm

end Grid

namespace Omega
open FloatLike Lib Traj Bfs VertSolve
open Fl hiding nan

variable {o : Opts (Fl ℝ)} {dims : Option (List String)} {coord : String → Option (List ℚ)} {S T : Nd (Fl ℝ)} {P : PArg (Fl ℝ)}
    {v : ℕ} {pr : List ℕ → ℕ → Fl ℝ} {pc : PinCast} {m0 : List ℕ} {p0 : ℝ} {e : ℝ → ℝ → ℝ → ℝ} {smin tol : ℝ} {n : ℕ}

/-- C160. On `nf` tiles of `k` by `k` casts. -/
theorem xgcm_omega (O : Ocean o dims coord S T P v pr pc m0 p0 e smin tol n) {nf k : ℕ} (hs : (S.shape.eraseIdx v).prod = nf * k * k)
    {tile : String} (h1 : tile ≠ "i") (h2 : tile ≠ "j") {l : List String} (h : Grid.Names tile l) {xsh ysh : Char} (hx : xsh = 'l' ∨ xsh = 'r') (hy : ysh = 'l' ∨ ysh = 'r')
    {padX padY : ℕ → ℕ → ℤ} (hX : ∀ t < nf, ∀ j < k, padX t j < (nf * k * k : ℕ)) (hY : ∀ t < nf, ∀ i < k, padY t i < (nf * k * k : ℕ))
    {dxC dyC dyG dxG : ℕ → Fl ℝ} (hpos : ∀ m < nf * k * k, ∀ f ∈ [dxC, dyC, dyG, dxG], ∃ r : ℝ, 0 < r ∧ f m = fin r) :
    ∃ g, Grid.xgcmBuild k nf tile l xsh ysh padX padY (.arr dxC) (.arr dyC) (.arr dyG) (.arr dxG) = some (.ok g) ∧
      Computes o dims coord S T P v pr pc m0 p0 smin g.edges g.dist g.distperp := by
  obtain ⟨im1, jm1, e1, e2⟩ := Grid.neighbours_range h1 h2 h (decide (xsh = 'l')) (decide (ysh = 'l')) hX hY
  obtain ⟨g, e3, e4, e5, e6⟩ := Grid.xgcm_edges (nf * k * k) im1 jm1 dxC dyC dyG dxG
  refine ⟨g, ?_, ?_⟩
  · unfold Grid.xgcmBuild
    rw [if_neg (not_not.2 ⟨hx, hy⟩), e1]
    dsimp only
    rw [e3]
  · have pos : ∀ (f f' : ℕ → Fl ℝ), f ∈ [dxC, dyC, dyG, dxG] → f' ∈ [dxC, dyC, dyG, dxG] → ∀ a b : ℕ → Bool,
        AllPos (((List.range (nf * k * k)).filter a).map f ++ ((List.range (nf * k * k)).filter b).map f') := by
      intro f f' hf hf' a b x hx
      rcases List.mem_append.1 hx with hx | hx
      · obtain ⟨m, hm, rfl⟩ := List.mem_map.1 hx
        exact hpos m (List.mem_range.1 (List.mem_filter.1 hm).1) f hf
      · obtain ⟨m, hm, rfl⟩ := List.mem_map.1 hx
        exact hpos m (List.mem_range.1 (List.mem_filter.1 hm).1) f' hf'
    refine omegaSurf_positive O _ _ _ ?_ (by rw [e4, e5]; simp) (by rw [e4, e6]; simp) ?_ ?_
    · rw [hs, e4]
      intro x hx
      rcases List.mem_append.1 hx with hx | hx
      · obtain ⟨m, hm, rfl⟩ := List.mem_map.1 hx
        have hm' := List.mem_range.1 (List.mem_filter.1 hm).1
        have := (e2 m hm').1
        have h0 : 0 ≤ im1 m := by simpa using (List.mem_filter.1 hm).2
        exact ⟨hm', by show (im1 m).toNat < _; omega⟩
      · obtain ⟨m, hm, rfl⟩ := List.mem_map.1 hx
        have hm' := List.mem_range.1 (List.mem_filter.1 hm).1
        have := (e2 m hm').2
        have h0 : 0 ≤ jm1 m := by simpa using (List.mem_filter.1 hm).2
        exact ⟨hm', by show (jm1 m).toNat < _; omega⟩
    · rw [e5]; exact pos _ _ (by simp) (by simp) _ _
    · rw [e6]; exact pos _ _ (by simp) (by simp) _ _

/-! ## Example -/

theorem ex_ocean {f : String} {spsolve} {lsqr} {b} (hf : Formulated (apiO f spsolve lsqr) 2 b) :
    Ocean (apiO f spsolve lsqr) none (fun _ => none) apiS apiT (.small 5 exCast.P.get) 0 (fun _ k => exCast.P.get k)
      (.tuple [0, 1]) [0, 1] 1 (fun s t _ => s - t) 0 (1 / 100) 600 := by
  have C := api_call hf
  refine ⟨C.args, C.horiz, C.pin, C.valid, ?_, C.tolEq, C.tolPos, C.fuel, C.enough, C.eos, C.der, C.casts, C.start, C.below, C.diags⟩
  rcases hf with ⟨h, η, h0, h1, -⟩ | ⟨h, g, h0, h1, h2, -⟩
  · exact .inl ⟨h, η, h0, h1⟩
  · exact .inr ⟨h, g, h0, h1, h2⟩

/-- Three casts, the last of them on land: on a rectilinear grid periodic in both dimensions, on a tripolar one, of equal spacing, on three tiles of one cast,
and on a graph of any connections. -/
example : ∃ spsolve lsqr, ∀ A : ℕ → ℕ → Fl ℝ,
    let C := Computes (apiO "Poisson" spsolve lsqr) none (fun _ => none) apiS apiT (.small 5 exCast.P.get) 0 (fun _ k => exCast.P.get k) (.tuple [0, 1]) [0, 1] 1 0
    (∃ g, Grid.rectGrid 1 3 true true (.scalar (fin (1 : ℝ))) (.vec 3 fun j => fin (1 + (j : ℝ))) (.mat 1 3 fun _ _ => fin (2 : ℝ)) (.scalar (fin (1 : ℝ))) = .ok g ∧
      C g.edges g.dist g.distperp) ∧
    (∃ g, Grid.triGrid 1 3 (.scalar (fin (1 : ℝ))) (.scalar (fin 1)) (.scalar (fin 1)) (.scalar (fin 1)) = .ok g ∧ C g.edges g.dist g.distperp) ∧
    (∃ g, Grid.xgcmBuild 1 3 "face" ["face", "j", "i"] 'l' 'l' (fun t _ => t - 1) (fun _ _ => -1) (.arr fun _ => fin (1 : ℝ)) (.arr fun _ => fin 1) (.arr fun _ => fin 1)
      (.arr fun _ => fin 1) = some (.ok g) ∧ C g.edges g.dist g.distperp) ∧
    (∃ g, Graph.buildGridDict 3 (fun i j => if i = j then fin (0 : ℝ) else fin 7) (fun i j => if i = j then fin 0 else fin 2) = .ok g ∧ C g.edges g.dist g.distperp) ∧
    C (Graph.buildGridMat 3 A).edges (Graph.buildGridMat 3 A).dist (Graph.buildGridMat 3 A).distperp := by
  obtain ⟨⟨spsolve, hs⟩, ⟨lsqr, hl⟩⟩ := OmegaMat.exact_solvers_exist (α := ℝ)
  refine ⟨spsolve, lsqr, fun A => ?_⟩
  have O := ex_ocean (lsqr := lsqr) (b := _) (.inl ⟨by show "Poisson".toLower = _; decide +kernel, 0, le_rfl, hs.near, rfl⟩)
  have sc : ∀ ni nj, ∀ r : ℝ, 0 < r → PosData ni nj (.scalar (fin r)) := fun ni nj r hr => ⟨_, rfl, fun _ _ _ _ => ⟨r, hr, rfl⟩⟩
  refine ⟨rect_omega O rfl true true (sc _ _ 1 one_pos) ⟨_, rfl, fun i _ j _ => ⟨1 + (Grid.bidx 3 j : ℕ), by positivity, rfl⟩⟩ ⟨_, rfl, fun _ _ _ _ => ⟨2, two_pos, rfl⟩⟩ (sc _ _ 1 one_pos),
    tri_omega O rfl (sc _ _ 1 one_pos) (sc _ _ 1 one_pos) (sc _ _ 1 one_pos) (sc _ _ 1 one_pos),
    xgcm_omega O rfl (by decide) (by decide) (List.Perm.refl _) (.inl rfl) (.inl rfl) (by intro t ht j _; omega) (by intro t ht j _; omega) ?_,
    lengths_omega O _ _ ?_, graph_omega O A⟩
  · intro m _ f hf
    simp only [List.mem_cons, List.not_mem_nil, or_false] at hf
    rcases hf with rfl | rfl | rfl | rfl <;> exact ⟨1, one_pos, rfl⟩
  · intro i _ j _
    by_cases h : i = j
    · subst h; simp
    · simp only [h, Ne.symm h, if_false, true_and]
      exact .inr ⟨7, 2, by norm_num, by norm_num, rfl, rfl⟩

end Omega
