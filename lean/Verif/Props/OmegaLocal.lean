import Verif.Props.OmegaEx
import Verif.Model.Rounding

/-!
# `omega_surf` depends only on the casts linked with the pinning cast (C153)

Lakes, marginal seas and other basins that no chain of links of the grid joins with the pinning cast, wet or dry, have no influence.
Any arithmetic in which NaN behaves as it does in floating point (`NanLaws`).
-/

set_option linter.unusedSectionVars false

namespace Bfs
open FloatLike
variable {F : Type*} [FloatLike F]

/-- Two graphs that are the same on `C`, a set that no link leaves. -/
structure SameGraph (C : ℕ → Bool) (G G' : Csr) : Prop where
  nbrs : ∀ m, C m = true → G'.nbrs m = G.nbrs m
  closed : ∀ m, C m = true → ∀ n ∈ G.nbrs m, C n = true

/-- Two oceans that are the same on `C`. -/
structure SameOcean (C : ℕ → Bool) (O O' : Ocean F) : Prop where
  data : ∀ n, C n = true → O'.data n = O.data n
  ntpP : ∀ b n, C n = true → O'.ntpP b n = O.ntpP b n
  st : ∀ n p, C n = true → O'.st n p = O.st n p
  pml : ∀ n, C n = true → O'.pml n = O.pml n

variable {C : ℕ → Bool} {G G' : Csr} {O O' : Ocean F}

theorem visitL_local {f f' : ℕ → Bool} (hf : ∀ n, C n = true → f' n = f n) (l : List ℕ) (hl : ∀ n ∈ l, C n = true) (x : List ℕ × List ℕ)
    (hx1 : ∀ v ∈ x.1, C v = true) (hx2 : ∀ v ∈ x.2, C v = true) :
    l.foldl (visitL f') x = l.foldl (visitL f) x ∧ (∀ v ∈ (l.foldl (visitL f) x).1, C v = true) ∧
      ∀ v ∈ (l.foldl (visitL f) x).2, C v = true := by
  induction l generalizing x with
  | nil => exact ⟨rfl, hx1, hx2⟩
  | cons n l ih =>
    have hn := hl n List.mem_cons_self
    have e : visitL f' x n = visitL f x n := by unfold visitL; rw [hf n hn]
    simp only [List.foldl_cons]
    rw [e]
    refine ih (fun v hv => hl v (List.mem_cons_of_mem _ hv)) _ ?_ ?_
    · unfold visitL
      split_ifs
      · exact hx1
      · intro v hv
        rcases List.mem_append.1 hv with h | h
        · exact hx1 v h
        · rw [List.mem_singleton.1 h]; exact hn
      · exact hx1
      · exact hx1
    · unfold visitL
      split_ifs
      · exact hx2
      · exact hx2
      · exact hx2
      · intro v hv
        rcases List.mem_append.1 hv with h | h
        · exact hx2 v h
        · rw [List.mem_singleton.1 h]; exact hn

theorem loopL_local (H : SameGraph C G G') {f f' : ℕ → Bool} (hf : ∀ n, C n = true → f' n = f n) (fuel : ℕ) :
    ∀ (hd : ℕ) (x : List ℕ × List ℕ), (∀ v ∈ x.1, C v = true) → (∀ v ∈ x.2, C v = true) →
      loopL G' f' fuel hd x = loopL G f fuel hd x ∧
        ∀ y, loopL G f fuel hd x = some y → (∀ v ∈ y.1, C v = true) ∧ ∀ v ∈ y.2, C v = true := by
  induction fuel with
  | zero => intro hd x _ _; exact ⟨rfl, fun y hy => by cases hy⟩
  | succ fuel ih =>
    intro hd x h1 h2
    unfold loopL
    by_cases h : hd < x.1.length
    · rw [dif_pos h, dif_pos h]
      have hm := h1 _ (List.getElem_mem h)
      obtain ⟨e, i1, i2⟩ := visitL_local hf (G.nbrs x.1[hd]) (H.closed _ hm) x h1 h2
      rw [H.nbrs _ hm, e]
      exact ih _ _ i1 i2
    · rw [dif_neg h, dif_neg h]
      exact ⟨rfl, fun y hy => by cases hy; exact ⟨h1, h2⟩⟩

theorem searchL_local (H : SameGraph C G G') {f f' : ℕ → Bool} (hf : ∀ n, C n = true → f' n = f n) {root : ℕ} (hr : C root = true) (fuel : ℕ) :
    searchL G' root f' fuel = searchL G root f fuel ∧
      ∀ y, searchL G root f fuel = some y → (∀ v ∈ y.1, C v = true) ∧ ∀ v ∈ y.2, C v = true := by
  unfold searchL
  rw [hf root hr]
  refine loopL_local H hf fuel 0 _ ?_ ?_
  · intro v hv
    dsimp only at hv
    split_ifs at hv
    · rw [List.mem_singleton.1 hv]; exact hr
    · cases hv
  · intro v hv; cases hv

theorem gather_local (H : SameOcean C O O') {stp stp' : ℕ → F × F × F} (hs : ∀ n, C n = true → stp' n = stp n) {m : ℕ} (hm : C m = true)
    (l : List ℕ) (hl : ∀ n ∈ l, C n = true) : gather O' stp' m l = gather O stp m l := by
  unfold gather
  generalize ((lit 0 : F), 0) = acc
  induction l generalizing acc with
  | nil => rfl
  | cons n l ih =>
    have hn := hl n List.mem_cons_self
    simp only [List.foldl_cons]
    rw [ih (fun v hv => hl v (List.mem_cons_of_mem _ hv)), hs n hn]
    unfold accept
    rw [H.ntpP _ _ hm, H.pml _ hn]

/-- The states of two wetting searches that do the same on `C`. -/
structure SameQ (C : ℕ → Bool) (x x' : QSt F) : Prop where
  R : x'.R = x.R
  newly : x'.newly = x.newly
  stp : ∀ n, C n = true → x'.stp n = x.stp n
  inC : ∀ n ∈ x.R, C n = true
  out : ∀ n, C n = false → wet x.stp n = false
  out' : ∀ n, C n = false → wet x'.stp n = false

theorem pushL_local {f f' : ℕ → Bool} (hf : ∀ n, C n = true → f' n = f n) (l : List ℕ) (hl : ∀ n ∈ l, C n = true) (R : List ℕ)
    (hR : ∀ v ∈ R, C v = true) : l.foldl (pushL f') R = l.foldl (pushL f) R ∧ ∀ v ∈ l.foldl (pushL f) R, C v = true := by
  induction l generalizing R with
  | nil => exact ⟨rfl, hR⟩
  | cons n l ih =>
    have hn := hl n List.mem_cons_self
    have e : pushL f' R n = pushL f R n := by unfold pushL; rw [hf n hn]
    simp only [List.foldl_cons]
    rw [e]
    refine ih (fun v hv => hl v (List.mem_cons_of_mem _ hv)) _ ?_
    unfold pushL
    split_ifs
    · exact hR
    · exact hR
    · intro v hv
      rcases List.mem_append.1 hv with h | h
      · exact hR v h
      · rw [List.mem_singleton.1 h]; exact hn

theorem wetOneL_local (H : SameGraph C G G') (HO : SameOcean C O O') {f f' : ℕ → Bool} (hf : ∀ n, C n = true → f' n = f n) {x x' : QSt F}
    (S : SameQ C x x') {m : ℕ} (hm : C m = true) : SameQ C (wetOneL G O f x m) (wetOneL G' O' f' x' m) := by
  unfold wetOneL
  rw [HO.data m hm, H.nbrs m hm, gather_local HO S.stp hm _ (H.closed m hm), S.R, S.newly]
  dsimp only
  rw [HO.st m _ hm]
  split_ifs
  · obtain ⟨e, i⟩ := pushL_local hf (G.nbrs m) (H.closed m hm) x.R S.inC
    refine ⟨e, rfl, ?_, i, ?_, ?_⟩
    · intro n hn
      dsimp only
      by_cases h : n = m
      · subst h; rw [Function.update_self, Function.update_self]
      · rw [Function.update_of_ne h, Function.update_of_ne h]; exact S.stp n hn
    · intro n hn
      have h : n ≠ m := by rintro rfl; rw [hm] at hn; cases hn
      show isFinite (Function.update x.stp m _ n).2.2 = false
      rw [Function.update_of_ne h]; exact S.out n hn
    · intro n hn
      have h : n ≠ m := by rintro rfl; rw [hm] at hn; cases hn
      show isFinite (Function.update x'.stp m _ n).2.2 = false
      rw [Function.update_of_ne h]; exact S.out' n hn
  · exact S
  · exact S

theorem wetFold_local (H : SameGraph C G G') (HO : SameOcean C O O') {f f' : ℕ → Bool} (hf : ∀ n, C n = true → f' n = f n) (l : List ℕ)
    (hl : ∀ n ∈ l, C n = true) {x x' : QSt F} (S : SameQ C x x') :
    SameQ C (l.foldl (wetOneL G O f) x) (l.foldl (wetOneL G' O' f') x') := by
  induction l generalizing x x' with
  | nil => exact S
  | cons n l ih =>
    exact ih (fun v hv => hl v (List.mem_cons_of_mem _ hv)) (wetOneL_local H HO hf S (hl n List.mem_cons_self))

theorem wetLoopL_local (H : SameGraph C G G') (HO : SameOcean C O O') {f f' : ℕ → Bool} (hf : ∀ n, C n = true → f' n = f n) (reps : ℕ) :
    ∀ (done : ℕ) (x x' : QSt F), SameQ C x x' → SameQ C (wetLoopL G O f reps done x) (wetLoopL G' O' f' reps done x') := by
  induction reps with
  | zero => intro done x x' S; exact S
  | succ reps ih =>
    intro done x x' S
    unfold wetLoopL
    rw [S.R]
    split_ifs
    · exact ih _ _ _ (wetFold_local H HO hf _ (fun n hn => S.inC n (List.mem_of_mem_drop hn)) S)
    · exact S

/-- **C153** Wetting at the perimeter: the same on `C`, and nothing is wet elsewhere afterwards. -/
theorem wetPerim_local (hnan : isFinite (nan : F) = false) (H : SameGraph C G G') (HO : SameOcean C O O') {N N' root : ℕ}
    (hG : InRange G N) (hG' : InRange G' N') (hr : root < N) (hr' : root < N') (hroot : C root = true)
    {stp stp' : ℕ → F × F × F} (hs : ∀ n, C n = true → stp' n = stp n) (garbage garbage' : ℕ → ℕ) (nrep fuel : ℕ) {r : PSt F}
    (h : wetPerim G O N root stp garbage nrep fuel = some r) :
    ∃ r', wetPerim G' O' N' root stp' garbage' nrep fuel = some r' ∧ r'.newly = r.newly ∧ (∀ n, C n = true → r'.stp n = r.stp n) ∧
      (∀ n, C n = false → wet r.stp n = false) ∧ ∀ n, C n = false → wet r'.stp n = false := by
  have hf : ∀ n, C n = true → wet stp' n = wet stp n := fun n hn => by unfold wet; rw [hs n hn]
  obtain ⟨e, hin⟩ := searchL_local H hf hroot fuel
  rcases wetPerim_refines (O := O) (stp := stp) hG hr garbage nrep fuel with ⟨h1, _⟩ | ⟨a, y, L, h1, h2, A⟩
  · rw [h1] at h; cases h
  rw [h] at h1
  cases h1
  rcases wetPerim_refines (O := O') (stp := stp') hG' hr' garbage' nrep fuel with ⟨h3, h4⟩ | ⟨a', y', L', h3, h4, A'⟩
  · exfalso
    unfold wetPerimL at h2 h4
    rw [e] at h4
    cases hx : searchL G root (wet stp) fuel with
    | none => rw [hx] at h2; cases h2
    | some x => rw [hx] at h4; cases h4
  unfold wetPerimL at h2 h4
  rw [e] at h4
  cases hx : searchL G root (wet stp) fuel with
  | none => rw [hx] at h2; cases h2
  | some x =>
    rw [hx] at h2 h4
    dsimp only at h2 h4
    obtain ⟨i1, i2⟩ := hin x hx
    have hout : ∀ (q : ℕ → F × F × F) n, C n = false → wet (cutP x.1 q) n = false := by
      intro q n hn
      unfold wet cutP
      rw [if_neg (fun hh => by rw [i1 n hh] at hn; cases hn)]
      exact hnan
    have S0 : SameQ C (⟨x.2, cutP x.1 stp, 0⟩ : QSt F) ⟨x.2, cutP x.1 stp', 0⟩ := by
      refine ⟨rfl, rfl, ?_, i2, hout stp, hout stp'⟩
      intro n hn
      show cutP x.1 stp' n = cutP x.1 stp n
      unfold cutP
      rw [hs n hn]
    have S := wetLoopL_local H HO hf nrep 0 _ _ S0
    cases h2
    cases h4
    refine ⟨a', h3, ?_, ?_, ?_, ?_⟩
    · rw [A'.newly, A.newly, S.newly]
    · rw [A'.stp, A.stp]; exact S.stp
    · rw [A.stp]; exact S.out
    · rw [A'.stp]; exact S.out'

end Bfs

namespace OmegaMat
open FloatLike
variable {F : Type*} [FloatLike F]

/-- Both ends of the edge lie in `C`. -/
def inside (C : ℕ → Bool) (x : ℕ × ℕ) : Bool := C x.1 && C x.2

/-- Two grids with the same edges inside `C`, with the same geometric factors, in the same order. -/
def SameInside (C : ℕ → Bool) (edges : List (ℕ × ℕ)) (ratio : Ratio F) (edges' : List (ℕ × ℕ)) (ratio' : Ratio F) : Prop :=
  match ratio, ratio' with
  | .scalar d, .scalar d' => d' = d ∧ edges'.filter (inside C) = edges.filter (inside C)
  | .arr l, .arr l' => (edges'.zip l').filter (fun x => inside C x.1) = (edges.zip l).filter (fun x => inside C x.1)
  | _, _ => False

theorem good_inside {C : ℕ → Bool} {m : List ℕ} (hnd : m.Nodup) (hm : ∀ n ∈ m, C n = true) {x : ℕ × ℕ}
    (h : (decide (0 ≤ remap m x.1) && decide (0 ≤ remap m x.2)) = true) : inside C x = true := by
  simp only [Bool.and_eq_true, decide_eq_true_eq] at h
  have key : ∀ v, 0 ≤ remap m v → C v = true := by
    intro v hv
    rw [remap_eq hnd] at hv
    split_ifs at hv with hh
    · exact hm v hh
    · omega
  unfold inside
  rw [key _ h.1, key _ h.2]; rfl

theorem filter_filter_of {A : Type*} (p q : A → Bool) (h : ∀ x, p x = true → q x = true) (l : List A) : (l.filter q).filter p = l.filter p := by
  rw [List.filter_filter]
  apply List.filter_congr
  intro x _
  cases hp : p x with
  | false => simp
  | true => simp [h x hp]

theorem epsErr_local (eos : Ntp.EosST F) {s t p s' t' p' : ℕ → F} {x : ℕ × ℕ} (h1 : s' x.1 = s x.1 ∧ t' x.1 = t x.1 ∧ p' x.1 = p x.1)
    (h2 : s' x.2 = s x.2 ∧ t' x.2 = t x.2 ∧ p' x.2 = p x.2) : Ntp.epsErr eos s' t' p' x = Ntp.epsErr eos s t p x := by
  unfold Ntp.epsErr
  simp only [h1.1, h1.2.1, h1.2.2, h2.1, h2.2.1, h2.2.2]

theorem helper_local (eos : Ntp.EosST F) {C : ℕ → Bool} {s t p s' t' p' : ℕ → F} (h : ∀ n, C n = true → s' n = s n ∧ t' n = t n ∧ p' n = p n)
    {edges edges' : List (ℕ × ℕ)} {ratio ratio' : Ratio F} (hE : SameInside C edges ratio edges' ratio') {m : List ℕ} (hnd : m.Nodup)
    (hm : ∀ n ∈ m, C n = true) : helper eos s' t' p' edges' ratio' m = helper eos s t p edges ratio m := by
  have hin : ∀ x : ℕ × ℕ, inside C x = true → Ntp.epsErr eos s' t' p' x = Ntp.epsErr eos s t p x := by
    intro x hx
    unfold inside at hx
    simp only [Bool.and_eq_true] at hx
    exact epsErr_local eos (h _ hx.1) (h _ hx.2)
  unfold helper
  match ratio, ratio', hE with
  | .scalar d, .scalar d', hE =>
    obtain ⟨rfl, hE⟩ := hE
    dsimp only
    have e : ∀ l : List (ℕ × ℕ), (l.map fun x => (x, d')).filter (fun x => decide (0 ≤ remap m x.1.1) && decide (0 ≤ remap m x.1.2)) =
        (((l.filter (inside C)).filter fun x => decide (0 ≤ remap m x.1) && decide (0 ≤ remap m x.2)).map fun x => (x, d')) := by
      intro l
      rw [filter_filter_of _ _ (fun x hx => good_inside hnd hm hx), List.filter_map]
      rfl
    rw [e, e, hE]
    apply List.map_congr_left
    intro x hx
    obtain ⟨y, hy, rfl⟩ := List.mem_map.1 hx
    have := hin y (List.mem_filter.1 (List.mem_filter.1 hy).1).2
    dsimp only
    rw [this]
  | .arr l, .arr l', hE =>
    have hE : (edges'.zip l').filter (fun x => inside C x.1) = (edges.zip l).filter (fun x => inside C x.1) := hE
    dsimp only
    rw [← filter_filter_of (fun x : (ℕ × ℕ) × F => decide (0 ≤ remap m x.1.1) && decide (0 ≤ remap m x.1.2)) (fun x => inside C x.1)
      (fun x hx => good_inside hnd hm hx) (edges'.zip l'), hE, filter_filter_of _ _ (fun x hx => good_inside hnd hm hx)]
    apply List.map_congr_left
    intro x hx
    rw [hin x.1 (good_inside hnd hm (List.mem_filter.1 hx).2)]

/-- Two global solvers that do the same on regions inside `C`, fail on the empty region, and whose correction is NaN outside the region. -/
structure Confined (C : ℕ → Bool) (solver solver' : (ℕ → F) → (ℕ → F) → (ℕ → F) → List ℕ → ℕ → Res (ℕ → F)) : Prop where
  same : ∀ s t p s' t' p' m r, m.Nodup → (∀ n ∈ m, C n = true) → (∀ n, C n = true → s' n = s n ∧ t' n = t n ∧ p' n = p n) →
    solver' s' t' p' m r = solver s t p m r
  empty : ∀ s t p r, solver s t p [] r = .indexError
  out : ∀ s t p m r φ, solver s t p m r = .ok φ → r ∈ m → m.Nodup → ∀ n, n ∉ m → φ n = nan

/-- The Poisson solver is confined, whatever `spsolve` does. -/
theorem poisson_confined (spsolve : ℕ → (ℕ → ℕ → F) → (ℕ → F) → ℕ → F) (eosST : Ntp.EosST F) {C : ℕ → Bool} {edges edges' : List (ℕ × ℕ)}
    {ratio ratio' : Ratio F} (hE : SameInside C edges ratio edges' ratio') :
    Confined C (fun s t p m r => poisson spsolve eosST s t p edges ratio m r) fun s t p m r => poisson spsolve eosST s t p edges' ratio' m r := by
  constructor
  · intro s t p s' t' p' m r hnd hm h
    unfold poisson
    rw [helper_local eosST h hE hnd hm]
  · intro s t p r; rfl
  · intro s t p m r φ h hr hm n hn
    have hnr : n ≠ r := fun e => hn (e ▸ hr)
    unfold poisson at h
    split_ifs at h with hl
    · match m, hl, hr, h with
      | [x], _, hr, h =>
        cases h
        rw [Function.update_of_ne (by simpa using hn)]
    · split at h
      · cases h; rw [Function.update_of_ne hnr, scatter_eq hm, if_neg hn]
      · cases h

/-- The gradient solver is confined, whatever `lsqr` does. -/
theorem gradient_confined (lsqr : ℕ → ℕ → (ℕ → ℕ → F) → (ℕ → F) → ℕ → F) (eosST : Ntp.EosST F) {C : ℕ → Bool} {edges edges' : List (ℕ × ℕ)}
    {ratio ratio' : Ratio F} (hE : SameInside C edges ratio edges' ratio') :
    Confined C (fun s t p m r => gradient lsqr eosST s t p edges ratio m r) fun s t p m r => gradient lsqr eosST s t p edges' ratio' m r := by
  constructor
  · intro s t p s' t' p' m r hnd hm h
    unfold gradient
    rw [helper_local eosST h hE hnd hm]
  · intro s t p r; rfl
  · intro s t p m r φ h hr hm n hn
    unfold gradient at h
    split_ifs at h with hl
    · match m, hl, hr, h with
      | [x], _, hr, h =>
        cases h
        rw [Function.update_of_ne (by simpa using hn)]
    · cases h
      rw [scatter_eq hm, if_neg hn]

end OmegaMat

namespace Omega
open FloatLike Fzero Interp Traj VertSolve Bfs
variable {F : Type*} [FloatLike F]

/-- What is used about NaN: it is not finite, it is not zero, its modulus is NaN, and so is the square of its difference with any number. -/
structure NanLaws (F : Type*) [FloatLike F] : Prop where
  fin : isFinite (nan : F) = false
  zero : feq (nan : F) (lit 0) = false
  abs : isNaN (FloatLike.abs (nan : F)) = true
  sq : ∀ x : F, isNaN ((nan - x) * (nan - x)) = true

/-- Two calls of `omega_surf` with the same options on oceans that are the same on a set `C` of casts, left by no link of the grid, that
contains the pinning cast.  Elsewhere the casts, the links, the distances, the mixed layers and even the number of casts may differ. -/
structure SameBasin (C : ℕ → Bool) (c c' : Cfg F) : Prop where
  pinC : C c.pin = true
  inN : ∀ n, C n = true → n < c.N
  inN' : ∀ n, C n = true → n < c'.N
  graph : SameGraph C c.G c'.G
  casts : ∀ n, C n = true → c'.casts n = c.casts n
  pml : ∀ n, C n = true → c'.pml n = c.pml n
  solver : OmegaMat.Confined C c.solver c'.solver
  pin : c'.pin = c.pin
  kind : c'.kind = c.kind
  eos : c'.eos = c.eos
  sqrt : c'.sqrt = c.sqrt
  tol : c'.tol = c.tol
  tolPhi : c'.tolPhi = c.tolPhi
  tolP : c'.tolP = c.tolP
  diags : c'.diags = c.diags
  iterMin : c'.iterMin = c.iterMin
  iterMax : c'.iterMax = c.iterMax
  startWet : c'.startWet = c.startWet
  stopWet : c'.stopWet = c.stopWet
  nrep : c'.nrep = c.nrep
  fuel : c'.fuel = c.fuel

variable {C : ℕ → Bool} {c c' : Cfg F}

theorem SameBasin.ocean (H : SameBasin C c c') : SameOcean C c.ocean c'.ocean := by
  have h : ∀ n, C n = true → c'.casts n = c.casts n := H.casts
  constructor
  · intro n hn
    show (Ocean.ofCasts _ _ _ _ _ _).data n = (Ocean.ofCasts _ _ _ _ _ _).data n
    unfold Ocean.ofCasts
    dsimp only
    rw [h n hn]
  · intro b n hn
    show (Ocean.ofCasts _ _ _ _ _ _).ntpP b n = (Ocean.ofCasts _ _ _ _ _ _).ntpP b n
    unfold Ocean.ofCasts
    dsimp only
    rw [h n hn, H.fuel, H.tol, H.eos, H.kind]
  · intro n p hn
    show (Ocean.ofCasts _ _ _ _ _ _).st n p = (Ocean.ofCasts _ _ _ _ _ _).st n p
    unfold Ocean.ofCasts
    dsimp only
    rw [h n hn, H.kind]
  · exact H.pml

theorem wetting_local (L : NanLaws F) (H : SameBasin C c c') (K : Ok c) (K' : Ok c') {stp stp' : Surf F} (hs : ∀ n, C n = true → stp' n = stp n)
    {r : Surf F × ℕ} (h : wetting c stp = .ok r) :
    ∃ r', wetting c' stp' = .ok r' ∧ r'.2 = r.2 ∧ (∀ n, C n = true → r'.1 n = r.1 n) ∧ (∀ n, C n = false → wet r.1 n = false) ∧
      ∀ n, C n = false → wet r'.1 n = false := by
  unfold wetting at h
  obtain ⟨q, h1, h2⟩ := bind_ok h
  cases h2
  obtain ⟨q', i1, i2, i3, i4, i5⟩ := wetPerim_local L.fin H.graph H.ocean K.graph K'.graph K.pin (H.pin ▸ K'.pin) H.pinC hs c.garbage c'.garbage c.nrep
    c.fuel (ofOption_ok h1)
  refine ⟨(q'.stp, q'.newly), ?_, i2, i3, i4, i5⟩
  unfold wetting
  rw [H.pin, H.nrep, H.fuel, i1]
  rfl

/-- Lists in increasing order with the same members are equal. -/
theorem sorted_ext {l l' : List ℕ} (hn : l.Nodup) (hn' : l'.Nodup) (hs : l.Pairwise (· ≤ ·)) (hs' : l'.Pairwise (· ≤ ·))
    (h : ∀ n, n ∈ l ↔ n ∈ l') : l = l' :=
  ((List.perm_ext_iff_of_nodup hn hn').2 h).eq_of_pairwise (fun a b _ _ => Nat.le_antisymm) hs hs'

theorem reach_in (H : SameBasin C c c') {good : ℕ → Bool} {n : ℕ} (h : Reach c.G good c.pin n) : C n = true := by
  obtain ⟨k, w⟩ := h
  induction w with
  | root _ => exact H.pinC
  | step _ hn _ ih => exact H.graph.closed _ ih _ hn

theorem reach_local (H : SameBasin C c c') {good good' : ℕ → Bool} (hg : ∀ n, C n = true → good' n = good n) (n : ℕ) :
    Reach c'.G good' c'.pin n ↔ Reach c.G good c.pin n := by
  rw [H.pin]
  constructor
  · rintro ⟨k, w⟩
    refine ⟨k, (?_ : C n = true ∧ Walk c.G good c.pin k n).2⟩
    induction w with
    | root h => exact ⟨H.pinC, .root (by rw [← hg _ H.pinC]; exact h)⟩
    | step _ hn hgood ih =>
      rw [H.graph.nbrs _ ih.1] at hn
      have hc := H.graph.closed _ ih.1 _ hn
      exact ⟨hc, .step ih.2 hn (by rw [← hg _ hc]; exact hgood)⟩
  · rintro ⟨k, w⟩
    refine ⟨k, (?_ : C n = true ∧ Walk c'.G good' c.pin k n).2⟩
    induction w with
    | root h => exact ⟨H.pinC, .root (by rw [hg _ H.pinC]; exact h)⟩
    | step _ hn hgood ih =>
      have hc := H.graph.closed _ ih.1 _ hn
      exact ⟨hc, .step ih.2 (by rw [H.graph.nbrs _ ih.1]; exact hn) (by rw [hg _ hc]; exact hgood)⟩

theorem region_local (L : NanLaws F) (H : SameBasin C c c') (K : Ok c) (K' : Ok c') {iter : ℕ} {stp stp' : Surf F}
    (hs : ∀ n, C n = true → stp' n = stp n) {r : Surf F × List ℕ × ℕ} (h : region c iter stp = .ok r) :
    ∃ r', region c' iter stp' = .ok r' ∧ r'.2 = r.2 ∧ (∀ n, C n = true → r'.1 n = r.1 n) ∧ ∀ n ∈ r.2.1, C n = true := by
  unfold region at h ⊢
  rw [H.startWet, H.stopWet]
  split_ifs at h ⊢ with hw
  · obtain ⟨q, h1, h2⟩ := bind_ok h
    cases h2
    obtain ⟨q', i1, i2, i3, i4, i5⟩ := wetting_local L H K K' hs h1
    rw [i1]
    refine ⟨_, rfl, ?_, i3, ?_⟩
    · dsimp only
      rw [i2]
      congr 1
      refine sorted_ext (List.nodup_range.filter _) (List.nodup_range.filter _)
        ((List.pairwise_lt_range.imp (fun h => Nat.le_of_lt h)).filter _) ((List.pairwise_lt_range.imp (fun h => Nat.le_of_lt h)).filter _) ?_
      intro n
      rw [List.mem_filter, List.mem_filter, List.mem_range, List.mem_range]
      cases hc : C n with
      | false =>
        have e1 := i4 n hc
        have e2 := i5 n hc
        unfold wet at e1 e2
        rw [e1, e2]; simp
      | true =>
        rw [i3 n hc]
        exact ⟨fun hh => ⟨H.inN n hc, hh.2⟩, fun hh => ⟨H.inN' n hc, hh.2⟩⟩
    · intro n hn
      have hn := (List.mem_filter.1 hn).2
      cases hc : C n with
      | false => have := i4 n hc; unfold wet at this; rw [this] at hn; cases hn
      | true => rfl
  · obtain ⟨q, h1, h2⟩ := bind_ok h
    cases h2
    obtain ⟨q1, a1, a2, -, a3, -⟩ := bfs_component c.G c.N c.pin (wet stp) K.graph K.pin c.fuel K.fuel
    obtain ⟨q2, b1, b2, -, b3, -⟩ := bfs_component c'.G c'.N c'.pin (wet stp') K'.graph K'.pin c'.fuel K'.fuel
    have h1 : Bfs.bfs c.G c.pin (wet stp) c.fuel = some q := ofOption_ok h1
    rw [h1] at a1
    cases a1
    have b1 : Bfs.bfs c'.G c'.pin (fun n => isFinite (stp' n).2.2) c'.fuel = some q2 := b1
    rw [b1]
    refine ⟨_, rfl, ?_, hs, ?_⟩
    · dsimp only
      congr 1
      refine sorted_ext ((List.perm_insertionSort _ _).nodup_iff.2 b2) ((List.perm_insertionSort _ _).nodup_iff.2 a2) (List.pairwise_insertionSort _ _)
        (List.pairwise_insertionSort _ _) ?_
      intro n
      rw [List.mem_insertionSort, List.mem_insertionSort, a3, b3]
      exact reach_local H (fun n hn => by unfold wet; rw [hs n hn]) n
    · intro n hn
      exact reach_in H ((a3 n).1 ((List.mem_insertionSort _).1 hn))

/-- **C153** One pass. -/
theorem step_local (L : NanLaws F) (H : SameBasin C c c') (K : Ok c) (K' : Ok c') {pinP : F} {iter : ℕ} {stp stp' : Surf F}
    (hs : ∀ n, C n = true → stp' n = stp n) {r : Iter F} (h : step c pinP iter stp = .ok r) :
    ∃ r', step c' pinP iter stp' = .ok r' ∧ r'.qu = r.qu ∧ r'.newly = r.newly ∧ r'.phi = r.phi ∧ (∀ n, C n = true → r'.old n = r.old n) ∧
      (∀ n, C n = true → r'.new n = r.new n) ∧ (∀ n, C n = false → r.phi n = nan) ∧
      (∀ n < c.N, C n = false → (r.new n).2.2 = nan) ∧ ∀ n < c'.N, C n = false → (r'.new n).2.2 = nan := by
  have hml : ∀ n, C n = true → removeML c' iter stp' n = removeML c iter stp n := by
    intro n hn
    unfold removeML
    split_ifs
    · dsimp only
      rw [hs n hn, H.pml n hn]
    · exact hs n hn
  unfold step at h
  obtain ⟨⟨stp1, qu, nw⟩, h1, h2⟩ := bind_ok h
  obtain ⟨phi, h3, h4⟩ := bind_ok h2
  obtain ⟨stp2, h5, h6⟩ := bind_ok h4
  cases h6
  have h3 := ofMat_ok h3
  have h5 := ofOutcome_ok h5
  obtain ⟨j1, -, -, j4, j5, -⟩ := region_spec L.fin K h1
  obtain ⟨⟨stp1', qu', nw'⟩, i1, i2, i3, i4⟩ := region_local L H K K' hml h1
  cases i2
  dsimp only at h3 h5 i3 i4 ⊢
  have hpin : c.pin ∈ qu := by
    rcases Bool.eq_false_or_eq_true (wet (removeML c iter stp) c.pin) with hh | hh
    · exact j4 hh
    · rw [j5 hh, H.solver.empty] at h3; cases h3
  have hnan : ∀ n, C n = false → phi n = nan := fun n hn =>
    H.solver.out _ _ _ _ _ _ h3 hpin j1 n (fun hh => by rw [i4 n hh] at hn; cases hn)
  have hsol : c'.solver (fun n => (stp1' n).1) (fun n => (stp1' n).2.1) (fun n => (stp1' n).2.2) qu c'.pin = .ok phi := by
    rw [H.pin, ← h3]
    exact H.solver.same _ _ _ _ _ _ _ _ j1 i4 (fun n hn => by rw [i3 n hn]; exact ⟨rfl, rfl, rfl⟩)
  obtain ⟨v1, v2⟩ := (vertsolveOmega_pointwise _ _ _ _ _ _ _ _ _).1 h5
  have hdry : ∀ (c : Cfg F) (b : F × F × F) n, C n = false →
      omegaSolve1 c.fuel c.tol c.kind c.eos (phi n) b (c.casts n) = .ret (nan, nan, nan) := by
    intro c b n hn
    unfold omegaSolve1
    rw [hnan n hn, L.zero, L.fin]
    simp
  let out' : Surf F := fun n => if n < c'.N then (if C n then stp2 n else (nan, nan, nan)) else stp1' n
  have hv' : vertsolveOmega c'.fuel c'.tol c'.kind c'.eos phi c'.casts stp1' c'.N = .ret out' := by
    rw [vertsolveOmega_pointwise]
    constructor
    · intro n hn
      show _ = Outcome.ret (if n < c'.N then _ else _)
      rw [if_pos hn]
      cases hc : C n with
      | true =>
        rw [if_pos rfl, H.fuel, H.tol, H.kind, H.eos, H.casts n hc, i3 n hc]
        exact v1 n (H.inN n hc)
      | false => rw [if_neg (by simp)]; exact hdry c' _ n hc
    · intro n hn
      show (if n < c'.N then _ else _) = _
      rw [if_neg (by omega)]
  have hout : ∀ n, C n = true → out' n = stp2 n := by
    intro n hn
    show (if n < c'.N then (if C n then _ else _) else _) = _
    rw [if_pos (H.inN' n hn), if_pos hn]
  have hneq : ∀ n, C n = false → n ≠ c.pin := by rintro n hn rfl; rw [H.pinC] at hn; cases hn
  refine ⟨⟨stp1', Function.update out' c'.pin ((out' c'.pin).1, (out' c'.pin).2.1, pinP), qu, phi, nw⟩, ?_, rfl, rfl, rfl, i3, ?_, hnan, ?_, ?_⟩
  · unfold step
    rw [i1]
    show (ofMat (c'.solver _ _ _ qu c'.pin)).bind _ = _
    rw [hsol]
    show (ofOutcome _).bind _ = _
    rw [hv']
    rfl
  · intro n hn
    dsimp only
    rw [H.pin, hout _ H.pinC]
    by_cases hp : n = c.pin
    · subst hp; rw [Function.update_self, Function.update_self]
    · rw [Function.update_of_ne hp, Function.update_of_ne hp, hout n hn]
  · intro n hn hc
    rw [Function.update_of_ne (hneq n hc)]
    have := v1 n hn
    rw [hdry c _ n hc] at this
    injection this with this
    rw [← this]
  · intro n hn hc
    show (Function.update out' c'.pin _ n).2.2 = _
    rw [H.pin, Function.update_of_ne (hneq n hc)]
    show (if n < c'.N then (if C n then _ else _) else _ : F × F × F).2.2 = _
    rw [if_pos hn, if_neg (by rw [hc]; simp)]

theorem nanmean_local (H : SameBasin C c c') {f f' : ℕ → F} (h : ∀ n, C n = true → f' n = f n) (h1 : ∀ n < c.N, C n = false → isNaN (f n) = true)
    (h2 : ∀ n < c'.N, C n = false → isNaN (f' n) = true) : nanmean c'.N f' = nanmean c.N f := by
  have key : ∀ (N : ℕ) (g : ℕ → F), (∀ n < N, C n = false → isNaN (g n) = true) →
      ((List.range N).map g).filter (fun x => !isNaN x) = (((List.range N).filter C).map g).filter (fun x => !isNaN x) := by
    intro N g hg
    rw [List.filter_map, List.filter_map, List.filter_filter]
    congr 1
    apply List.filter_congr
    intro n hn
    cases hc : C n with
    | true => simp
    | false => simp [Function.comp, hg n (List.mem_range.1 hn) hc]
  have hl : (List.range c'.N).filter C = (List.range c.N).filter C := by
    refine sorted_ext (List.nodup_range.filter _) (List.nodup_range.filter _)
        ((List.pairwise_lt_range.imp (fun h => Nat.le_of_lt h)).filter _) ((List.pairwise_lt_range.imp (fun h => Nat.le_of_lt h)).filter _) ?_
    intro n
    rw [List.mem_filter, List.mem_filter, List.mem_range, List.mem_range]
    exact ⟨fun hh => ⟨H.inN n hh.2, hh.2⟩, fun hh => ⟨H.inN' n hh.2, hh.2⟩⟩
  have hm : ((List.range c.N).filter C).map f' = ((List.range c.N).filter C).map f :=
    List.map_congr_left fun n hn => h n (List.mem_filter.1 hn).2
  unfold nanmean
  rw [key _ _ h1, key _ _ h2, hl, hm]

theorem loop_local (L : NanLaws F) (H : SameBasin C c c') (K : Ok c) (K' : Ok c') {pinP : F} :
    ∀ (left iter : ℕ) (s s' e : State F), (∀ n, C n = true → s'.stp n = s.stp n) → s'.rms = s.rms → s'.last = s.last →
      loop c pinP left iter s = .ok e →
      ∃ e', loop c' pinP left iter s' = .ok e' ∧ e'.last = e.last ∧ ∀ n, C n = true → e'.stp n = e.stp n := by
  intro left
  induction left with
  | zero => intro iter s s' e h1 _ h3 h; cases h; exact ⟨s', rfl, h3, h1⟩
  | succ left ih =>
    intro iter s s' e h1 h2 h3 h
    unfold loop at h ⊢
    obtain ⟨r, h4, h5⟩ := bind_ok h
    obtain ⟨r', i1, -, -, i4, i5, i6, i7, i8, i9⟩ := step_local L H K K' h1 h4
    rw [i1]
    have hphi : phiMAV c' r' = phiMAV c r := by
      unfold phiMAV
      apply nanmean_local H
      · intro n _; rw [i4]
      · intro n _ hc; rw [i7 n hc]; exact L.abs
      · intro n _ hc; rw [i4, i7 n hc]; exact L.abs
    have hrms : dpRMS c' s'.rms r' = dpRMS c s.rms r := by
      unfold dpRMS
      rw [H.diags, H.tolP, H.sqrt, h2]
      have : (nanmean c'.N fun n => dp r' n * dp r' n) = nanmean c.N fun n => dp r n * dp r n := by
        apply nanmean_local H
        · intro n hc; unfold dp; rw [i5 n hc, i6 n hc]
        · intro n hn hc; unfold dp; rw [i8 n hn hc]; exact L.sq _
        · intro n hn hc; unfold dp; rw [i9 n hn hc]; exact L.sq _
      rw [this]
    show ∃ e', (if converged c' iter r' (dpRMS c' s'.rms r') then Res.ok (after c' iter s' r') else
      loop c' pinP left (iter + 1) (after c' iter s' r')) = _ ∧ _
    have hconv : converged c' iter r' (dpRMS c' s'.rms r') = converged c iter r (dpRMS c s.rms r) := by
      unfold converged
      rw [hphi, hrms, H.tolPhi, H.tolP, H.iterMin]
    rw [hconv]
    split_ifs at h5 ⊢
    · cases h5
      exact ⟨_, rfl, rfl, i6⟩
    · exact ih _ (after c iter s r) (after c' iter s' r') _ i6 hrms rfl h5

/-- Two initial pressures that are the same on `C`. -/
def SamePInit (C : ℕ → Bool) (c' : Cfg F) : PInit F → PInit F → Prop
  | .scalar p, .scalar p' => p' = p
  | .array p, .array p' => (∀ n, C n = true → p' n = p n) ∧ ∀ n < c'.N, (interpTwo c' (p' n) n).isSome = true
  | _, _ => False

theorem init_local (L : NanLaws F) (H : SameBasin C c c') (K : Ok c) (K' : Ok c') {p0 p0' : PInit F} (hp : SamePInit C c' p0 p0') {stp : Surf F}
    (h : init c p0 = .ok stp) : ∃ stp', init c' p0' = .ok stp' ∧ (∀ n, C n = true → stp' n = stp n) ∧ pinPOf c' p0' = pinPOf c p0 := by
  have hint : ∀ p n, C n = true → interpTwo c' p n = interpTwo c p n := by
    intro p n hn
    unfold interpTwo
    rw [H.kind, H.casts n hn]
  unfold init at h
  obtain ⟨raw, h1, h2⟩ := bind_ok h
  obtain ⟨raw', i1, i2, i3⟩ : ∃ raw', initRaw c' p0' = .ok raw' ∧ (∀ n, C n = true → raw' n = raw n) ∧ pinPOf c' p0' = pinPOf c p0 := by
    match p0, p0', hp with
    | .scalar p, .scalar p', hp =>
      obtain rfl : p' = p := hp
      unfold initRaw at h1
      obtain ⟨st, h3, h1⟩ := bind_ok h1
      obtain ⟨q, h4, h1⟩ := bind_ok h1
      cases h1
      obtain ⟨q', j1, -, j3, -⟩ := wetting_local L H K K' (stp' := Function.update (fun _ => (nan, nan, nan)) c.pin (st.1, st.2, p'))
        (fun n _ => rfl) h4
      refine ⟨q'.1, ?_, j3, rfl⟩
      unfold initRaw
      dsimp only
      rw [H.pin, hint _ _ H.pinC, ofOption_ok h3]
      show (wetting c' _).bind _ = _
      rw [j1]; rfl
    | .array p, .array p', hp =>
      unfold initRaw at h1
      dsimp only at h1
      split_ifs at h1 with h3
      cases h1
      refine ⟨fun n => if n < c'.N then ((((interpTwo c' (p' n) n).getD (nan, nan)).1), ((interpTwo c' (p' n) n).getD (nan, nan)).2, p' n)
          else (nan, nan, nan), ?_, ?_, ?_⟩
      · unfold initRaw
        dsimp only
        rw [if_pos hp.2]
      · intro n hn
        dsimp only
        rw [if_pos (H.inN' n hn), if_pos (H.inN n hn), hp.1 n hn, hint _ n hn]
      · show p' c'.pin = p c.pin
        rw [H.pin, hp.1 _ H.pinC]
  split_ifs at h2 with hn
  cases h2
  refine ⟨fun n => if isNaN (raw' n).1 then ((raw' n).1, (raw' n).2.1, nan) else raw' n, ?_, ?_, i3⟩
  · unfold init
    rw [i1]
    show (if isNaN (raw' c'.pin).1 = true then _ else _) = _
    rw [H.pin, i2 _ H.pinC, if_neg hn]
  · intro n hn
    dsimp only
    rw [i2 n hn]

/-- **C153.** If `omega_surf` returns, then on any ocean that is the same on the casts linked with the pinning cast (and, when the initial surface
is an array, on which the interpolation to it does not raise) it returns after the same number of passes, with the same salinity, temperature
and pressure on all those casts: casts not linked with the pinning cast have no influence on the surface. -/
theorem omega_local (L : NanLaws F) (H : SameBasin C c c') (K : Ok c) (K' : Ok c') {p0 p0' : PInit F} (hp : SamePInit C c' p0 p0') {s : State F}
    (h : omega c p0 = .ok s) : ∃ s', omega c' p0' = .ok s' ∧ s'.last = s.last ∧ ∀ n, C n = true → s'.stp n = s.stp n := by
  unfold omega at h
  obtain ⟨stp, h1, h2⟩ := bind_ok h
  obtain ⟨e, h3, h4⟩ := bind_ok h2
  obtain ⟨stp', i1, i2, i3⟩ := init_local L H K K' hp h1
  obtain ⟨e', j1, j2, j3⟩ := loop_local L H K K' _ _ ⟨stp, lit 0, _, 0⟩ ⟨stp', lit 0, if c'.diags then [diag0 c' stp'] else [], 0⟩ _ i2 rfl rfl h3
  split_ifs at h4 with hd
  cases h4
  refine ⟨e', ?_, j2, j3⟩
  unfold omega
  rw [i1]
  show (loop c' (pinPOf c' p0') c'.iterMax 1 _).bind _ = _
  rw [i3, H.iterMax, j1]
  show (if _ then _ else _) = _
  rw [H.diags, j2, if_neg hd]

/-- Exact arithmetic with NaN and infinities has these laws. -/
theorem nanLaws_fl {α : Type*} [Field α] [LinearOrder α] [IsStrictOrderedRing α] : NanLaws (Fl α) :=
  ⟨rfl, rfl, rfl, fun _ => rfl⟩

/-- So has rounded arithmetic. -/
theorem nanLaws_rfl {α : Type*} [Field α] [LinearOrder α] [IsStrictOrderedRing α] (rnd : α → α) : NanLaws (Rfl rnd) :=
  ⟨rfl, rfl, rfl, fun _ => rfl⟩

/-- The two casts of `pair`, and a lake of two more that are joined by an edge, with other water, a mixed layer, and an edge with another
factor. -/
def pairLake : Cfg (Fl ℚ) :=
  { pair .ninf 2 with
    N := 4
    G := ⟨fun n => min n 4, fun n => if n < 2 then 1 - n else 5 - n⟩
    casts := fun n => if n < 2 then (pair .ninf 2).casts n else ⟨⟨3, fun i => .fin (5 * i + n)⟩, ⟨3, fun _ => .fin 7⟩, ⟨3, fun i => .fin i⟩⟩
    pml := fun n => if n < 2 then .ninf else .fin 1
    garbage := fun n => n + 3
    solver := fun s t p m r => OmegaMat.poisson (fun _ L D i => if i = 0 then .fin 0 else D 1 / L 1 1) (fun _ _ _ => (.fin 1, .fin 0))
      s t p [(2, 3), (0, 1)] (.arr [.fin 5, .fin 1]) m r }

theorem pairLake_same : SameBasin (fun n => decide (n < 2)) (pair .ninf 2) pairLake := by
  refine ⟨rfl, fun n h => of_decide_eq_true h, fun n h => ?_, ⟨?_, ?_⟩, ?_, ?_, ?_, rfl, rfl, rfl, rfl, rfl, rfl, rfl, rfl, rfl, rfl, rfl, rfl, rfl, rfl⟩
  · have := of_decide_eq_true h
    show n < 4
    omega
  · intro m hm
    have := of_decide_eq_true hm
    have : m = 0 ∨ m = 1 := by omega
    rcases this with rfl | rfl <;> rfl
  · intro m _ n hn
    have := pair_nbrs _ _ _ _ hn
    exact decide_eq_true (by omega)
  · intro n hn
    show (if n < 2 then _ else _) = _
    rw [if_pos (of_decide_eq_true hn)]
  · intro n hn
    show (if n < 2 then _ else _) = _
    rw [if_pos (of_decide_eq_true hn)]; rfl
  · exact OmegaMat.poisson_confined (F := Fl ℚ) (C := fun n => decide (n < 2)) (fun _ L D i => if i = 0 then .fin 0 else D 1 / L 1 1) (fun _ _ _ => (.fin 1, .fin 0)) 
      (edges := [(0, 1)]) (edges' := [(2, 3), (0, 1)]) (ratio := .arr [Fl.fin 1]) (ratio' := .arr [Fl.fin 5, Fl.fin 1])
      (show _ = _ by rfl)

theorem pairLake_ok : Ok pairLake := by
  refine ⟨?_, by show 0 < 4; omega, by show 4 < 200; omega⟩
  intro i hi n hn
  simp only [pairLake, Csr.nbrs, List.mem_map, List.mem_range'_1] at hn
  obtain ⟨a, h1, rfl⟩ := hn
  show (if a < 2 then 1 - a else 5 - a) < 4
  split_ifs <;> omega

/-- The lake, wet in the initial surface, changes nothing at the two casts. -/
example : ∃ s s', omega (pair .ninf 2) (.array fun _ => .fin 2) = .ok s ∧ omega pairLake (.array fun n => if n < 2 then .fin 2 else .fin 1) = .ok s' ∧
    s'.last = 2 ∧ s'.stp 0 = s.stp 0 ∧ s'.stp 1 = s.stp 1 := by
  obtain ⟨s, h, hl⟩ := pair_state
  have hp : SamePInit (fun n => decide (n < 2)) pairLake (.array fun _ => .fin 2) (.array fun n => if n < 2 then .fin 2 else .fin 1) := by
    refine ⟨fun n hn => ?_, ?_⟩
    · show (if n < 2 then _ else _) = _
      rw [if_pos (of_decide_eq_true hn)]
    · show ∀ n < 4, _
      decide +kernel
  obtain ⟨s', h1, h2, h3⟩ := omega_local nanLaws_fl pairLake_same (pair_ok _ _) pairLake_ok hp h
  exact ⟨s, s', h, h1, by rw [h2, hl], h3 0 rfl, h3 1 rfl⟩

end Omega
