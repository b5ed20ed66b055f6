import Verif.Props.Repin

/-! # Potential density and anomaly surfaces can be computed tile by tile (C186) -/

set_option linter.unusedSectionVars false

namespace Isopycnal
open FloatLike Fzero Interp Traj VertSolve Lib

variable {F : Type*} [FloatLike F] {fuel : ℕ} {tol : F} {kind : PPKind} {eos : F → F → F → F} {ty : Ans} {ref r : RefArg F} {isoval : Option F} {v : F}
  {casts casts' : ℕ → Cast F} {N M : ℕ} {g : ℕ → ℕ}

/-- the vertical solve on some of the casts, in any order, maybe repeated -/
theorem solve_sub (hg : ∀ j < M, g j < N ∧ casts' j = casts (g j)) {stp : ℕ → F × F × F} (h : solve fuel tol kind eos ty r v casts N = .ok stp) :
    ∃ stp', solve fuel tol kind eos ty r v casts' M = .ok stp' ∧ ∀ j < M, stp' j = stp (g j) := by
  have key : ∀ zf, ofOutcome (vertsolve fuel tol kind zf casts N) = .ok stp →
      ofOutcome (vertsolve fuel tol kind zf casts' M) = .ok fun j => if j < M then stp (g j) else (nan, nan, nan) := by
    intro zf h
    have h1 : vertsolve fuel tol kind zf casts N = .ret stp := by
      generalize vertsolve fuel tol kind zf casts N = o at h
      cases o <;> cases h
      rfl
    rw [vertsolve_pointwise] at h1
    rw [(vertsolve_pointwise fuel tol kind zf casts' M _).2 ⟨fun j hj => ?_, fun j hj => ?_⟩]
    · rfl
    · rw [if_pos hj, (hg j hj).2]; exact h1.1 _ (hg j hj).1
    · rw [if_neg (by omega)]
  refine ⟨fun j => if j < M then stp (g j) else (nan, nan, nan), ?_, fun j hj => if_pos hj⟩
  unfold solve at h ⊢
  split at h
  · exact key _ h
  · exact key _ h
  · cases h

theorem solve_ref {stp : ℕ → F × F × F} (h : solve fuel tol kind eos ty r v casts N = .ok stp) (v' : F) (M : ℕ) : checkRef ty r (some v') none .none M = .ok () := by
  unfold solve at h
  split at h
  · rfl
  · rfl
  · cases h

/-- **C186** Whatever reference, isovalue and pin a surface was computed with: called with the reference and isovalue that were returned, on some of the casts (in any order), the same
solver gives the same bits on them, except at the pinning cast, where the first surface was moved to the pin. -/
theorem isopycnal_tile {pc : Option ℤ} {pp : PinP F} {stp : ℕ → F × F × F} (h : isopycnal fuel tol kind eos ty ref isoval pc pp casts N = .ok (stp, r, v))
    (hg : ∀ j < M, g j < N ∧ casts' j = casts (g j)) :
    ∃ stp', isopycnal fuel tol kind eos ty r (some v) none .none casts' M = .ok (stp', r, v) ∧
      ∀ j < M, pp = .none ∨ pc.bind (npIdx N) ≠ some (g j) → stp' j = stp (g j) := by
  unfold isopycnal at h
  obtain ⟨u, c1, h⟩ := bind_ok h
  obtain ⟨ri, c2, h⟩ := bind_ok h
  obtain ⟨x, c3, h⟩ := bind_ok h
  obtain ⟨rr, vv⟩ := ri
  have hr : rr = r ∧ vv = v ∧ ∀ j, pp = .none ∨ pc.bind (npIdx N) ≠ some j → stp j = x j := by
    split at h
    · split at h
      · rename_i n hn
        obtain ⟨st, c4, h⟩ := bind_ok h
        cases h
        refine ⟨rfl, rfl, ?_⟩
        rintro j (hj | hj)
        · cases hj
        · exact Function.update_of_ne (fun e => hj (by rw [e]; exact hn)) ..
      · cases h
    · cases h; exact ⟨rfl, rfl, fun _ _ => rfl⟩
  obtain ⟨rfl, rfl, hx⟩ := hr
  obtain ⟨x', d1, d2⟩ := solve_sub hg c3
  refine ⟨x', ?_, fun j hj hp => by rw [d2 j hj, hx _ hp]⟩
  unfold isopycnal
  rw [solve_ref c3]
  show (solve fuel tol kind eos ty rr vv casts' M).bind _ = _
  rw [d1]
  rfl

theorem npIdx_nat {n : ℕ} (h : n < N) : npIdx N (n : ℤ) = some n := by
  unfold npIdx
  rw [if_pos (Int.natCast_nonneg _), if_pos (Nat.cast_lt.2 h), Int.toNat_natCast]

/-- **C186** Called with the same options on a tile that has the pinning cast: the same bits on the tile, and the same reference and isovalue. -/
theorem isopycnal_tile_pin {pc : ℤ} {pp : PinP F} {stp : ℕ → F × F × F} (h : isopycnal fuel tol kind eos ty ref isoval (some pc) pp casts N = .ok (stp, r, v))
    (hg : ∀ j < M, g j < N ∧ casts' j = casts (g j)) {j0 : ℕ} (hj0 : j0 < M) (hp : npIdx N pc = some (g j0)) (hi : ∀ j < M, g j = g j0 → j = j0) :
    ∃ stp', isopycnal fuel tol kind eos ty ref isoval (some (j0 : ℤ)) pp casts' M = .ok (stp', r, v) ∧ ∀ j < M, stp' j = stp (g j) := by
  unfold isopycnal at h
  obtain ⟨u, c1, h⟩ := bind_ok h
  have c1' : checkRef ty ref isoval (some (j0 : ℤ)) pp M = .ok () := by
    unfold checkRef at c1 ⊢
    simp only [Option.isNone_some, Bool.false_or] at c1 ⊢
    simp only [hp, Option.isNone_some] at c1
    simp only [npIdx_nat hj0, Option.isNone_some]
    exact c1
  simp only [Option.bind_some, hp] at h
  obtain ⟨ri, c2, h⟩ := bind_ok h
  obtain ⟨x, c3, h⟩ := bind_ok h
  obtain ⟨rr, vv⟩ := ri
  obtain ⟨x', d1, d2⟩ := solve_sub hg c3
  have hpin : pinOf casts' (some j0) pp = pinOf casts (some (g j0)) pp := by
    unfold pinOf
    cases pp <;> dsimp only
    rw [(hg j0 hj0).2]
  unfold isopycnal
  simp only [Option.bind_some, npIdx_nat hj0, c1', hpin]
  simp only [Res.bind] at c2 ⊢
  rw [c2]
  dsimp only
  rw [d1]
  dsimp only at h ⊢
  cases pp with
  | float q =>
    dsimp only at h ⊢
    obtain ⟨st, c4, h⟩ := bind_ok h
    cases h
    rw [(hg j0 hj0).2, c4]
    refine ⟨_, rfl, fun j hj => ?_⟩
    by_cases e : j = j0
    · subst e; rw [Function.update_self, Function.update_self]
    · rw [Function.update_of_ne e, Function.update_of_ne (fun e' => e (hi j hj e')), d2 j hj]
  | none => cases h; exact ⟨_, rfl, d2⟩
  | other => cases h; exact ⟨_, rfl, d2⟩

/-! ## Calls with arrays -/

section
variable {d d' : Dim} {dims dims' : Option (List String)} {coord coord' : String → Option (List ℚ)} {S T S' T' : Nd F} {P P' : PArg F} {vd vd' : ℕ}
  {pr pr' : List ℕ → ℕ → F}

/-- **Specification**: every cast of the second arrays is one of the first, namely that at the indices `σ m`. -/
def TileOf (S T : Nd F) (pr : List ℕ → ℕ → F) (vd : ℕ) (S' T' : Nd F) (pr' : List ℕ → ℕ → F) (vd' : ℕ) (σ : List ℕ → List ℕ) : Prop :=
  ∀ m, Valid (S'.shape.eraseIdx vd') m → Valid (S.shape.eraseIdx vd) (σ m) ∧ castAt S' T' pr' vd' m = castAt S T pr vd (σ m)

theorem TileOf.flat {σ : List ℕ → List ℕ} (H : TileOf S T pr vd S' T' pr' vd' σ)
    (c1 : ∀ m, Valid (S.shape.eraseIdx vd) m → casts (ravel (S.shape.eraseIdx vd) m) = castAt S T pr vd m)
    (c1' : ∀ m, Valid (S'.shape.eraseIdx vd') m → casts' (ravel (S'.shape.eraseIdx vd') m) = castAt S' T' pr' vd' m) (j : ℕ) (hj : j < (S'.shape.eraseIdx vd').prod) :
    ravel (S.shape.eraseIdx vd) (σ (unravel (S'.shape.eraseIdx vd') j)) < (S.shape.eraseIdx vd).prod ∧
      casts' j = casts (ravel (S.shape.eraseIdx vd) (σ (unravel (S'.shape.eraseIdx vd') j))) := by
  obtain ⟨u1, u2⟩ := valid_unravel hj
  obtain ⟨h1, h2⟩ := H _ u1
  refine ⟨ravel_lt h1, ?_⟩
  rw [c1 _ h1, ← h2, ← c1' _ u1, u2]

theorem reshapeGet_ravel {s m : List ℕ} (g : ℕ → F × F × F) (h : Valid s m) : reshapeGet s g m = g (ravel s m) := by
  rw [reshapeGet, foldl_ravel h, Nat.zero_mul, Nat.zero_add]

/-- **C186** The same for calls of `potential_surf` and `anomaly_surf` with arrays: a tile may have another shape, another vertical dimension and more or fewer horizontal dimensions.
Called with the reference and isovalue returned for the whole, and no pin, it gives the same bits at all casts but the pinning cast of the whole. -/
theorem isoSurf_tile (A : Args d dims S T P vd pr) (A' : Args d' dims' S' T' P' vd' pr') {σ : List ℕ → List ℕ} (H : TileOf S T pr vd S' T' pr' vd' σ)
    {diags edges diags' edges' : Bool} (hd : diags = true → edges = true) (hd' : diags' = true → edges' = true) {pin : Pin} {mo : Option (List ℕ)}
    (hpin : PinAt coord (S.shape.eraseIdx vd) pin mo) {pp : PinP F} {hs : List ℕ} {out : List ℕ → F × F × F}
    (h : isoSurf fuel tol kind eos ty d diags edges dims coord S T P ref isoval pin pp = .ok (hs, out, r, v)) :
    ∃ out', isoSurf fuel tol kind eos ty d' diags' edges' dims' coord' S' T' P' r (some v) .none .none = .ok (S'.shape.eraseIdx vd', out', r, v) ∧
      ∀ m, Valid (S'.shape.eraseIdx vd') m → pp = .none ∨ mo ≠ some (σ m) → out' m = out (σ m) := by
  obtain ⟨casts, c1, c2⟩ := isoSurf_run (coord := coord) A hd
  obtain ⟨casts', c1', c2'⟩ := isoSurf_run (coord := coord') A' hd'
  rw [c2 _ _ _ _ _ _ _ _ mo _ hpin] at h
  obtain ⟨⟨stp, r0, v0⟩, h1, h2⟩ := bind_ok h
  cases h2
  obtain ⟨stp', e1, e2⟩ := isopycnal_tile h1 (H.flat c1 c1')
  refine ⟨fun m => reshapeGet (S'.shape.eraseIdx vd') stp' m, ?_, ?_⟩
  · rw [c2' _ _ _ _ _ _ _ _ none _ rfl]
    show (isopycnal fuel tol kind eos ty r0 (some v0) none .none casts' (S'.shape.eraseIdx vd').prod).bind _ = _
    rw [e1]
    rfl
  · intro m hm hp
    obtain ⟨w1, w2⟩ := H m hm
    have := e2 _ (ravel_lt hm) (by
      rw [unravel_ravel hm]
      refine hp.imp id fun hp => ?_
      cases mo with
      | none => exact fun e => by cases e
      | some i =>
        obtain ⟨_, _, _, _, hl⟩ := hpin
        rw [Option.map_some, Option.bind_some, npIdx_nat (ravel_lt hl.2.1)]
        intro e
        exact hp (congrArg some (ravel_inj hl.2.1 w1 (Option.some.inj e))))
    rw [unravel_ravel hm] at this
    dsimp only
    rw [reshapeGet_ravel _ hm, this, reshapeGet_ravel _ w1]

/-- **C186** With the pinning cast in the tile (once): called with the same options on the tile, the same bits on all of it, and the same reference and isovalue. -/
theorem isoSurf_tile_pin (A : Args d dims S T P vd pr) (A' : Args d' dims' S' T' P' vd' pr') {σ : List ℕ → List ℕ} (H : TileOf S T pr vd S' T' pr' vd' σ)
    {diags edges diags' edges' : Bool} (hd : diags = true → edges = true) (hd' : diags' = true → edges' = true) {pin pin' : Pin} {i i' : List ℕ}
    (hpin : PinAt coord (S.shape.eraseIdx vd) pin (some i)) (hpin' : PinAt coord' (S'.shape.eraseIdx vd') pin' (some i')) (hi : σ i' = i)
    (huniq : ∀ m, Valid (S'.shape.eraseIdx vd') m → σ m = i → m = i') {pp : PinP F} {hs : List ℕ} {out : List ℕ → F × F × F}
    (h : isoSurf fuel tol kind eos ty d diags edges dims coord S T P ref isoval pin pp = .ok (hs, out, r, v)) :
    ∃ out', isoSurf fuel tol kind eos ty d' diags' edges' dims' coord' S' T' P' ref isoval pin' pp = .ok (S'.shape.eraseIdx vd', out', r, v) ∧
      ∀ m, Valid (S'.shape.eraseIdx vd') m → out' m = out (σ m) := by
  obtain ⟨casts, c1, c2⟩ := isoSurf_run (coord := coord) A hd
  obtain ⟨casts', c1', c2'⟩ := isoSurf_run (coord := coord') A' hd'
  rw [c2 _ _ _ _ _ _ _ _ (some i) _ hpin] at h
  obtain ⟨⟨stp, r0, v0⟩, h1, h2⟩ := bind_ok h
  cases h2
  have hv : Valid (S.shape.eraseIdx vd) i := by obtain ⟨_, _, _, _, hl⟩ := hpin; exact hl.2.1
  have hv' : Valid (S'.shape.eraseIdx vd') i' := by obtain ⟨_, _, _, _, hl⟩ := hpin'; exact hl.2.1
  obtain ⟨stp', e1, e2⟩ := isopycnal_tile_pin (pc := (ravel (S.shape.eraseIdx vd) i : ℤ)) h1 (H.flat c1 c1') (j0 := ravel (S'.shape.eraseIdx vd') i') (ravel_lt hv')
    (by rw [unravel_ravel hv', hi]; exact npIdx_nat (ravel_lt hv))
    (by
      intro j hj e
      obtain ⟨u1, u2⟩ := valid_unravel hj
      rw [unravel_ravel hv', hi] at e
      rw [← u2, huniq _ u1 (ravel_inj (H _ u1).1 hv e)])
  refine ⟨fun m => reshapeGet (S'.shape.eraseIdx vd') stp' m, ?_, ?_⟩
  · rw [c2' _ _ _ _ _ _ _ _ (some i') _ hpin', Option.map_some, e1]
    rfl
  · intro m hm
    obtain ⟨w1, w2⟩ := H m hm
    have := e2 _ (ravel_lt hm)
    rw [unravel_ravel hm] at this
    dsimp only
    rw [reshapeGet_ravel _ hm, this, reshapeGet_ravel _ w1]

end

/-! ## Examples: seven casts on straight lines, of which numbers 5 and 2 are taken -/

open Fl in
/-- The surface through pressure 2 of cast 5 of seven, on casts 5 and 2 only: with the reference and isovalue returned, and with the pin. -/
example (kind : PPKind) : ∃ stp stp' stp'' : ℕ → Fl ℝ × Fl ℝ × Fl ℝ, ∃ v : ℝ,
    isopycnal 25 (fin 1) kind (fun s t _ => s - t) .potential (.float (fin 0)) none (some 5) (.float (fin 2)) rpCasts 7 = .ok (stp, .float (fin 0), fin v) ∧
    isopycnal 25 (fin 1) kind (fun s t _ => s - t) .potential (.float (fin 0)) (some (fin v)) none .none (fun j => rpCasts (5 - 3 * j)) 2 = .ok (stp', .float (fin 0), fin v) ∧
    isopycnal 25 (fin 1) kind (fun s t _ => s - t) .potential (.float (fin 0)) none (some 0) (.float (fin 2)) (fun j => rpCasts (5 - 3 * j)) 2 = .ok (stp'', .float (fin 0), fin v) ∧
    stp' 1 = stp 2 ∧ stp'' 0 = stp 5 ∧ stp'' 1 = stp 2 := by
  have hV : Constant (fun s t _ => s - t) 0 (fun s t _ => s - t) .potential (.float (fin 0)) := ⟨0, rfl, rfl⟩
  obtain ⟨stp, h1, h2⟩ := isopycnal_pin_returns exEos hV one_pos (fun j _ => Or.inr ⟨0, 6, (rp_strat kind j).1⟩) (N := 7) (j0 := 5) (by omega) (rp_strat kind 5).1 (x := 2)
    ⟨by norm_num, by norm_num⟩ ((rp_strat kind 5).2 2 (by norm_num) (by norm_num))
  have hg : ∀ j < 2, 5 - 3 * j < 7 ∧ (fun j => rpCasts (5 - 3 * j)) j = rpCasts (5 - 3 * j) := fun j _ => ⟨by omega, rfl⟩
  obtain ⟨stp', a1, a2⟩ := isopycnal_tile h1 hg
  obtain ⟨stp'', b1, b2⟩ := isopycnal_tile_pin (g := fun j => 5 - 3 * j) h1 hg (j0 := 0) (by omega) (npIdx_nat (by omega)) (by omega)
  exact ⟨stp, stp', stp'', _, h1, a1, b1, a2 1 (by omega) (Or.inr (by decide)), b2 0 (by omega), b2 1 (by omega)⟩

open Fl Same in
/-- The first of two columns by itself, as one column with pressure last, is a tile of both. -/
example : TileOf (lnS 3) (lnT 3) (fun _ k => fin (lnP 3 k)) 0 ⟨[1, 3], fun i => fin (lnP 3 (i.getD 1 0) + 35)⟩ ⟨[1, 3], fun i => fin (-2 * lnP 3 (i.getD 1 0) + 5)⟩
    (fun _ k => fin (lnP 3 k)) 1 (fun _ => [0]) ∧
    Args (.int (-1)) none ⟨[1, 3], fun i => fin (lnP 3 (i.getD 1 0) + 35)⟩ ⟨[1, 3], fun i => fin (-2 * lnP 3 (i.getD 1 0) + 5)⟩ (.small 3 fun k => fin (lnP 3 k)) 1
      (fun _ k => fin (lnP 3 k)) := by
  refine ⟨?_, rfl, Nat.one_lt_two, rfl, rfl, fun _ _ => rfl⟩
  intro m hm
  obtain ⟨i, rfl⟩ : ∃ i, m = [i] := by
    have : m.length = 1 := hm.length_eq.symm
    exact List.length_eq_one_iff.1 this
  refine ⟨.cons Nat.zero_lt_two .nil, ?_⟩
  unfold castAt lnS lnT
  simp

end Isopycnal
