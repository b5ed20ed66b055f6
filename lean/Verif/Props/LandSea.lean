import Verif.Props.LandRows

/-! # Seas behind land, and what the casts on land hold, do not matter (C193) -/

set_option linter.unusedSectionVars false

namespace Omega
open FloatLike Lib Bfs
variable {F : Type*} [FloatLike F]

/-- The salinities on `B`, and NaN elsewhere. -/
def onlyOn (B : List ℕ → Bool) (S : Nd F) (v : ℕ) : Nd F := ⟨S.shape, fun i => if B (i.eraseIdx v) then S.get i else nan⟩

theorem castAt_onlyOn {B : List ℕ → Bool} {S T : Nd F} {pr : List ℕ → ℕ → F} {v : ℕ} {m : List ℕ} (hB : B m = true) :
    castAt (onlyOn B S v) T pr v m = castAt S T pr v m := by
  unfold castAt onlyOn
  dsimp only
  simp only [List.eraseIdx_insertIdx_self, hB, if_true]

theorem few_onlyOn (L : NanLaws F) {B : List ℕ → Bool} {S T : Nd F} {pr : List ℕ → ℕ → F} {v : ℕ} {m : List ℕ} (hB : B m = false) :
    Few (castAt (onlyOn B S v) T pr v m) = true := by
  apply few_of_nan
  intro k
  unfold castAt onlyOn
  dsimp only
  simp only [List.eraseIdx_insertIdx_self, hB]
  exact L.fin

theorem args_onlyOn {d : Dim} {dims : Option (List String)} {S T : Nd F} {P : PArg F} {v : ℕ} {pr : List ℕ → ℕ → F} (A : Args d dims S T P v pr)
    (B : List ℕ → Bool) : Args d dims (onlyOn B S v) T P v pr :=
  ⟨A.dim, A.lt, A.shape, by have := A.press; cases P <;> exact this⟩

theorem agreePml_self {hs : List ℕ} {B : List ℕ → Bool} {x y : Option (Nd F)} (h : AgreePml hs B x y) : AgreePml hs B y y := by
  cases x <;> cases y
  · trivial
  · exact h.elim
  · exact h.elim
  · exact ⟨h.2.1, h.2.1, fun _ _ _ => rfl⟩

theorem sameStart_self {hs : List ℕ} {B : List ℕ → Bool} {kind : PPKind} {casts : List ℕ → Cast F} {x y : PArgInit F} (h : SameStart hs B kind casts x y) :
    SameStart hs B kind casts y y := by
  cases x <;> cases y
  case scalar.scalar => exact rfl
  case array.array => exact ⟨h.1, fun _ _ _ => rfl, h.2.2⟩
  all_goals exact h.elim

theorem sameStart_only (L : NanLaws F) {hs : List ℕ} {B : List ℕ → Bool} {kind : PPKind} {S T : Nd F} {pr : List ℕ → ℕ → F} {v : ℕ} {casts : List ℕ → Cast F}
    (hc : ∀ m, Valid hs m → B m = true → casts m = castAt S T pr v m) {x y : PArgInit F} (h : SameStart hs B kind casts x y) :
    SameStart hs B kind (fun m => castAt (onlyOn B S v) T pr v m) x y := by
  cases x <;> cases y
  case scalar.scalar => exact h
  case array.array =>
    refine ⟨h.1, h.2.1, fun m hm => ?_⟩
    cases hb : B m
    · rw [few_interp (few_onlyOn L hb)]; rfl
    · dsimp only
      rw [castAt_onlyOn hb, ← hc m hm hb]; exact h.2.2 m hm
  all_goals exact h.elim

/-- **C193.** Two oceans on the same grid agree on a set `B` of casts that contains the pinning cast, and in both every link between `B` and the rest touches land.
If `omega_surf` returns on the first, it does on the second, after the same number of passes and with the same surface on `B`: whatever there is behind the land,
another sea or none, does not matter. -/
theorem omegaSurf_behind_land (L : NanLaws F) (hN : isNaN (nan : F) = true) {o : Opts F} {pml' : Option (Nd F)} {dims : Option (List String)}
    {coord : String → Option (List ℚ)} {S T S' T' : Nd F} {P P' : PArg F} {v : ℕ} {pr pr' : List ℕ → ℕ → F} (A : Args o.vertDim dims S T P v pr)
    (A' : Args o.vertDim dims S' T' P' v pr') (hsh : S'.shape = S.shape) {E : List ((ℕ × ℕ) × F × F)}
    (hE : ∀ e ∈ E, e.1.1 < (S.shape.eraseIdx v).prod ∧ e.1.2 < (S.shape.eraseIdx v).prod) (hfuel : (S.shape.eraseIdx v).prod < o.fuel)
    {B : List ℕ → Bool}
    (hB : ∀ e ∈ E, B (unravel (S.shape.eraseIdx v) e.1.1) ≠ B (unravel (S.shape.eraseIdx v) e.1.2) →
      atSea (S.shape.eraseIdx v) (castAt S T pr v) e = false ∧ atSea (S.shape.eraseIdx v) (castAt S' T' pr' v) e = false)
    {pc : PinCast} {m0 : List ℕ} (hpc : processPinCast coord pc = .ok (m0.map fun i : ℕ => (i : ℤ))) (hv0 : Valid (S.shape.eraseIdx v) m0) (hm0 : B m0 = true)
    (hsea : Few (castAt S T pr v m0) = false)
    (hcast : ∀ m, Valid (S.shape.eraseIdx v) m → B m = true → castAt S' T' pr' v m = castAt S T pr v m)
    (hpml : AgreePml (S.shape.eraseIdx v) B o.pml pml') {p0 p0' : PArgInit F}
    (hp0 : SameStart (S.shape.eraseIdx v) B o.kind (fun m => castAt S' T' pr' v m) p0 p0')
    {hs : List ℕ} {out : List ℕ → F × F × F} {st : State F} (h : omegaSurf o dims coord S T P (gridL E) pc p0 = .ok (hs, out, st)) :
    ∃ out' st', omegaSurf { o with pml := pml' } dims coord S' T' P' (gridL E) pc p0' = .ok (hs, out', st') ∧ st'.last = st.last ∧
      ∀ m, Valid hs m → B m = true → out' m = out m := by
  obtain ⟨w, hw⟩ : ∃ w, w = S.shape.eraseIdx v := ⟨_, rfl⟩
  obtain ⟨E0, hE0⟩ : ∃ E0, E0 = E.filter (atSea w (castAt S T pr v)) := ⟨_, rfl⟩
  obtain ⟨E1, hE1⟩ : ∃ E1, E1 = E.filter (atSea w (castAt S' T' pr' v)) := ⟨_, rfl⟩
  have hwZ : (onlyOn B S v).shape.eraseIdx v = w := hw.symm
  have hw' : S'.shape.eraseIdx v = w := by rw [hsh, hw]
  rw [← hw] at hE hfuel hB hv0 hcast hpml hp0
  have r0 : ∀ e ∈ E0, e.1.1 < w.prod ∧ e.1.2 < w.prod := by
    intro e he; rw [hE0] at he; exact hE e (List.mem_filter.1 he).1
  have r1 : ∀ e ∈ E1, e.1.1 < w.prod ∧ e.1.2 < w.prod := by
    intro e he; rw [hE1] at he; exact hE e (List.mem_filter.1 he).1
  have rg : ∀ {X : List ((ℕ × ℕ) × F × F)}, (∀ e ∈ X, e.1.1 < w.prod ∧ e.1.2 < w.prod) → ∀ e ∈ (gridL X).edges, e.1 < w.prod ∧ e.2 < w.prod := by
    intro X hh e he
    obtain ⟨y, hy, rfl⟩ := List.mem_map.1 he
    exact hh y hy
  have b0 : ∀ e ∈ (gridL E0).edges, B (unravel w e.1) = B (unravel w e.2) := by
    intro e he
    obtain ⟨y, hy, rfl⟩ := List.mem_map.1 he
    rw [hE0] at hy
    obtain ⟨y1, y2⟩ := List.mem_filter.1 hy
    by_contra hc
    rw [(hB y y1 hc).1] at y2
    cases y2
  have b1 : ∀ e ∈ (gridL E1).edges, B (unravel w e.1) = B (unravel w e.2) := by
    intro e he
    obtain ⟨y, hy, rfl⟩ := List.mem_map.1 he
    rw [hE1] at hy
    obtain ⟨y1, y2⟩ := List.mem_filter.1 hy
    by_contra hc
    rw [(hB y y1 hc).2] at y2
    cases y2
  -- the first ocean without links to land
  have s1 : omegaSurf o dims coord S T P (gridL E0) pc p0 = omegaSurf o dims coord S T P (gridL E) pc p0 := by
    refine omegaSurf_land_links L hN A (by rw [← hw]; exact hE) (by rw [← hw]; exact r0) (by rw [← hw]; exact hfuel) hpc hsea ?_ p0
    rw [← hw, hE0, List.filter_filter]
    simp only [Bool.and_self]
  rw [← s1] at h
  -- only `B` is kept
  obtain ⟨out1, st1, h1, l1, q1⟩ := omegaSurf_local L (pml' := pml') (p0' := p0') A (args_onlyOn A B) rfl (g := gridL E0) (by rw [← hw]; exact rg r0)
    (by rw [← hw]; exact hfuel) (B := B) (by rw [← hw]; exact b0) hpc hm0 (fun m _ hb => castAt_onlyOn hb) (by rw [← hw]; exact hpml)
    (by rw [← hw]; exact sameStart_only L hcast hp0) h
  -- the links at sea of the second ocean
  have s2 : omegaSurf { o with pml := pml' } dims coord (onlyOn B S v) T P (gridL E1) pc p0' =
      omegaSurf { o with pml := pml' } dims coord (onlyOn B S v) T P (gridL E0) pc p0' := by
    refine omegaSurf_land_links L hN (o := { o with pml := pml' }) (args_onlyOn A B) (by rw [hwZ]; exact r0) (by rw [hwZ]; exact r1) (by rw [hwZ]; exact hfuel) hpc
      (by rw [castAt_onlyOn hm0]; exact hsea) ?_ p0'
    rw [hwZ, hE0, hE1, List.filter_filter, List.filter_filter]
    apply List.filter_congr
    intro e he
    cases hz : atSea w (castAt (onlyOn B S v) T pr v) e with
    | false => rfl
    | true =>
      unfold atSea at hz
      simp only [Bool.and_eq_true, Bool.not_eq_true'] at hz
      have inB : ∀ m, Few (castAt (onlyOn B S v) T pr v m) = false → B m = true := by
        intro m hm
        cases hb : B m
        · rw [few_onlyOn L hb] at hm; cases hm
        · rfl
      unfold atSea
      rw [hcast _ (valid_unravel (hE e he).1).1 (inB _ hz.1), hcast _ (valid_unravel (hE e he).2).1 (inB _ hz.2)]
  rw [← s2] at h1
  -- the second ocean
  obtain ⟨out2, st2, h2, l2, q2⟩ := omegaSurf_local L (o := { o with pml := pml' }) (pml' := pml') (p0' := p0') (args_onlyOn A B) A' (by rw [hsh]; rfl)
    (g := gridL E1) (by rw [hwZ]; exact rg r1) (by rw [hwZ]; exact hfuel) (B := B) (by rw [hwZ]; exact b1) hpc hm0
    (fun m hm hb => by rw [hwZ] at hm; rw [castAt_onlyOn hb]; exact hcast m hm hb) (by rw [hwZ]; exact agreePml_self hpml)
    (by rw [hwZ]; exact sameStart_self hp0) h1
  have s3 : omegaSurf { o with pml := pml' } dims coord S' T' P' (gridL E1) pc p0' = omegaSurf { o with pml := pml' } dims coord S' T' P' (gridL E) pc p0' := by
    refine omegaSurf_land_links L hN (o := { o with pml := pml' }) A' (by rw [hw']; exact hE) (by rw [hw']; exact r1) (by rw [hw']; exact hfuel) hpc
      (by rw [hcast m0 hv0 hm0]; exact hsea) ?_ p0'
    rw [hw', hE1, List.filter_filter]
    simp only [Bool.and_self]
  refine ⟨out2, st2, ?_, by rw [l2, l1], fun m hm hb => by rw [q2 m hm hb, q1 m hm hb]⟩
  rw [← s3]
  exact h2

/-- **C193, the casts on land.** What the casts on land hold does not matter: salinities, temperatures, pressures, mixed layer and initial pressure there may be changed
to others that make land. -/
theorem omegaSurf_land_data (L : NanLaws F) (hN : isNaN (nan : F) = true) {o : Opts F} {pml' : Option (Nd F)} {dims : Option (List String)}
    {coord : String → Option (List ℚ)} {S T S' T' : Nd F} {P P' : PArg F} {v : ℕ} {pr pr' : List ℕ → ℕ → F} (A : Args o.vertDim dims S T P v pr)
    (A' : Args o.vertDim dims S' T' P' v pr') (hsh : S'.shape = S.shape) {E : List ((ℕ × ℕ) × F × F)}
    (hE : ∀ e ∈ E, e.1.1 < (S.shape.eraseIdx v).prod ∧ e.1.2 < (S.shape.eraseIdx v).prod) (hfuel : (S.shape.eraseIdx v).prod < o.fuel)
    {pc : PinCast} {m0 : List ℕ} (hpc : processPinCast coord pc = .ok (m0.map fun i : ℕ => (i : ℤ))) (hv0 : Valid (S.shape.eraseIdx v) m0)
    (hsea : Few (castAt S T pr v m0) = false)
    (hcast : ∀ m, Valid (S.shape.eraseIdx v) m → Few (castAt S T pr v m) = false → castAt S' T' pr' v m = castAt S T pr v m)
    (hland : ∀ m, Valid (S.shape.eraseIdx v) m → Few (castAt S T pr v m) = true → Few (castAt S' T' pr' v m) = true)
    (hpml : AgreePml (S.shape.eraseIdx v) (fun m => !Few (castAt S T pr v m)) o.pml pml') {p0 p0' : PArgInit F}
    (hp0 : SameStart (S.shape.eraseIdx v) (fun m => !Few (castAt S T pr v m)) o.kind (fun m => castAt S' T' pr' v m) p0 p0')
    {hs : List ℕ} {out : List ℕ → F × F × F} {st : State F} (h : omegaSurf o dims coord S T P (gridL E) pc p0 = .ok (hs, out, st)) :
    ∃ out' st', omegaSurf { o with pml := pml' } dims coord S' T' P' (gridL E) pc p0' = .ok (hs, out', st') ∧ st'.last = st.last ∧
      ∀ m, Valid hs m → Few (castAt S T pr v m) = false → out' m = out m := by
  obtain ⟨out', st', a, b, c⟩ := omegaSurf_behind_land L hN A A' hsh hE hfuel (B := fun m => !Few (castAt S T pr v m))
    (by
      intro e he hne
      have h1 : Few (castAt S T pr v (unravel (S.shape.eraseIdx v) e.1.1)) = true ∨ Few (castAt S T pr v (unravel (S.shape.eraseIdx v) e.1.2)) = true := by
        by_contra hc
        rw [not_or, Bool.not_eq_true, Bool.not_eq_true] at hc
        exact hne (by rw [hc.1, hc.2])
      unfold atSea
      rcases h1 with h1 | h1
      · rw [h1, hland _ (valid_unravel (hE e he).1).1 h1]; exact ⟨rfl, rfl⟩
      · rw [h1, hland _ (valid_unravel (hE e he).2).1 h1]; exact ⟨Bool.and_false _, Bool.and_false _⟩)
    hpc hv0 (by show (!Few _) = true; rw [hsea]; rfl) hsea (fun m hm hb => hcast m hm (by simpa using hb)) hpml hp0 h
  exact ⟨out', st', a, b, fun m hm hf => c m hm (by show (!Few _) = true; rw [hf]; rfl)⟩

/-! ## Example: a row of four casts, the third of them land -/

/-- The last cast has salinities raised by `x`; the cast on land has one datum, `y`. -/
def damS (x y : ℕ) : Nd (Fl ℚ) := ⟨[4, 4, 1], fun i =>
  if i.getD 1 0 = 2 then (if i.getD 0 0 = 1 then .fin y else .nan)
  else if i.getD 1 0 = 3 then .fin (i.getD 0 0 + x : ℕ) else .fin (i.getD 0 0 + i.getD 1 0 : ℕ)⟩
def damT : Nd (Fl ℚ) := ⟨[4, 4, 1], fun _ => .fin 0⟩
def damE : List ((ℕ × ℕ) × Fl ℚ × Fl ℚ) := [((1, 0), .fin 1, .fin 1), ((2, 1), .fin 1, .fin 1), ((3, 2), .fin 1, .fin 1)]

theorem dam_args (x y : ℕ) : Args (.int 0) none (damS x y) damT demoP 0 (fun _ k => .fin k) :=
  ⟨rfl, by show 0 < 3; decide, rfl, rfl, fun _ _ => rfl⟩

theorem dam_run : (match omegaSurf (demoO "poisson") none (fun _ => none) (damS 0 0) damT demoP (gridL damE) (.tuple [0, 0]) (.scalar (.fin 2)) with
      | .ok r => some (r.1, (r.2.1 [0, 0]).2.2, (r.2.1 [1, 0]).2.2) | _ => none) = some ([4, 1], .fin 2, .fin 1) := by
  decide +kernel

theorem dam_few (x y : ℕ) : Few (castAt (damS x y) damT (fun _ k => .fin k) 0 [2, 0]) = true := by
  show Few (⟨⟨4, fun k => if k = 1 then Fl.fin (y : ℚ) else Fl.nan⟩, ⟨4, fun _ => .fin 0⟩, ⟨4, fun k => .fin k⟩⟩ : Cast (Fl ℚ)) = true
  rfl

/-- Whatever the lake behind the third cast, and whatever the one datum there, the surface on the first two casts is the same. -/
example (x y : ℕ) : ∃ out st, omegaSurf (demoO "poisson") none (fun _ => none) (damS x y) damT demoP (gridL damE) (.tuple [0, 0]) (.scalar (.fin 2)) =
      .ok ([4, 1], out, st) ∧ (out [0, 0]).2.2 = .fin 2 ∧ (out [1, 0]).2.2 = .fin 1 := by
  have h := dam_run
  have hrun : ∀ r, omegaSurf (demoO "poisson") none (fun _ => none) (damS 0 0) damT demoP (gridL damE) (.tuple [0, 0]) (.scalar (.fin 2)) = r →
      ∃ out st, r = .ok ([4, 1], out, st) ∧ (out [0, 0]).2.2 = .fin 2 ∧ (out [1, 0]).2.2 = .fin 1 := by
    intro r hr
    rw [hr] at h
    match r, h with
    | .ok (a, out, st), h =>
      simp only [Option.some.injEq, Prod.mk.injEq] at h
      exact ⟨out, st, by rw [h.1], h.2.1, h.2.2⟩
  obtain ⟨out, st, hr, h0, h1⟩ := hrun _ rfl
  have hv : ∀ i < 4, Valid [4, 1] [i, 0] := fun i hi => .cons hi (.cons (by decide) .nil)
  obtain ⟨out', st', e1, -, e2⟩ := omegaSurf_behind_land nanLaws_fl rfl (o := demoO "poisson") (pml' := none) (p0 := .scalar (.fin 2)) (p0' := .scalar (.fin 2)) (coord := fun _ => none) (dam_args 0 0) (dam_args x y) rfl
    (E := damE) (by show ∀ e ∈ damE, e.1.1 < 4 ∧ e.1.2 < 4; decide +kernel) (by show 4 < 200; decide) (B := fun m => decide (m.getD 0 0 < 2))
    (by
      intro e he hne
      simp only [damE, List.mem_cons, List.not_mem_nil, or_false] at he
      rcases he with rfl | rfl | rfl
      · exact absurd rfl hne
      · have q : ∀ x y, atSea [4, 1] (castAt (damS x y) damT (fun _ k => .fin k) 0) ((2, 1), .fin 1, .fin 1) = false := by
          intro x y
          unfold atSea
          show (!Few (castAt (damS x y) damT (fun _ k => .fin k) 0 [2, 0]) && _) = false
          rw [dam_few]; rfl
        exact ⟨q 0 0, q x y⟩
      · exact absurd rfl hne)
    (pc := .tuple [0, 0]) (m0 := [0, 0]) rfl (hv 0 (by decide)) rfl (by decide +kernel)
    (by
      intro m hm hB
      have hB : m.getD 0 0 < 2 := of_decide_eq_true hB
      unfold castAt damS
      dsimp only
      cases hm with
      | @cons _ i _ _ hi hm =>
        have hi2 : i < 2 := hB
        have e2 : i ≠ 2 := by omega
        have e3 : i ≠ 3 := by omega
        simp [List.insertIdx, e2, e3])
    trivial rfl hr
  exact ⟨out', st', e1, by rw [e2 _ (hv 0 (by decide)) rfl]; exact h0, by rw [e2 _ (hv 1 (by decide)) rfl]; exact h1⟩

/-- The hypotheses of `omegaSurf_land_data` hold for any datum on land. -/
example (y : ℕ) : ∃ out st, omegaSurf (demoO "poisson") none (fun _ => none) (damS 0 0) damT demoP (gridL damE) (.tuple [0, 0]) (.scalar (.fin 2)) =
      .ok ([4, 1], out, st) ∧
    ∃ out' st', omegaSurf (demoO "poisson") none (fun _ => none) (damS 0 y) damT demoP (gridL damE) (.tuple [0, 0]) (.scalar (.fin 2)) = .ok ([4, 1], out', st') ∧
      out' [1, 0] = out [1, 0] := by
  have h := dam_run
  have hrun : ∀ r, omegaSurf (demoO "poisson") none (fun _ => none) (damS 0 0) damT demoP (gridL damE) (.tuple [0, 0]) (.scalar (.fin 2)) = r →
      ∃ out st, r = .ok ([4, 1], out, st) := by
    intro r hr
    rw [hr] at h
    match r, h with
    | .ok (a, out, st), h =>
      simp only [Option.some.injEq, Prod.mk.injEq] at h
      exact ⟨out, st, by rw [h.1]⟩
  obtain ⟨out, st, hr⟩ := hrun _ rfl
  have hv : ∀ i < 4, Valid [4, 1] [i, 0] := fun i hi => .cons hi (.cons (by decide) .nil)
  have key : ∀ m, Valid [4, 1] m → m = [2, 0] ∨ ((m = [0, 0] ∨ m = [1, 0] ∨ m = [3, 0]) ∧ Few (castAt (damS 0 0) damT (fun _ k => .fin k) 0 m) = false) := by
    intro m hm
    cases hm with
    | @cons _ i _ _ hi hm =>
      cases hm with
      | @cons _ j _ _ hj hm =>
        cases hm
        obtain rfl : j = 0 := by omega
        have : i = 2 ∨ i = 0 ∨ i = 1 ∨ i = 3 := by omega
        rcases this with rfl | rfl | rfl | rfl
        · exact .inl rfl
        · exact .inr ⟨.inl rfl, by decide +kernel⟩
        · exact .inr ⟨.inr (.inl rfl), by decide +kernel⟩
        · exact .inr ⟨.inr (.inr rfl), by decide +kernel⟩
  obtain ⟨out', st', e1, -, e2⟩ := omegaSurf_land_data nanLaws_fl rfl (o := demoO "poisson") (pml' := none) (p0 := .scalar (.fin 2)) (p0' := .scalar (.fin 2)) (coord := fun _ => none) (dam_args 0 0) (dam_args 0 y) rfl
    (E := damE) (by show ∀ e ∈ damE, e.1.1 < 4 ∧ e.1.2 < 4; decide +kernel) (by show 4 < 200; decide)
    (pc := .tuple [0, 0]) (m0 := [0, 0]) rfl (hv 0 (by decide)) (by decide +kernel)
    (by
      intro m hm hf
      rcases key m hm with rfl | ⟨rfl | rfl | rfl, -⟩
      · rw [dam_few] at hf; cases hf
      all_goals rfl)
    (by
      intro m hm hf
      rcases key m hm with rfl | ⟨-, hc⟩
      · exact dam_few 0 y
      · rw [hc] at hf; cases hf)
    trivial rfl hr
  exact ⟨out, st, hr, out', st', e1, e2 _ (hv 1 (by decide)) (by decide +kernel)⟩

end Omega
