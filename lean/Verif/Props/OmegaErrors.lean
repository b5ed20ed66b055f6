import Verif.Props.OmegaApi
import Verif.Props.IsoFront

/-!
# Faulty arguments of `omega_surf` and the isopycnal surfaces (C155)

Which exceptions are raised for faulty arguments, and one fault that is not noticed: an array `p_ml` of another shape.
-/

set_option linter.unusedSectionVars false

namespace Lib
variable {F : Type*} [FloatLike F]

/-- Specification: the indices that `pin_cast` stands for: the given integers, or for a dict the numbers of coordinate values below the given ones. -/
def PinsTo (coord : String → Option (List ℚ)) : PinCast → List ℤ → Prop
  | .int i, l => l = [i]
  | .tuple t, l => l = t
  | .dict d, l => List.Forall₂ (fun x i => ∃ xs, coord x.1 = some xs ∧ i = ((xs.takeWhile fun z => z < x.2).length : ℤ)) d l

theorem pinsTo_iff (coord : String → Option (List ℚ)) (pc : PinCast) (l : List ℤ) : processPinCast coord pc = .ok l ↔ PinsTo coord pc l := by
  cases pc with
  | int i => exact ⟨fun h => (Res.ok.inj h).symm, fun h => by rw [h]; rfl⟩
  | tuple t => exact ⟨fun h => (Res.ok.inj h).symm, fun h => by rw [h]; rfl⟩
  | dict d =>
    unfold processPinCast PinsTo
    dsimp only
    constructor
    · intro h
      split_ifs at h with h1
      · rw [← Res.ok.inj h]
        rw [List.all_eq_true] at h1
        rw [List.forall₂_map_right_iff]
        refine List.forall₂_same.2 fun x hx => ?_
        obtain ⟨xs, hxs⟩ := Option.isSome_iff_exists.1 (h1 x hx)
        exact ⟨xs, hxs, by rw [hxs]; rfl⟩
    · intro h
      rw [if_pos]
      · congr 1
        induction h with
        | nil => rfl
        | cons h _ ih =>
          obtain ⟨xs, h1, h2⟩ := h
          rw [List.map_cons, ih, h2, h1]; rfl
      · rw [List.all_eq_true]
        intro x hx
        induction h with
        | nil => cases hx
        | cons h _ ih =>
          rcases List.mem_cons.1 hx with rfl | hx
          · obtain ⟨xs, h1, -⟩ := h
            rw [h1]; rfl
          · exact ih hx

/-- A `pin_cast` that stands for nothing (a dict with an unknown name) is a `ValueError`. -/
theorem pinsTo_error {coord : String → Option (List ℚ)} {pc : PinCast} (h : ¬ ∃ l, PinsTo coord pc l) : processPinCast coord pc = .valueError := by
  cases pc with
  | int i => exact absurd ⟨_, rfl⟩ h
  | tuple t => exact absurd ⟨_, rfl⟩ h
  | dict d =>
    unfold processPinCast
    dsimp only
    split_ifs with h1
    · exfalso
      apply h
      exact ⟨_, (pinsTo_iff coord (.dict d) _).1 (by unfold processPinCast; dsimp only; rw [if_pos h1])⟩
    · rfl

/-- **C155** Which calls refuse the casts: a name of the vertical dimension that `S` does not have is a `ValueError`, a name for an array without names a `TypeError`,
a profile of pressures whose number of entries is neither that of the levels nor 1 a `ValueError`. -/
theorem processCasts_errors (dims : Option (List String)) (S T : Nd F) (P : PArg F) (d : Dim) :
    (processCasts dims S T P d = .typeError ↔ ∃ s, d = .name s ∧ dims = none) ∧
    (processCasts dims S T P d = .valueError ↔ (∃ s ds, d = .name s ∧ dims = some ds ∧ s ∉ ds) ∨
      ∃ v size p, processVertDim dims S.shape.length d = .ok v ∧ P = .small size p ∧ size ≠ S.shape.getD v 0 ∧ size ≠ 1) ∧
    processCasts dims S T P d ≠ .indexError := by
  unfold processCasts
  have hP : ∀ v, (∃ x, processP S.shape v P = .ok x ∧ ¬ ∃ size p, P = .small size p ∧ size ≠ S.shape.getD v 0 ∧ size ≠ 1) ∨
      (processP S.shape v P = .valueError ∧ ∃ size p, P = .small size p ∧ size ≠ S.shape.getD v 0 ∧ size ≠ 1) := by
    intro v
    cases P with
    | full P => exact Or.inl ⟨_, rfl, by rintro ⟨_, _, h, _⟩; cases h⟩
    | small size p =>
      unfold processP
      by_cases h1 : size = S.shape.getD v 0
      · left; dsimp only; rw [if_pos h1]
        exact ⟨_, rfl, by rintro ⟨_, _, h, h2, -⟩; cases h; exact h2 h1⟩
      · by_cases h2 : size = 1
        · left; dsimp only; rw [if_neg h1, if_pos h2]
          exact ⟨_, rfl, by rintro ⟨_, _, h, _, h3⟩; cases h; exact h3 h2⟩
        · right; dsimp only; rw [if_neg h1, if_neg h2]
          exact ⟨rfl, _, _, rfl, h1, h2⟩
  cases d with
  | name s =>
    cases dims with
    | none => simp [processVertDim]
    | some ds =>
      by_cases hs : s ∈ ds
      · rcases hP (ds.idxOf s % S.shape.length) with ⟨x, h1, h2⟩ | ⟨h1, h2⟩
        · simp only [processVertDim, if_pos hs, h1]
          refine ⟨⟨fun h => by simp at h, by rintro ⟨_, _, h⟩; cases h⟩, ⟨fun h => by simp at h, ?_⟩, by simp⟩
          rintro (⟨s', ds', e1, e2, e3⟩ | ⟨v, size, p, e1, e2⟩)
          · cases e1; cases e2; exact absurd hs e3
          · cases e1; exact absurd ⟨size, p, e2⟩ h2
        · simp only [processVertDim, if_pos hs, h1]
          refine ⟨⟨fun h => by simp at h, by rintro ⟨_, _, h⟩; cases h⟩, ⟨fun _ => Or.inr ?_, fun _ => trivial⟩, by simp⟩
          obtain ⟨size, p, h⟩ := h2
          exact ⟨_, size, p, rfl, h⟩
      · simp only [processVertDim, if_neg hs]
        refine ⟨⟨fun h => by simp at h, by rintro ⟨_, _, h⟩; cases h⟩, ⟨fun _ => Or.inl ⟨s, ds, rfl, rfl, hs⟩, fun _ => trivial⟩, by simp⟩
  | int i =>
    rcases hP (i % (S.shape.length : ℤ)).toNat with ⟨x, h1, h2⟩ | ⟨h1, h2⟩
    · simp only [processVertDim, h1]
      refine ⟨⟨fun h => by simp at h, by rintro ⟨_, h, _⟩; cases h⟩, ⟨fun h => by simp at h, ?_⟩, by simp⟩
      rintro (⟨s', ds', e1, -⟩ | ⟨v, size, p, e1, e2⟩)
      · cases e1
      · cases e1; exact absurd ⟨size, p, e2⟩ h2
    · simp only [processVertDim, h1]
      refine ⟨⟨fun h => by simp at h, by rintro ⟨_, h, _⟩; cases h⟩, ⟨fun _ => Or.inr ?_, fun _ => trivial⟩, by simp⟩
      obtain ⟨size, p, h⟩ := h2
      exact ⟨_, size, p, rfl, h⟩

end Lib

namespace Omega
open FloatLike Lib
variable {F : Type*} [FloatLike F]

/-- Faults of the first arguments are reported before anything else. -/
theorem omegaSurf_casts_errors_partial (o : Opts F) (dims : Option (List String)) (coord : String → Option (List ℚ)) (S T : Nd F) (P : PArg F) (g : GridDict F)
    (pc : PinCast) (p0 : PArgInit F) :
    ((¬ ∃ l, PinsTo coord pc l) → omegaSurf o dims coord S T P g pc p0 = .valueError) ∧
    ((∃ l, PinsTo coord pc l) → (∃ s, o.vertDim = .name s ∧ dims = none) → omegaSurf o dims coord S T P g pc p0 = .typeError) ∧
    ((∃ l, PinsTo coord pc l) → ((∃ s ds, o.vertDim = .name s ∧ dims = some ds ∧ s ∉ ds) ∨
      ∃ v size p, processVertDim dims S.shape.length o.vertDim = .ok v ∧ P = .small size p ∧ size ≠ S.shape.getD v 0 ∧ size ≠ 1) →
      omegaSurf o dims coord S T P g pc p0 = .valueError) := by
  obtain ⟨h1, h2, -⟩ := processCasts_errors dims S T P o.vertDim
  unfold omegaSurf
  refine ⟨fun h => ?_, fun ⟨l, hl⟩ h => ?_, fun ⟨l, hl⟩ h => ?_⟩
  · rw [pinsTo_error h]; rfl
  · rw [(pinsTo_iff _ _ _).2 hl, h1.2 h]; rfl
  · rw [(pinsTo_iff _ _ _).2 hl, h2.2 h]; rfl

theorem oob_of_outside {e : List (ℕ × ℕ)} {N : ℕ} {garbage : ℕ → ℕ} (h : ¬ ∀ x ∈ e, x.1 < N ∧ x.2 < N) : Graph.edgesToCsr e N garbage = .oob := by
  have key : ∀ (e : List (ℕ × ℕ)) (deg : ℕ → ℕ), (¬ ∀ x ∈ e, x.1 < N ∧ x.2 < N) → e.foldlM (fun (deg : ℕ → ℕ) x =>
      if x.1 < N ∧ x.2 < N then
        let deg := Function.update deg x.1 (deg x.1 + 1)
        some (Function.update deg x.2 (deg x.2 + 1))
      else none) deg = none := by
    intro e
    induction e with
    | nil => intro _ h; exact absurd (fun x hx => absurd hx (List.not_mem_nil)) h
    | cons x e ih =>
      intro deg h
      rw [List.foldlM_cons]
      by_cases hx : x.1 < N ∧ x.2 < N
      · rw [if_pos hx]
        exact ih _ fun h' => h fun y hy => by
          rcases List.mem_cons.1 hy with rfl | hy
          · exact hx
          · exact h' y hy
      · rw [if_neg hx]; rfl
  unfold Graph.edgesToCsr Graph.degrees
  rw [key e _ h]

/-- Specification: `pin_cast` stands for one cast of the horizontal grid. -/
def PinOK (coord : String → Option (List ℚ)) (hs : List ℕ) (pc : PinCast) : Prop :=
  ∃ m0 : List ℕ, PinsTo coord pc (m0.map fun i : ℕ => (i : ℤ)) ∧ Valid hs m0

/-- Specification: a formulation that there is. -/
def Known (f : String) : Prop := f.toLower = "poisson" ∨ f.toLower = "gradient"

/-- **C155** With well formed `S`, `T`, `P` and `vert_dim`, the exceptions of the front end of `omega_surf` are raised for these faults, in this order of precedence: `pin_cast` is not
one cast (`ValueError`), `dist` or `distperp` missing (`KeyError`), an edge to a cast that does not exist (out of range access), unknown formulation (`ValueError`), `p_init` an array of another
shape (`ValueError`) or not an array (`TypeError`); and for no other reason: what the iteration raises is none of these. For any arithmetic and any solvers. -/
theorem omegaSurf_errors_partial {o : Opts F} {dims : Option (List String)} {coord : String → Option (List ℚ)} {S T : Nd F} {P : PArg F}
    {v : ℕ} {pr : List ℕ → ℕ → F} (A : Args o.vertDim dims S T P v pr) (hS : 2 ≤ S.shape.length) (g : GridDict F) (pc : PinCast) (p0 : PArgInit F) :
    (omegaSurf o dims coord S T P g pc p0 = .keyError ↔ PinOK coord (S.shape.eraseIdx v) pc ∧ (g.dist = none ∨ g.distperp = none)) ∧
    (omegaSurf o dims coord S T P g pc p0 = .oob ↔ PinOK coord (S.shape.eraseIdx v) pc ∧ ¬ (g.dist = none ∨ g.distperp = none) ∧
      ∃ x ∈ g.edges, (S.shape.eraseIdx v).prod ≤ x.1 ∨ (S.shape.eraseIdx v).prod ≤ x.2) ∧
    (omegaSurf o dims coord S T P g pc p0 = .typeError ↔ PinOK coord (S.shape.eraseIdx v) pc ∧ ¬ (g.dist = none ∨ g.distperp = none) ∧
      (¬ ∃ x ∈ g.edges, (S.shape.eraseIdx v).prod ≤ x.1 ∨ (S.shape.eraseIdx v).prod ≤ x.2) ∧ Known o.formulation ∧ p0 = .other) ∧
    (omegaSurf o dims coord S T P g pc p0 = .valueError ↔ ¬ PinOK coord (S.shape.eraseIdx v) pc ∨ ¬ (g.dist = none ∨ g.distperp = none) ∧
      (¬ ∃ x ∈ g.edges, (S.shape.eraseIdx v).prod ≤ x.1 ∨ (S.shape.eraseIdx v).prod ≤ x.2) ∧
      (¬ Known o.formulation ∨ ∃ p, p0 = .array p ∧ p.shape ≠ S.shape.eraseIdx v)) := by
  have hne : S.shape.eraseIdx v ≠ [] := by
    intro h
    have := congrArg List.length h
    rw [List.length_eraseIdx, if_pos A.lt] at this
    simp at this; omega
  obtain ⟨STP, e⟩ : ∃ STP, processCasts dims S T P o.vertDim = .ok STP := by
    obtain ⟨h1, h2⟩ := processCasts_spec dims S T o.vertDim v A.lt A.dim (by rw [A.shape])
    have hp := A.press
    cases P with
    | full P => obtain ⟨_, _, _, e, _⟩ := h2 P (by rw [hp.1]); exact ⟨_, e⟩
    | small size P => obtain ⟨_, _, _, e, _⟩ := h1 size P hp.1; exact ⟨_, e⟩
  have hhs : STP.1.shape.dropLast = S.shape.eraseIdx v := by rw [(A.casts e).1, List.dropLast_concat]
  generalize S.shape.eraseIdx v = hs at *
  by_cases h1 : PinOK coord hs pc
  swap
  · have : omegaSurf o dims coord S T P g pc p0 = .valueError := by
      unfold omegaSurf
      by_cases hl : ∃ l, PinsTo coord pc l
      · obtain ⟨l, hl⟩ := hl
        rw [(pinsTo_iff _ _ _).2 hl, e]
        simp only [ofLib, FRes.bind, hhs, if_neg hne]
        rw [ravelMultiIndex_error]
        rintro ⟨m, rfl, hm⟩
        exact h1 ⟨m, hl, hm⟩
      · rw [pinsTo_error hl]; rfl
    rw [this]
    simp [h1]
  obtain ⟨m0, hl, hm0⟩ := id h1
  have hgo : omegaSurf o dims coord S T P g pc p0 = (distRatio g).bind fun ratio =>
      (ofGraph (Graph.edgesToCsr g.edges hs.prod o.garbage)).bind fun G =>
      (solverOf o g.edges ratio).bind fun solver =>
      (checkInit hs p0).bind fun p0 =>
      (ofIter (omega (cfgOf o hs STP.1 STP.2.1 STP.2.2 G (ravel hs m0) solver) p0)).bind fun s =>
      .ok (hs, reshapeGet hs s.stp, s) := by
    unfold omegaSurf
    rw [(pinsTo_iff _ _ _).2 hl, e]
    simp only [ofLib, FRes.bind, hhs, if_neg hne]
    rw [ravelMultiIndex_ok.2 ⟨m0, rfl, hm0, rfl⟩]
  rw [hgo]
  by_cases h2 : g.dist = none ∨ g.distperp = none
  · have : distRatio g = .keyError := by
      unfold distRatio
      rcases h2 with h | h <;> rw [h]
      cases g.distperp <;> rfl
    rw [this]
    simp only [FRes.bind]
    simp [h1, h2]
  obtain ⟨ratio, hratio⟩ : ∃ ratio, distRatio g = .ok ratio := by
    unfold distRatio
    rw [not_or] at h2
    obtain ⟨d, hd⟩ := Option.ne_none_iff_exists'.1 h2.1
    obtain ⟨q, hq⟩ := Option.ne_none_iff_exists'.1 h2.2
    rw [hd, hq]; exact ⟨_, rfl⟩
  rw [hratio]
  simp only [FRes.bind]
  by_cases h3 : ∃ x ∈ g.edges, hs.prod ≤ x.1 ∨ hs.prod ≤ x.2
  · rw [oob_of_outside (by
      obtain ⟨x, hx, h⟩ := h3
      intro h'
      have := h' x hx
      omega)]
    simp only [ofGraph]
    simp [h1, h2, h3]
  obtain ⟨G, hG, -⟩ := Graph.edgesToCsr_spec g.edges hs.prod o.garbage (by
    intro x hx
    by_contra h
    exact h3 ⟨x, hx, by omega⟩)
  rw [hG]
  simp only [ofGraph]
  by_cases h4 : Known o.formulation
  swap
  · have : solverOf o g.edges ratio = .valueError := by
      unfold solverOf
      unfold Known at h4
      rw [not_or] at h4
      rw [if_neg h4.1, if_neg h4.2]
    rw [this]
    simp [h1, h2, h3, h4]
  obtain ⟨solver, hs'⟩ : ∃ solver, solverOf o g.edges ratio = .ok solver := by
    unfold solverOf
    rcases h4 with h | h
    · rw [if_pos h]; exact ⟨_, rfl⟩
    · rw [if_neg (by rw [h]; decide), if_pos h]; exact ⟨_, rfl⟩
  rw [hs']
  simp only
  cases p0 with
  | other => simp [checkInit, h1, h2, h3, h4]
  | scalar p =>
    simp only [checkInit]
    cases omega (cfgOf o hs STP.1 STP.2.1 STP.2.2 G (ravel hs m0) solver) (.scalar p) <;> simp [ofIter, h1, h2, h3, h4]
  | array p =>
    by_cases h5 : p.shape = hs
    · simp only [checkInit, if_pos h5]
      cases omega (cfgOf o hs STP.1 STP.2.1 STP.2.2 G (ravel hs m0) solver) (.array (flatten p)) <;> simp [ofIter, h1, h2, h3, h4, h5]
    · simp [checkInit, h1, h2, h3, h4, h5]

theorem ravel_unravel {s : List ℕ} (h0 : 0 ∉ s) (n : ℕ) (h : s ≠ [] ∨ n = 0) : ravel s (unravel s n) = n := by
  induction s generalizing n with
  | nil => rcases h with h | h; exact absurd rfl h; rw [h]; rfl
  | cons k s ih =>
    have h0' : 0 ∉ s := fun h => h0 (List.mem_cons_of_mem _ h)
    have hp : 0 < s.prod := List.prod_pos fun a ha => Nat.pos_of_ne_zero fun h => h0' (h ▸ ha)
    rw [unravel, ravel, ih h0']
    · exact Nat.div_add_mod' n s.prod
    · by_cases hs : s = []
      · right; subst hs; exact Nat.mod_one n
      · exact Or.inl hs

/-- **C155 is false** for `p_ml`: an array of another shape is not refused but read in C order, so that it means the same as an array of the right shape with its entries at other
casts, -/
theorem omegaSurf_pml_shape_false {o : Opts F} {dims : Option (List String)} {coord : String → Option (List ℚ)} {S T : Nd F} {P : PArg F}
    {v : ℕ} {pr : List ℕ → ℕ → F} (A : Args o.vertDim dims S T P v pr) (hS : 2 ≤ S.shape.length) (h0 : 0 ∉ S.shape) (g : GridDict F) (pc : PinCast) (p0 : PArgInit F) (x : Nd F) :
    omegaSurf { o with pml := some x } dims coord S T P g pc p0 = omegaSurf { o with pml := some ⟨S.shape.eraseIdx v, fun m =>
      x.get (unravel x.shape (ravel (S.shape.eraseIdx v) m))⟩ } dims coord S T P g pc p0 := by
  have hne : S.shape.eraseIdx v ≠ [] := by
    intro h
    have := congrArg List.length h
    rw [List.length_eraseIdx, if_pos A.lt] at this
    simp at this; omega
  have h0' : 0 ∉ S.shape.eraseIdx v := fun h => h0 (List.mem_of_mem_eraseIdx h)
  have hf : flatten (⟨S.shape.eraseIdx v, fun m => x.get (unravel x.shape (ravel (S.shape.eraseIdx v) m))⟩ : Nd F) = flatten x := by
    funext n
    show x.get (unravel x.shape (ravel (S.shape.eraseIdx v) (unravel (S.shape.eraseIdx v) n))) = _
    rw [ravel_unravel h0' n (Or.inl hne)]
    rfl
  have hc : ∀ hs S' T' P' G pin solver, cfgOf { o with pml := some x } hs S' T' P' G pin solver =
      cfgOf { o with pml := some ⟨S.shape.eraseIdx v, fun m => x.get (unravel x.shape (ravel (S.shape.eraseIdx v) m))⟩ } hs S' T' P' G pin solver := by
    intro hs S' T' P' G pin solver
    unfold cfgOf
    dsimp only
    rw [hf]
  unfold omegaSurf
  dsimp only
  simp only [hc]
  rfl

/-- for instance a transposed array with 3 rows and 2 columns for casts in 2 rows and 3 columns: its entry `[1, 0]` is used at the cast `[0, 2]`, where `[2, 0]` is meant. -/
theorem pml_transposed_false : unravel [3, 2] (ravel [2, 3] [0, 2]) = [1, 0] ∧ unravel [2, 3] (ravel [2, 3] [0, 2]) = [0, 2] := by decide

/-! ## Examples -/

example (f : String) (x : PArgInit (Fl ℚ)) : omegaSurf (demoO f) none (fun _ => none) demoS demoT demoP ⟨[(0, 1)], none, none⟩ (.tuple [0, 0]) x = .keyError :=
  (omegaSurf_errors_partial (o := demoO f) demo_args (by decide) _ _ _).1.2 ⟨⟨[0, 0], rfl, by unfold Valid; simp [demoS]⟩, Or.inl rfl⟩

example (f : String) (x : PArgInit (Fl ℚ)) : omegaSurf (demoO f) none (fun _ => none) demoS demoT demoP ⟨[(0, 1)], none, none⟩ (.dict [("lat", 3)]) x = .valueError :=
  (omegaSurf_casts_errors_partial (demoO f) none (fun _ => none) demoS demoT demoP _ _ _).1 (by
    rintro ⟨l, h⟩
    cases h with
    | cons h _ => obtain ⟨_, h, _⟩ := h; cases h)

end Omega

namespace Isopycnal
open FloatLike Lib
variable {F : Type*} [FloatLike F]

/-- **C155** The same for `potential_surf` and `anomaly_surf`: a dict `pin_cast` with an unknown name, an unknown name of the vertical dimension, a profile of pressures of the wrong length are
`ValueError`s; a name of the vertical dimension for arrays without names is a `TypeError`; and diagnostics without the edges of a grid are a `ValueError`. -/
theorem isoSurf_errors_partial (fuel : ℕ) (tol : F) (kind : PPKind) (eos : F → F → F → F) (ty : Ans) (d : Dim) (diags edges : Bool)
    (dims : Option (List String)) (coord : String → Option (List ℚ)) (S T : Nd F) (P : PArg F) (ref : RefArg F) (isoval : Option F) (pc : PinCast) (pinP : PinP F) :
    ((¬ ∃ l, PinsTo coord pc l) → isoSurf fuel tol kind eos ty d diags edges dims coord S T P ref isoval (.cast pc) pinP = .valueError) ∧
    ((∃ l, PinsTo coord pc l) → (∃ s, d = .name s ∧ dims = none) →
      isoSurf fuel tol kind eos ty d diags edges dims coord S T P ref isoval (.cast pc) pinP = .typeError) ∧
    ((∃ l, PinsTo coord pc l) → ((∃ s ds, d = .name s ∧ dims = some ds ∧ s ∉ ds) ∨
      ∃ v size p, processVertDim dims S.shape.length d = .ok v ∧ P = .small size p ∧ size ≠ S.shape.getD v 0 ∧ size ≠ 1) →
      isoSurf fuel tol kind eos ty d diags edges dims coord S T P ref isoval (.cast pc) pinP = .valueError) ∧
    (∀ v pr, Args d dims S T P v pr → (∃ l, PinsTo coord pc l) → diags = true → edges = false →
      isoSurf fuel tol kind eos ty d diags edges dims coord S T P ref isoval (.cast pc) pinP = .valueError) := by
  obtain ⟨h1, h2, -⟩ := processCasts_errors dims S T P d
  unfold isoSurf select
  refine ⟨fun h => ?_, fun ⟨l, hl⟩ h => ?_, fun ⟨l, hl⟩ h => ?_, fun v pr A ⟨l, hl⟩ hd he => ?_⟩
  · simp only [pinsTo_error h]; rfl
  · simp only [(pinsTo_iff _ _ _).2 hl, h1.2 h]; rfl
  · simp only [(pinsTo_iff _ _ _).2 hl, h2.2 h]; rfl
  · obtain ⟨STP, e⟩ : ∃ STP, processCasts dims S T P d = .ok STP := by
      obtain ⟨k1, k2⟩ := processCasts_spec dims S T d v A.lt A.dim (by rw [A.shape])
      have hp := A.press
      cases P with
      | full P => obtain ⟨_, _, _, e, _⟩ := k2 P (by rw [hp.1]); exact ⟨_, e⟩
      | small size P => obtain ⟨_, _, _, e, _⟩ := k1 size P hp.1; exact ⟨_, e⟩
    simp only [(pinsTo_iff _ _ _).2 hl, e, hd, he]; rfl

example (x : PinP (Fl ℚ)) : isoSurf 10 (.fin 1) .linear (fun s _ _ => s) .potential (.name "z") false false none (fun _ => none) Omega.demoS Omega.demoT Omega.demoP .none none
    (.cast (.tuple [0, 0])) x = .typeError :=
  (isoSurf_errors_partial 10 (.fin 1) .linear (fun s _ _ => s) .potential (.name "z") false false none (fun _ => none) Omega.demoS Omega.demoT Omega.demoP .none none (.tuple [0, 0]) x).2.1 ⟨_, rfl⟩
    ⟨_, rfl, rfl⟩

end Isopycnal
