import Verif.Model.Isopycnal
import Verif.Props.VertSolve

/-! # Potential density and anomaly surfaces: choice of reference and isovalue, pinning (C47, C48, C75, C76) -/

namespace Isopycnal
open FloatLike Fzero Interp Traj VertSolve

set_option linter.unusedSectionVars false

/-! ## C47 -/

section generic
variable {F : Type*} [FloatLike F]

/-- Specification: `ref` has the documented type for the kind of surface. -/
def RightType (ty : Ans) (ref : RefArg F) : Prop :=
  (ty = .potential ∧ ∃ r, ref = .float r) ∨ (ty = .anomaly ∧ ∃ a b, ref = .pair a b)

/-- Specification: `ref` is a full reference: a pressure, or salinity and temperature. -/
def Complete (ty : Ans) (ref : RefArg F) : Prop :=
  (ty = .potential ∧ ∃ r, ref = .float r) ∨ (ty = .anomaly ∧ ∃ a b, ref = .pair (some a) (some b))

/-- Specification: `n` is a valid Python index for `N` casts. -/
def ValidIdx (N : ℕ) (n : ℤ) : Prop := -(N : ℤ) ≤ n ∧ n < N

theorem npIdx_valid (N : ℕ) (n : ℤ) : (Lib.npIdx N n).isSome = true ↔ ValidIdx N n := by
  unfold Lib.npIdx ValidIdx
  split_ifs <;> simp <;> omega

theorem npIdx_lt {N m : ℕ} {n : ℤ} (h : Lib.npIdx N n = some m) : m < N ∧ ((m : ℤ) = n ∨ (m : ℤ) = n + N) := by
  unfold Lib.npIdx at h
  split_ifs at h <;> simp at h <;> omega

/-- **C47.** The check accepts exactly the combinations: `ref` of the right type or absent; indices valid; `pin_p` a float or
absent; and `ref` with `isoval`, or both pin options. -/
theorem check_iff (ty : Ans) (ref : RefArg F) (isoval : Option F) (pinCast : Option ℤ) (pinP : PinP F) (N : ℕ) :
    checkRef ty ref isoval pinCast pinP N = .ok () ↔
      (ref = .none ∨ RightType ty ref) ∧ (∀ n, pinCast = some n → ValidIdx N n) ∧ pinP ≠ .other ∧
      ((ref ≠ .none ∧ isoval ≠ none) ∨ (pinCast ≠ none ∧ pinP ≠ .none)) := by
  have hv : ∀ n, Lib.npIdx N n = none ↔ ¬ ValidIdx N n := by
    intro n; rw [← npIdx_valid]; cases Lib.npIdx N n <;> simp
  unfold checkRef RightType
  cases ref <;> cases ty <;> cases isoval <;> cases pinCast <;> cases pinP <;>
    simp [hv] <;> split_ifs <;> simp

/-- **C47.** The check raises nothing but `TypeError` and `ValueError`, the latter only for a bad index. -/
theorem check_errors (ty : Ans) (ref : RefArg F) (isoval : Option F) (pinCast : Option ℤ) (pinP : PinP F) (N : ℕ) :
    checkRef ty ref isoval pinCast pinP N = .ok () ∨ checkRef ty ref isoval pinCast pinP N = .typeError ∨
    (checkRef ty ref isoval pinCast pinP N = .valueError ∧ ∃ n, pinCast = some n ∧ ¬ ValidIdx N n) := by
  have hv : ∀ n, (Lib.npIdx N n).isNone = true ↔ ¬ ValidIdx N n := by
    intro n; rw [← npIdx_valid]; cases Lib.npIdx N n <;> simp
  unfold checkRef
  dsimp only
  split_ifs with h1 h2 h3
  · exact Or.inr (Or.inl rfl)
  · exact Or.inr (Or.inl rfl)
  · right; right
    cases pinCast with
    | none => simp at h3
    | some n => exact ⟨rfl, n, rfl, (hv n).1 h3⟩
  · cases pinP
    · exact Or.inl rfl
    · exact Or.inl rfl
    · exact Or.inr (Or.inl rfl)

theorem bind_ok {A B : Type*} {r : Res A} {k : A → Res B} {b : B} (h : r.bind k = .ok b) : ∃ a, r = .ok a ∧ k a = .ok b := by
  cases r <;> first | exact ⟨_, rfl, h⟩ | cases h

theorem ofOutcome_ok {A : Type*} {o : Outcome A} {a : A} (h : ofOutcome o = .ok a) : o = .ret a := by
  cases o <;> first | (cases h; rfl) | cases h

theorem pinST_cases (kind : PPKind) (c : Cast F) (x : F) : (∃ st, pinST kind c x = .ok st) ∨ pinST kind c x = .noReturn := by
  unfold pinST
  dsimp only
  split
  · exact Or.inl ⟨_, rfl⟩
  · exact Or.inr rfl

theorem solve_cases (fuel : ℕ) (tol : F) (kind : PPKind) (eos : F → F → F → F) (ty : Ans) (ref : RefArg F) (v : F)
    (casts : ℕ → Cast F) (N : ℕ) (h : Complete ty ref) :
    (∃ r, solve fuel tol kind eos ty ref v casts N = .ok r) ∨ solve fuel tol kind eos ty ref v casts N = .noReturn := by
  have ho : ∀ o : Outcome (ℕ → F × F × F), (∃ r, ofOutcome o = .ok r) ∨ ofOutcome o = .noReturn := by
    intro o; cases o <;> first | exact Or.inl ⟨_, rfl⟩ | exact Or.inr rfl
  rcases h with ⟨rfl, r, rfl⟩ | ⟨rfl, a, b, rfl⟩
  · exact ho _
  · exact ho _

/-- what `_choose_ref_isoval` makes of `ref` is a full reference -/
theorem choose_complete {kind : PPKind} {eos : F → F → F → F} {ty : Ans} {ref : RefArg F} {isoval : Option F}
    {pin : Option (Cast F × F)} {r : RefArg F × F} (ht : ref = .none ∨ RightType ty ref)
    (hi : isoval = none ∨ Complete ty ref) (h : choose kind eos ty ref isoval pin = .ok r) : Complete ty r.1 := by
  unfold choose at h
  cases isoval with
  | some v =>
    cases h
    rcases hi with hi | hi
    · cases hi
    · exact hi
  | none =>
    cases pin with
    | none => cases h
    | some cp =>
      dsimp only at h
      obtain ⟨st, _, h⟩ := bind_ok h
      unfold Complete
      cases ty
      · left
        cases ref <;> simp at h
        · cases h; exact ⟨rfl, _, rfl⟩
        · cases h; exact ⟨rfl, _, rfl⟩
      · right
        rcases ref with _ | _ | ⟨_ | a, _ | b⟩ | _ <;> simp at h <;> cases h <;> exact ⟨rfl, _, _, rfl⟩

theorem choose_cases {kind : PPKind} {eos : F → F → F → F} {ty : Ans} {ref : RefArg F} {isoval : Option F}
    {pin : Option (Cast F × F)} (ht : ref = .none ∨ RightType ty ref) (hp : isoval ≠ none ∨ pin ≠ none) :
    (∃ r, choose kind eos ty ref isoval pin = .ok r) ∨ choose kind eos ty ref isoval pin = .noReturn := by
  unfold choose
  cases isoval with
  | some v => exact Or.inl ⟨_, rfl⟩
  | none =>
    cases pin with
    | none => simp at hp
    | some cp =>
      dsimp only
      rcases pinST_cases kind cp.1 cp.2 with ⟨st, h⟩ | h <;> rw [h]
      · left
        unfold RightType at ht
        cases ty
        · cases ref <;> simp at ht <;> exact ⟨_, rfl⟩
        · rcases ref with _ | _ | ⟨_ | a, _ | b⟩ | _ <;> simp at ht <;> exact ⟨_, rfl⟩
      · exact Or.inr rfl

/-- **C47, partial:** an accepted combination determines the surface, that is, the call does not raise any type or value
error, provided `isoval` is not given without a full `ref`, and `pin_p` not without `pin_cast`.  (`noReturn`: the numeric part
divides by zero or does not finish.)  Missing: these two cases, in which the checks pass and the call fails
(`check_isoval_without_ref_false`, `check_pin_p_without_cast_false`). -/
theorem determined_partial (fuel : ℕ) (tol : F) (kind : PPKind) (eos : F → F → F → F) (ty : Ans) (ref : RefArg F)
    (isoval : Option F) (pinCast : Option ℤ) (pinP : PinP F) (casts : ℕ → Cast F) (N : ℕ)
    (h : checkRef ty ref isoval pinCast pinP N = .ok ()) (hi : isoval = none ∨ Complete ty ref)
    (hp : pinP ≠ .none → pinCast ≠ none) :
    (∃ stp r v, isopycnal fuel tol kind eos ty ref isoval pinCast pinP casts N = .ok (stp, r, v) ∧ Complete ty r) ∨
    isopycnal fuel tol kind eos ty ref isoval pinCast pinP casts N = .noReturn := by
  obtain ⟨h1, h2, h3, h4⟩ := (check_iff ..).1 h
  unfold isopycnal
  rw [h]
  simp only [Res.bind]
  have hn : ∀ m, pinCast = some m → ∃ n, pinCast.bind (Lib.npIdx N) = some n := by
    rintro m rfl
    exact Option.isSome_iff_exists.1 ((npIdx_valid N m).2 (h2 m rfl))
  have hp' : isoval ≠ none ∨ pinOf casts (pinCast.bind (Lib.npIdx N)) pinP ≠ none := by
    rcases h4 with ⟨_, h4⟩ | ⟨h4, h5⟩
    · exact Or.inl h4
    · right
      obtain ⟨m, hm⟩ := Option.ne_none_iff_exists'.1 h4
      obtain ⟨n, hn⟩ := hn m hm
      cases pinP with
      | none => exact absurd rfl h5
      | other => exact absurd rfl h3
      | float x => rw [hn]; simp [pinOf]
  rcases choose_cases (kind := kind) (eos := eos) h1 hp' with ⟨r, hr⟩ | hr <;> rw [hr]
  · have hc := choose_complete h1 hi hr
    dsimp only
    rcases solve_cases fuel tol kind eos ty r.1 r.2 casts N hc with ⟨s, hs⟩ | hs <;> rw [hs]
    · dsimp only
      cases pinP with
      | none => exact Or.inl ⟨_, _, _, rfl, hc⟩
      | other => exact absurd rfl h3
      | float x =>
        dsimp only
        obtain ⟨m, hm⟩ := Option.ne_none_iff_exists'.1 (hp (by simp))
        obtain ⟨n, hn⟩ := hn m hm
        rw [hn]
        dsimp only
        rcases pinST_cases kind (casts n) x with ⟨st, hst⟩ | hst <;> rw [hst]
        · exact Or.inl ⟨_, _, _, rfl, hc⟩
        · exact Or.inr rfl
    · exact Or.inr rfl
  · exact Or.inr rfl

/-- **C47 is violated:** an isovalue with valid pin options but without `ref` (or without a full `ref`) passes the checks, for
every ocean, and then the call fails with a typing error in compiled code. -/
theorem check_isoval_without_ref_false (fuel : ℕ) (tol : F) (kind : PPKind) (eos : F → F → F → F) (ty : Ans) (v x : F) (n : ℤ)
    (casts : ℕ → Cast F) (N : ℕ) (hn : ValidIdx N n) :
    checkRef ty .none (some v) (some n) (.float x) N = .ok () ∧
    isopycnal fuel tol kind eos ty .none (some v) (some n) (.float x) casts N = .typingError := by
  have h : checkRef ty .none (some v) (some n) (.float x) N = .ok () := by
    rw [check_iff]
    exact ⟨Or.inl rfl, fun m hm => by cases hm; exact hn, by simp, Or.inr ⟨by simp, by simp⟩⟩
  refine ⟨h, ?_⟩
  unfold isopycnal
  rw [h]
  cases ty <;> rfl

/-- **C47 is violated:** `pin_p` without `pin_cast` passes the checks when `ref` and `isoval` are given, and then the call
fails (or does not return). -/
theorem check_pin_p_without_cast_false (fuel : ℕ) (tol : F) (kind : PPKind) (eos : F → F → F → F) (r v x : F)
    (casts : ℕ → Cast F) (N : ℕ) :
    checkRef .potential (.float r) (some v) none (.float x) N = .ok () ∧
    ∀ out, isopycnal fuel tol kind eos .potential (.float r) (some v) none (.float x) casts N ≠ .ok out := by
  have h : checkRef .potential (.float r) (some v) none (.float x) N = .ok () := by
    rw [check_iff]
    exact ⟨Or.inr (Or.inl ⟨rfl, _, rfl⟩), fun m hm => (by cases hm), by simp, Or.inl ⟨by simp, by simp⟩⟩
  refine ⟨h, fun out ho => ?_⟩
  unfold isopycnal at ho
  rw [h] at ho
  obtain ⟨_, _, ho⟩ := bind_ok ho
  obtain ⟨_, _, ho⟩ := bind_ok ho
  obtain ⟨_, _, ho⟩ := bind_ok ho
  cases ho

/-! ## C48, C75, C76 -/

/-- What a returned surface is, in any arithmetic: reference and isovalue are those chosen, and every cast but the pinned one
holds the result of its own vertical solve for them. -/
theorem isopycnal_pointwise {fuel : ℕ} {tol : F} {kind : PPKind} {eos : F → F → F → F} {ty : Ans} {ref : RefArg F}
    {isoval : Option F} {pinCast : Option ℤ} {pinP : PinP F} {casts : ℕ → Cast F} {N : ℕ} {stp : ℕ → F × F × F}
    {r : RefArg F} {v : F} (h : isopycnal fuel tol kind eos ty ref isoval pinCast pinP casts N = .ok (stp, r, v)) :
    (∃ rp, ty = .potential ∧ r = .float rp ∧ ∀ n < N, (∀ m, pinP ≠ .none → pinCast = some m → Lib.npIdx N m ≠ some n) →
      vertsolve1 fuel tol kind (fun P Sp Tp => zeroPotential eos P Sp Tp rp v) (casts n) = .ret (stp n)) ∨
    (∃ a b, ty = .anomaly ∧ r = .pair (some a) (some b) ∧
      ∀ n < N, (∀ m, pinP ≠ .none → pinCast = some m → Lib.npIdx N m ≠ some n) →
      vertsolve1 fuel tol kind (fun P Sp Tp => zeroAnomaly eos P Sp Tp (a, b) v) (casts n) = .ret (stp n)) := by
  unfold isopycnal at h
  obtain ⟨_, _, h⟩ := bind_ok h
  obtain ⟨ri, _, h⟩ := bind_ok h
  obtain ⟨s, hs, h⟩ := bind_ok h
  -- the surface differs from `s` only at the pinned cast
  have key : ri = (r, v) ∧ ∀ n < N, (∀ m, pinP ≠ .none → pinCast = some m → Lib.npIdx N m ≠ some n) → stp n = s n := by
    cases pinP with
    | none => simp at h; obtain ⟨rfl, rfl, rfl⟩ := h; exact ⟨rfl, fun _ _ _ => rfl⟩
    | other => simp at h; obtain ⟨rfl, rfl, rfl⟩ := h; exact ⟨rfl, fun _ _ _ => rfl⟩
    | float x =>
      cases hm : pinCast.bind (Lib.npIdx N) with
      | none => rw [hm] at h; cases h
      | some m =>
        rw [hm] at h
        dsimp only at h
        obtain ⟨st, _, h⟩ := bind_ok h
        cases h
        refine ⟨rfl, fun n _ hn => ?_⟩
        rw [Function.update_of_ne]
        rintro rfl
        cases hc : pinCast with
        | none => rw [hc] at hm; cases hm
        | some m => rw [hc] at hm; exact hn m (by simp) hc hm
  obtain ⟨rfl, key⟩ := key
  unfold solve at hs
  dsimp only at hs
  split at hs
  · left
    refine ⟨_, rfl, rfl, fun n hn hn' => ?_⟩
    rw [key n hn hn']
    exact ((vertsolve_pointwise ..).1 (ofOutcome_ok hs)).1 n hn
  · right
    refine ⟨_, _, rfl, rfl, fun n hn hn' => ?_⟩
    rw [key n hn hn']
    exact ((vertsolve_pointwise ..).1 (ofOutcome_ok hs)).1 n hn
  · cases hs

/-- **C75.** When `pin_p` is given, the returned surface has exactly this pressure at the pinning cast, in any arithmetic, and
the salinity and temperature interpolated there. -/
theorem isopycnal_pinned {fuel : ℕ} {tol : F} {kind : PPKind} {eos : F → F → F → F} {ty : Ans} {ref : RefArg F}
    {isoval : Option F} {m : ℤ} {x : F} {casts : ℕ → Cast F} {N : ℕ} {stp : ℕ → F × F × F}
    {r : RefArg F} {v : F} (h : isopycnal fuel tol kind eos ty ref isoval (some m) (.float x) casts N = .ok (stp, r, v)) :
    ∃ n st, Lib.npIdx N m = some n ∧ pinST kind (casts n) x = .ok st ∧ stp n = (st.1, st.2, x) := by
  unfold isopycnal at h
  obtain ⟨_, _, h⟩ := bind_ok h
  obtain ⟨ri, _, h⟩ := bind_ok h
  obtain ⟨s, hs, h⟩ := bind_ok h
  dsimp only [Option.bind_some] at h
  cases hm : Lib.npIdx N m with
  | none => rw [hm] at h; cases h
  | some n =>
    rw [hm] at h
    obtain ⟨st, h1, h2⟩ := bind_ok h
    cases h2
    exact ⟨n, st, rfl, h1, Function.update_self ..⟩

/-- **C76.** A surface specified by a pin lies on its isovalue at the pin, exactly, in any arithmetic: the returned
reference and isovalue are consistent with the returned values at the pinning cast. -/
theorem isopycnal_on_isovalue {fuel : ℕ} {tol : F} {kind : PPKind} {eos : F → F → F → F} {ty : Ans} {ref : RefArg F}
    {m : ℤ} {x : F} {casts : ℕ → Cast F} {N : ℕ} {stp : ℕ → F × F × F}
    {r : RefArg F} {v : F} (h : isopycnal fuel tol kind eos ty ref none (some m) (.float x) casts N = .ok (stp, r, v)) :
    ∃ n s t, Lib.npIdx N m = some n ∧ stp n = (s, t, x) ∧
      ((∃ rp, r = .float rp ∧ (ref = .none → rp = x) ∧ (ref ≠ .none → ref = r) ∧ v = eos s t rp) ∨
       (∃ a b, r = .pair (some a) (some b) ∧ (ref = .none → a = s ∧ b = t) ∧
          (∀ a' b', ref = .pair (some a') (some b') → a' = a ∧ b' = b) ∧ v = eos s t x - eos a b x)) := by
  obtain ⟨n, st, hn, hst, hv⟩ := isopycnal_pinned h
  refine ⟨n, st.1, st.2, hn, hv, ?_⟩
  unfold isopycnal at h
  obtain ⟨_, _, h⟩ := bind_ok h
  obtain ⟨ri, hri, h⟩ := bind_ok h
  obtain ⟨s, hs, h⟩ := bind_ok h
  dsimp only [Option.bind_some] at h hri
  rw [hn] at h hri
  dsimp only at h hri
  obtain ⟨st', _, h2⟩ := bind_ok h
  cases h2
  unfold choose at hri
  dsimp only [pinOf] at hri
  rw [hst] at hri
  simp only [Res.bind] at hri
  cases ty
  · left
    cases ref <;> simp at hri
    · rw [← hri]; exact ⟨_, rfl, fun _ => rfl, fun h => absurd rfl h, rfl⟩
    · rw [← hri]; exact ⟨_, rfl, fun h => (by cases h), fun h => rfl, rfl⟩
  · right
    rcases ref with _ | _ | ⟨_ | a, _ | b⟩ | _ <;> simp at hri <;> rw [← hri]
    · exact ⟨_, _, rfl, fun _ => ⟨rfl, rfl⟩, fun _ _ h => (by cases h), rfl⟩
    · exact ⟨_, _, rfl, fun h => (by cases h), fun _ _ h => (by cases h), rfl⟩
    · exact ⟨_, _, rfl, fun h => (by cases h), fun _ _ h => (by cases h), rfl⟩
    · exact ⟨_, _, rfl, fun h => (by cases h), fun _ _ h => (by cases h), rfl⟩
    · exact ⟨_, _, rfl, fun h => (by cases h), fun _ _ h => (by cases h; exact ⟨rfl, rfl⟩), rfl⟩

/-- **C48, partial:** with `ref` and `isoval` given, the pin options change nothing but the pinning cast.  Missing: there the
result is overwritten (`pin_unused_false`). -/
theorem pin_unused_partial {fuel : ℕ} {tol : F} {kind : PPKind} {eos : F → F → F → F} {ty : Ans} {ref : RefArg F}
    {v : F} {m : ℤ} {x : F} {casts : ℕ → Cast F} {N : ℕ} {stp stp' : ℕ → F × F × F}
    {r r' : RefArg F} {v₁ v₁' : F}
    (h : isopycnal fuel tol kind eos ty ref (some v) (some m) (.float x) casts N = .ok (stp, r, v₁))
    (h' : isopycnal fuel tol kind eos ty ref (some v) none .none casts N = .ok (stp', r', v₁')) :
    r = ref ∧ r' = ref ∧ v₁ = v ∧ v₁' = v ∧ ∀ n, Lib.npIdx N m ≠ some n → stp n = stp' n := by
  unfold isopycnal at h h'
  obtain ⟨_, _, h⟩ := bind_ok h
  obtain ⟨ri, hri, h⟩ := bind_ok h
  obtain ⟨s, hs, h⟩ := bind_ok h
  obtain ⟨_, _, h'⟩ := bind_ok h'
  obtain ⟨ri', hri', h'⟩ := bind_ok h'
  obtain ⟨s', hs', h'⟩ := bind_ok h'
  cases hri
  cases hri'
  dsimp only at hs hs' h h'
  rw [hs] at hs'
  cases hs'
  cases h'
  cases hn : Lib.npIdx N m with
  | none => rw [Option.bind_some, hn] at h; cases h
  | some n =>
    rw [Option.bind_some, hn] at h
    dsimp only at h
    obtain ⟨st, _, h⟩ := bind_ok h
    cases h
    refine ⟨rfl, rfl, rfl, rfl, fun k hk => ?_⟩
    rw [Function.update_of_ne]
    rintro rfl
    exact hk rfl

end generic

/-! ## The documented claim fails, and exact arithmetic -/

/-- A cast with pressures 0, 2, temperatures 2, 0. -/
def demoCast : Cast (Fl ℚ) := ⟨Arr.ofList [.fin 35, .fin 35], Arr.ofList [.fin 2, .fin 0], Arr.ofList [.fin 0, .fin 2]⟩

/-- density 1 - t -/
def demoEos : Fl ℚ → Fl ℚ → Fl ℚ → Fl ℚ := fun _ t _ => .fin 1 - t

/-- pressure at cast 0 of the surface for `ref = 0`, `isoval = 0` -/
def demoP (pc : Option ℤ) (pp : PinP (Fl ℚ)) : Option (Fl ℚ) :=
  match isopycnal 50 (.fin (1/1000)) .linear demoEos .potential (.float (.fin 0)) (some (.fin 0)) pc pp (fun _ => demoCast) 1 with
  | .ok (stp, _, _) => some (stp 0).2.2
  | _ => none

/-- **C48 is violated:** with `ref` and `isoval` both given, the surface is at pressure 1, but with `pin_cast` and `pin_p = 2`
also given it is moved to 2 there. -/
theorem pin_unused_false : demoP none .none = some (.fin 1) ∧ demoP (some 0) (.float (.fin 2)) = some (.fin 2) := by
  decide +kernel

section exact
open Fl hiding nan
variable {c : Cast (Fl ℝ)} {k K : ℕ} {a s t : ℕ → ℝ}

theorem lastCol_of_ppcFn {F : Type*} [FloatLike F] {kind : PPKind} {X Y : Arr F} {C : PPC F} (h : ppcFn kind X Y = some C) :
    C.lastCol.get = Y.get := by
  cases kind
  · cases h; rw [linearCoeffs1_lastCol]
  · exact (pchipAux_spec h).2

theorem validRange_add (C : Col c.P c.S k K a s) : validRange (addArr c.S c.P) = (k, K) := by
  have h : ∀ Z : Arr (Fl ℝ), validRange Z = validRange2 Z Z := by
    intro Z; unfold validRange validRange2; simp only [Bool.and_self, Bool.or_self]
  have h2 := C.two
  have hle := C.le
  have hsz := C.size
  have hZ : (addArr c.S c.P).size = c.P.size := hsz
  rw [h]
  have hb : ∀ i, i < k → (addArr c.S c.P).get i = Fl.nan := by
    intro i hi
    show c.S.get i + c.P.get i = Fl.nan
    rcases C.before i hi with h | h <;> rw [h] <;> simp
  have hm : ∀ i, k ≤ i → i < K → (addArr c.S c.P).get i = fin (s i + a i) := by
    intro i h1 h2
    show c.S.get i + c.P.get i = _
    rw [C.hX i h1 h2, C.hY i h1 h2, fin_add]
  apply validRange2_eq (by omega) (by omega) (by omega)
  · intro i hi; rw [hb i hi]; simp
  · rw [hm k (le_refl _) (by omega)]; simp
  · intro i h1 h2; rw [hm i h1.le h2]; simp
  · intro hK
    left
    show isNaN (c.S.get K + c.P.get K) = true
    rcases C.after (by omega) with h | h <;> rw [h] <;> simp

theorem slice_zero {F : Type*} (X : Arr F) : X.slice 0 X.size = X := by
  unfold Arr.slice; simp

theorem ppval1Two_full {F : Type*} [FloatLike F] {X : Arr F} {C D : PPC F} (x : F) (d : ℕ) (h2 : 2 ≤ X.size)
    (h : validRange2 X C.lastCol = (0, X.size)) : ppval1Two x X C D d = ppval1NonanTwo x X C D d := by
  unfold ppval1Two ppval1NonanTwo outside pieceIndex
  simp only [h, slice_zero]
  rw [decide_eq_false (by omega)]
  simp

/-- **C75.** In exact arithmetic, on a cast with data: for a pinning pressure in the range of the data, salinity and
temperature at the pin are the interpolants there (linear or PCHIP); for one outside the range they are NaN although the
pressure of the surface is the given number. -/
theorem pinST_spec (kind : PPKind) (G : GoodCast c k K a s t) :
    (∀ x, a k ≤ x → x ≤ a (K - 1) → ∃ s0 t0, pinST kind c (fin x) = .ok (fin s0, fin t0) ∧
      interpAt kind (fin x) c.P c.S = some (fin s0) ∧ interpAt kind (fin x) c.P c.T = some (fin t0)) ∧
    (∀ x, x < a k ∨ a (K - 1) < x → pinST kind c (fin x) = .ok (Fl.nan, Fl.nan)) := by
  have h2 := G.S.two
  obtain ⟨smin, hsmin⟩ : ∃ smin, ∀ i, k ≤ i → i < K → smin ≤ s i := by
    have : ∀ n, ∃ m, ∀ i, i < n → m ≤ s i := by
      intro n
      induction n with
      | zero => exact ⟨0, fun i hi => absurd hi (Nat.not_lt_zero i)⟩
      | succ n ih =>
        obtain ⟨m, hm⟩ := ih
        refine ⟨min m (s n), fun i hi => ?_⟩
        rcases Nat.lt_succ_iff_lt_or_eq.1 hi with h | rfl
        · exact (min_le_left _ _).trans (hm i h)
        · exact min_le_right _ _
    obtain ⟨m, hm⟩ := this K
    exact ⟨m, fun i _ hi => hm i hi⟩
  obtain ⟨Sp, Tp, gS, gT, h3, h4, h5, h6, _, _⟩ := G.curves kind hsmin
  have hvr : validRange2 (c.P.slice k K) Sp.lastCol = (0, (c.P.slice k K).size) :=
    G.S.block.vr_table (lastCol_of_ppcFn h3)
  have e : ∀ x, pinST kind c x = .ok (ppval1NonanTwo x (c.P.slice k K) Sp Tp 0) := by
    intro x
    unfold pinST
    simp only [validRange_add G.S, h3, h4]
    rw [ppval1Two_full _ _ (by show 2 ≤ K - k; omega) hvr]
  constructor
  · intro x hx hx'
    exact ⟨gS x, gT x, by rw [e, (h5 x hx hx').1], (h5 x hx hx').2.1, (h5 x hx hx').2.2.1⟩
  · intro x hx
    rw [e, h6 x hx]

end exact

/-- the hypotheses of `isopycnal_pinned` and `isopycnal_on_isovalue` are met: a surface through pressure 1/2 -/
example : (match isopycnal 50 (.fin (1/1000)) .linear demoEos .potential .none none (some 0) (.float (.fin (1/2)))
    (fun _ => demoCast) 2 with
  | .ok (stp, .float r, v) => [(stp 0).1, (stp 0).2.1, (stp 0).2.2, r, v, (stp 1).2.1] | _ => []) =
    [.fin 35, .fin (3/2), .fin (1/2), .fin (1/2), .fin (-1/2), .fin (3/2)] := by decide +kernel

/-- Out of range pin: pressure 7, salinity and temperature NaN, isovalue NaN, everything else NaN. -/
example : (match isopycnal 50 (.fin (1/1000)) .linear demoEos .potential .none none (some 0) (.float (.fin 7))
    (fun _ => demoCast) 2 with
  | .ok (stp, .float r, v) => [(stp 0).1, (stp 0).2.1, (stp 0).2.2, r, v] | _ => []) =
    [.nan, .nan, .fin 7, .fin 7, .nan] := by decide +kernel

end Isopycnal
