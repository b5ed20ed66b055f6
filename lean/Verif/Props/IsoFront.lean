import Verif.Model.IsoFront
import Verif.Props.Isopycnal
import Verif.Props.Flatten
import Mathlib.Tactic.IntervalCases

/-! # Potential density and anomaly surfaces of arrays with several horizontal dimensions (C111, C112) -/

namespace Isopycnal
open FloatLike Fzero Interp Traj VertSolve Lib

set_option linter.unusedSectionVars false

variable {F : Type*} [FloatLike F]

theorem ofLib_ok {A : Type*} {x : Lib.Res A} {a : A} (h : ofLib x = .ok a) : x = .ok a := by
  cases x <;> first | (cases h; rfl) | cases h

/-- Specification: the indices `l`, negative ones counting from the end, are those of `m`. -/
def Denotes (shape : List ℕ) (l : List ℤ) (m : List ℕ) : Prop :=
  l.length = shape.length ∧ Valid shape m ∧ ∀ j < shape.length, ∃ (n : ℕ) (i : ℤ) (k : ℕ), shape[j]? = some n ∧ l[j]? = some i ∧ m[j]? = some k ∧
    (i = k ∨ i = (k : ℤ) - n)

theorem tupleIdx_one {s : List ℕ} : ∀ {l : List ℤ} {r : ℕ}, l.length = s.length → tupleIdx s l = some r →
    ∃ m, Denotes s l m ∧ r = ravel s m := by
  induction s with
  | nil =>
    intro l r hl h
    obtain rfl : l = [] := List.eq_nil_of_length_eq_zero hl
    cases h
    exact ⟨[], ⟨rfl, List.Forall₂.nil, by simp⟩, rfl⟩
  | cons n s ih =>
    intro l r hl h
    cases l with
    | nil => cases hl
    | cons i l =>
      rw [tupleIdx] at h
      split at h
      · rename_i j r' hj hr
        cases h
        obtain ⟨m, ⟨m1, m2, m3⟩, rfl⟩ := ih (by simpa using hl) hr
        have hj' := npIdx_lt hj
        refine ⟨j :: m, ⟨hl, List.Forall₂.cons hj'.1 m2, ?_⟩, rfl⟩
        intro a ha
        cases a with
        | zero => exact ⟨n, i, j, rfl, rfl, rfl, by omega⟩
        | succ a => exact m3 a (by simpa using ha)
      · cases h

/-- A tuple of valid indices, as many as horizontal dimensions, selects its cast. -/
theorem tupleIdx_of_denotes {s : List ℕ} : ∀ {l : List ℤ} {m : List ℕ}, Denotes s l m → tupleIdx s l = some (ravel s m) := by
  induction s with
  | nil =>
    rintro l m ⟨hl, hv, _⟩
    obtain rfl : l = [] := List.eq_nil_of_length_eq_zero hl
    rfl
  | cons n s ih =>
    rintro l m ⟨hl, hv, h⟩
    cases l with
    | nil => cases hl
    | cons i l =>
      cases hv with
      | @cons _ k _ m hk hm =>
        have h0 := h 0 (by simp)
        simp only [List.getElem?_cons_zero, Option.some.injEq] at h0
        obtain ⟨_, _, _, rfl, rfl, rfl, h0⟩ := h0
        have hn : npIdx n i = some k := by
          unfold npIdx
          rcases h0 with rfl | rfl
          · rw [if_pos (by omega), if_pos (by omega)]; simp
          · rw [if_neg (by omega), if_pos (by omega)]; simp
        rw [tupleIdx, hn, ih ⟨by simpa using hl, hm, ?_⟩]
        · rfl
        · intro j hj
          have := h (j + 1) (by simpa using hj)
          simpa using this

theorem denotes_unique {s : List ℕ} {l : List ℤ} {m m' : List ℕ} (h : Denotes s l m) (h' : Denotes s l m') : m = m' := by
  have h1 := tupleIdx_of_denotes h
  rw [tupleIdx_of_denotes h'] at h1
  have := congrArg (Option.map (unravel s)) h1
  simp only [Option.map_some, unravel_ravel h.2.1, unravel_ravel h'.2.1, Option.some.injEq] at this
  exact this.symm

/-- Specification: the function whose zero is sought on a cast, for the kind of surface and the reference. -/
def zeroOf (eos : F → F → F → F) (v : F) : RefArg F → Option (Arr F → PPC F → PPC F → F → F)
  | .float r => some fun P Sp Tp => zeroPotential eos P Sp Tp r v
  | .pair (some a) (some b) => some fun P Sp Tp => zeroAnomaly eos P Sp Tp (a, b) v
  | _ => none

theorem ravel_inj {s m m' : List ℕ} (h : Valid s m) (h' : Valid s m') (e : ravel s m = ravel s m') : m = m' := by
  rw [← unravel_ravel h, e, unravel_ravel h']

theorem isopycnal_zero {fuel : ℕ} {tol : F} {kind : PPKind} {eos : F → F → F → F} {ty : Ans} {ref : RefArg F}
    {isoval : Option F} {pinCast : Option ℤ} {pinP : PinP F} {casts : ℕ → Cast F} {N : ℕ} {stp : ℕ → F × F × F}
    {r : RefArg F} {v : F} (h : isopycnal fuel tol kind eos ty ref isoval pinCast pinP casts N = .ok (stp, r, v)) :
    ∃ zf, zeroOf eos v r = some zf ∧ ∀ n < N, (∀ m, pinP ≠ .none → pinCast = some m → Lib.npIdx N m ≠ some n) →
      vertsolve1 fuel tol kind zf (casts n) = .ret (stp n) := by
  rcases isopycnal_pointwise h with ⟨rp, _, rfl, h'⟩ | ⟨a, b, _, rfl, h'⟩
  · exact ⟨_, rfl, h'⟩
  · exact ⟨_, rfl, h'⟩

section
variable {fuel : ℕ} {tol : F} {kind : PPKind} {eos : F → F → F → F} {ty : Ans} {d : Dim} {diags edges : Bool}
  {dims : Option (List String)} {coord : String → Option (List ℚ)} {S T : Nd F} {P : PArg F} {ref : RefArg F} {isoval : Option F}
  {pinP : PinP F} {v : ℕ} {pr : List ℕ → ℕ → F}

/-- **C111.** A call of `potential_surf` or `anomaly_surf` on arrays that returns: the surface has the shape of `S` without the
vertical dimension, and its entry at horizontal indices `m` is the vertical solve on the cast of `S`, `T`, `P` at `m`, except
at the pinning cast (if `pin_p` is given): there it has the pressure `pin_p`, and the salinity and temperature of that cast
interpolated to it. -/
theorem isoSurf_spec (A : Args d dims S T P v pr) {pc : PinCast} {hs : List ℕ} {out : List ℕ → F × F × F} {r : RefArg F} {val : F}
    (h : isoSurf fuel tol kind eos ty d diags edges dims coord S T P ref isoval (.cast pc) pinP = .ok (hs, out, r, val)) :
    hs = S.shape.eraseIdx v ∧ ∃ l zf, processPinCast coord pc = .ok l ∧ zeroOf eos val r = some zf ∧
      (∀ m, Valid hs m → (pinP = .none ∨ ¬ Denotes hs l m) → vertsolve1 fuel tol kind zf (castAt S T pr v m) = .ret (out m)) ∧
      (∀ x, pinP = .float x → ∃ m0 st, Denotes hs l m0 ∧ pinST kind (castAt S T pr v m0) x = .ok st ∧ out m0 = (st.1, st.2, x)) := by
  unfold isoSurf at h
  obtain ⟨sel, e1, h⟩ := bind_ok h
  obtain ⟨STP, e2, h⟩ := bind_ok h
  dsimp only at h
  split_ifs at h
  obtain ⟨res, e3, h⟩ := bind_ok h
  cases h
  obtain ⟨a1, a2⟩ := A.casts (ofLib_ok e2)
  have hhs : STP.1.shape.dropLast = S.shape.eraseIdx v := by rw [a1, List.dropLast_concat]
  rw [hhs] at e3 ⊢
  obtain ⟨l, hl, rfl⟩ : ∃ l, processPinCast coord pc = .ok l ∧ sel = fun hs nk => some (selTuple hs nk l) := by
    have := ofLib_ok e1
    rw [select] at this
    split at this <;> cases this
    exact ⟨_, by assumption, rfl⟩
  obtain ⟨stp, r', v'⟩ := res
  have hout : ∀ m, Valid (S.shape.eraseIdx v) m → reshapeGet (S.shape.eraseIdx v) stp m = stp (ravel (S.shape.eraseIdx v) m) := by
    intro m hm
    rw [reshapeGet, foldl_ravel hm, Nat.zero_mul, Nat.zero_add]
  refine ⟨rfl, l, ?_⟩
  dsimp only at e3 ⊢
  split at e3
  · rename_i heq; cases heq
  · rename_i n heq
    have hn : l.length = (S.shape.eraseIdx v).length ∧ tupleIdx (S.shape.eraseIdx v) l = some n := by
      have heq := Option.some.inj heq
      unfold selTuple at heq
      split_ifs at heq with hlen hodd
      refine ⟨hlen, ?_⟩
      split at heq <;> cases heq
      assumption
    obtain ⟨m0, hm0, rfl⟩ := tupleIdx_one hn.1 hn.2
    have hlt := ravel_lt hm0.2.1
    have hidx : npIdx (S.shape.eraseIdx v).prod ((ravel (S.shape.eraseIdx v) m0 : ℕ) : ℤ) = some (ravel (S.shape.eraseIdx v) m0) := by
      unfold npIdx
      rw [if_pos (by omega), if_pos (by omega)]; simp
    obtain ⟨zf, z1, z2⟩ := isopycnal_zero e3
    refine ⟨zf, hl, z1, ?_, ?_⟩
    · intro m hm hpin
      rw [hout m hm, ← a2 m hm]
      refine z2 _ (ravel_lt hm) ?_
      intro m' hp hm' hidx'
      cases hm'
      rw [hidx] at hidx'
      rcases hpin with hpin | hpin
      · exact hp hpin
      · have : m0 = m := ravel_inj hm0.2.1 hm (by simpa using hidx')
        exact hpin (this ▸ hm0)
    · rintro x rfl
      obtain ⟨n, st, h1, h2, h3⟩ := isopycnal_pinned e3
      rw [hidx] at h1
      cases h1
      refine ⟨m0, st, hm0, ?_, ?_⟩
      · rw [← a2 m0 hm0.2.1]; exact h2
      · rw [hout m0 hm0.2.1]; exact h3
  · exfalso
    unfold isopycnal at e3
    obtain ⟨_, e, _⟩ := bind_ok e3
    have hv : npIdx (S.shape.eraseIdx v).prod (((S.shape.eraseIdx v).prod : ℕ) : ℤ) = none := by
      unfold npIdx
      rw [if_pos (by omega), if_neg (by omega)]
    unfold checkRef at e
    simp only [hv, Option.isNone_none, if_true] at e
    split_ifs at e
  · unfold isopycnalOdd at e3
    obtain ⟨_, hck, e3⟩ := bind_ok e3
    split at e3
    · cases e3
    · obtain ⟨s, hs, e3⟩ := bind_ok e3
      split at e3
      · cases e3
        unfold solve at hs
        split at hs
        · refine ⟨_, hl, rfl, ?_, by simp⟩
          intro m hm _
          rw [hout m hm, ← a2 m hm]
          exact ((vertsolve_pointwise ..).1 (ofOutcome_ok hs)).1 _ (ravel_lt hm)
        · refine ⟨_, hl, rfl, ?_, by simp⟩
          intro m hm _
          rw [hout m hm, ← a2 m hm]
          exact ((vertsolve_pointwise ..).1 (ofOutcome_ok hs)).1 _ (ravel_lt hm)
        · cases hs
      · cases e3

/-! ## C112 -/

theorem isopycnalOdd_pinned {casts : ℕ → Cast F} {N : ℕ} {x : F} {r : (ℕ → F × F × F) × RefArg F × F} :
    isopycnalOdd fuel tol kind eos ty ref isoval (.float x) casts N ≠ .ok r := by
  intro h
  unfold isopycnalOdd at h
  obtain ⟨_, _, h⟩ := bind_ok h
  split at h
  · cases h
  · obtain ⟨_, _, h⟩ := bind_ok h
    cases h

theorem isopycnal_bad {casts : ℕ → Cast F} {N : ℕ} {r : (ℕ → F × F × F) × RefArg F × F} :
    isopycnal fuel tol kind eos ty ref isoval (some N) pinP casts N ≠ .ok r := by
  intro h
  unfold isopycnal at h
  obtain ⟨_, e, _⟩ := bind_ok h
  have hv : npIdx N (N : ℤ) = none := by
    unfold npIdx
    rw [if_pos (by omega), if_neg (by omega)]
  unfold checkRef at e
  simp only [hv, Option.isNone_none, if_true] at e
  split_ifs at e

/-- **C112 is false:** `pin_cast` is documented as a tuple or list, but with a list no call with `pin_p` returns, whatever the data and
the other options; -/
theorem isoSurf_list_false (l : List ℤ) (x : F) (res : List ℕ × (List ℕ → F × F × F) × RefArg F × F) :
    isoSurf fuel tol kind eos ty d diags edges dims coord S T P ref isoval (.list l) (.float x) ≠ .ok res := by
  intro h
  unfold isoSurf at h
  obtain ⟨sel, e1, h⟩ := bind_ok h
  obtain ⟨STP, e2, h⟩ := bind_ok h
  dsimp only at h
  split_ifs at h
  obtain ⟨res, e3, h⟩ := bind_ok h
  cases e1
  split at e3
  · rename_i heq; cases heq
  · rename_i heq
    have heq := Option.some.inj heq
    unfold selList at heq
    split_ifs at heq
  · exact isopycnal_bad e3
  · exact isopycnalOdd_pinned e3

/-- for instance, pinning alone with indices that are valid for the first dimension (which makes them pass the check) ends in a typing
error of the compiler. -/
theorem isoSurf_list_typing (A : Args d dims S T P v pr) (l : List ℤ) (hl : ∀ i ∈ l, -((S.shape.eraseIdx v ++ [S.shape.getD v 0]).headD 0 : ℤ) ≤ i ∧
      i < (S.shape.eraseIdx v ++ [S.shape.getD v 0]).headD 0) (x : F) (hd : diags = false) :
    isoSurf fuel tol kind eos ty d diags edges dims coord S T P .none none (.list l) (.float x) = .typingError := by
  obtain ⟨STP, e⟩ : ∃ STP, processCasts dims S T P d = .ok STP := by
    obtain ⟨h1, h2⟩ := processCasts_spec dims S T d v A.lt A.dim (by rw [A.shape])
    have hp := A.press
    cases P with
    | full P => obtain ⟨_, _, _, e, _⟩ := h2 P (by rw [hp.1]); exact ⟨_, e⟩
    | small size P => obtain ⟨_, _, _, e, _⟩ := h1 size P hp.1; exact ⟨_, e⟩
  have hsh := (A.casts e).1
  have hsel : selList (S.shape.eraseIdx v) (S.shape.getD v 0) l = .odd := by
    unfold selList
    rw [if_pos]
    rw [List.all_eq_true]
    intro i hi
    rw [npIdx_valid]
    exact hl i hi
  have hck : checkRef ty (RefArg.none : RefArg F) none (some 0) (.float x) ((S.shape.eraseIdx v).prod + 1) = .ok () := by
    have : npIdx ((S.shape.eraseIdx v).prod + 1) 0 = some 0 := by
      unfold npIdx
      rw [if_pos (by omega), if_pos (by omega)]; rfl
    unfold checkRef
    simp [this]
  unfold isoSurf
  rw [e, hd]
  simp only [hck, select, ofLib, Res.bind, hsh, List.dropLast_concat, List.getLastD_concat, hsel, Bool.false_and, isopycnalOdd]
  rfl

/-- An `int`, or a tuple with too few or too many indices, does not work either. -/
theorem isoSurf_length (A : Args d dims S T P v pr) {pc : PinCast} {l : List ℤ} (hpc : processPinCast coord pc = .ok l)
    (hl : l.length + 1 ≠ S.shape.length) (x : F) (res : List ℕ × (List ℕ → F × F × F) × RefArg F × F) :
    isoSurf fuel tol kind eos ty d diags edges dims coord S T P ref isoval (.cast pc) (.float x) ≠ .ok res := by
  obtain ⟨hs, out, r, val⟩ := res
  intro h
  obtain ⟨rfl, l', zf, h1, _, _, h2⟩ := isoSurf_spec A h
  obtain ⟨m0, st, hm, _⟩ := h2 x rfl
  rw [hpc] at h1
  cases h1
  have := hm.1
  rw [List.length_eraseIdx, if_pos A.lt] at this
  have := A.lt
  omega

/-- **C112, partial.** With a tuple, the surface returned is at `pin_p` on the cast that the tuple denotes (negative indices count from the end). -/
theorem isoSurf_tuple_partial (A : Args d dims S T P v pr) {l : List ℤ} {m0 : List ℕ} (hl : Denotes (S.shape.eraseIdx v) l m0) {x : F} {hs : List ℕ}
    {out : List ℕ → F × F × F} {r : RefArg F} {val : F}
    (h : isoSurf fuel tol kind eos ty d diags edges dims coord S T P ref isoval (.cast (.tuple l)) (.float x) = .ok (hs, out, r, val)) :
    (out m0).2.2 = x := by
  obtain ⟨rfl, l', zf, h1, _, _, h2⟩ := isoSurf_spec A h
  obtain ⟨m, st, hm, _, e⟩ := h2 x rfl
  cases h1
  rw [denotes_unique hl hm, e]
end

/-! ## Examples -/

/-- Four levels, casts on a `2 × 1` grid, vertical dimension first: salinity `k + i`, density = salinity. -/
def demoS : Nd (Fl ℚ) := ⟨[4, 2, 1], fun i => .fin (i.getD 0 0 + i.getD 1 0 : ℕ)⟩
def demoT : Nd (Fl ℚ) := ⟨[4, 2, 1], fun _ => .fin 0⟩
def demoPr : PArg (Fl ℚ) := .small 4 fun k => .fin k

theorem demo_args : Args (.int 0) none demoS demoT demoPr 0 (fun _ k => .fin k) :=
  ⟨rfl, by decide, rfl, rfl, fun _ _ => rfl⟩

def demoCall (pin : Pin) : Res (List ℕ × (List ℕ → Fl ℚ × Fl ℚ × Fl ℚ) × RefArg (Fl ℚ) × Fl ℚ) :=
  isoSurf 200 (.fin (1/100)) .linear (fun s _ _ => s) .potential (.int 0) false false none (fun _ => none) demoS demoT demoPr .none none pin (.float (.fin 2))

/-- Pinned at pressure 2 on the cast `(0, 0)`; on the cast `(1, 0)` the salinity is 2 at pressure 1. -/
theorem demo_front : ∀ l ∈ [[0, 0], [-2, -1]], (match demoCall (.cast (.tuple l)) with
    | .ok r => some (r.1, (r.2.1 [0, 0]).2.2, (r.2.1 [1, 0]).2.2, r.2.2.2) | _ => none) = some ([2, 1], .fin 2, .fin 1, .fin 2) := by decide +kernel

/-- The same indices as a list are a typing error. -/
example : demoCall (.list [0, 0]) = .typingError := isoSurf_list_typing demo_args [0, 0] (by decide) _ rfl

example : Denotes (demoS.shape.eraseIdx 0) [-2, -1] [0, 0] := by
  refine ⟨rfl, by unfold Valid; simp [demoS], ?_⟩
  intro j hj
  have : j < 2 := hj
  interval_cases j
  · exact ⟨2, -2, 0, rfl, rfl, rfl, .inr rfl⟩
  · exact ⟨1, -1, 0, rfl, rfl, rfl, .inr rfl⟩

end Isopycnal
