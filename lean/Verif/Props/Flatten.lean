import Verif.Model.Flatten
import Verif.Props.Lib

/-! # Arrays with several horizontal dimensions as rows of casts, and back: specification and lemmas -/

namespace Lib
open FloatLike Traj

set_option linter.unusedSectionVars false

variable {F : Type*} [FloatLike F]

theorem Valid.prod_pos {s m : List ℕ} (h : Valid s m) : 0 < s.prod := lt_of_le_of_lt (Nat.zero_le _) (ravel_lt h)

theorem Valid.length {s m : List ℕ} (h : Valid s m) : s.length = m.length := List.Forall₂.length_eq h

theorem unravel_ravel {s m : List ℕ} (h : Valid s m) : unravel s (ravel s m) = m := by
  unfold Valid at h
  induction h with
  | nil => rfl
  | @cons n i s m hi hm ih =>
    have hp : 0 < s.prod := Valid.prod_pos hm
    have hl := ravel_lt (hm : Valid s m)
    rw [ravel, unravel, Nat.mul_comm, Nat.mul_add_div hp, Nat.div_eq_of_lt hl, Nat.mul_add_mod, Nat.mod_eq_of_lt hl, ih]
    rfl

theorem foldl_ravel {s m : List ℕ} (h : Valid s m) : ∀ a : ℕ,
    List.foldl (fun acc x => acc * x.1 + x.2) a (s.zip m) = a * s.prod + ravel s m := by
  unfold Valid at h
  induction h with
  | nil => intro a; simp [ravel]
  | @cons n i s m hi hm ih =>
    intro a
    rw [List.zip_cons_cons, List.foldl_cons, ih, ravel, List.prod_cons]
    ring

/-- Specification: `P` as the pressure of level `k` at the horizontal indices `m`: an array like `S`, or one vector for all casts. -/
def Pressure (S : Nd F) (v : ℕ) (pr : List ℕ → ℕ → F) : PArg F → Prop
  | .full P => P.shape = S.shape ∧ ∀ m k, pr m k = P.get (m.insertIdx v k)
  | .small size P => size = S.shape.getD v 0 ∧ ∀ m k, pr m k = P k

/-- Specification: the cast at the horizontal indices `m`, with the vertical dimension at position `v`. -/
def castAt (S T : Nd F) (pr : List ℕ → ℕ → F) (v : ℕ) (m : List ℕ) : Cast F :=
  ⟨⟨S.shape.getD v 0, fun k => S.get (m.insertIdx v k)⟩, ⟨S.shape.getD v 0, fun k => T.get (m.insertIdx v k)⟩,
    ⟨S.shape.getD v 0, fun k => pr m k⟩⟩

/-- Specification: the arguments are well formed. -/
structure Args (d : Dim) (dims : Option (List String)) (S T : Nd F) (P : PArg F) (v : ℕ) (pr : List ℕ → ℕ → F) : Prop where
  dim : processVertDim dims S.shape.length d = .ok v
  lt : v < S.shape.length
  shape : T.shape = S.shape
  press : Pressure S v pr P

theorem Args.casts {d : Dim} {dims : Option (List String)} {S T : Nd F} {P : PArg F} {v : ℕ} {pr : List ℕ → ℕ → F}
    (A : Args d dims S T P v pr) {STP : Nd F × Nd F × Nd F} (h : processCasts dims S T P d = .ok STP) :
    STP.1.shape = S.shape.eraseIdx v ++ [S.shape.getD v 0] ∧
    ∀ m, Valid (S.shape.eraseIdx v) m →
      castsOf STP.1 STP.2.1 STP.2.2 (ravel (S.shape.eraseIdx v) m) = castAt S T pr v m := by
  have hsh : STP.1 = contiguousCasts S v := by
    unfold processCasts at h
    rw [A.dim] at h
    dsimp only at h
    split at h <;> cases h
    rfl
  have hlen : ∀ m, Valid (S.shape.eraseIdx v) m → m.length + 1 = S.shape.length := by
    intro m hm
    have := Valid.length hm
    rw [List.length_eraseIdx, if_pos A.lt] at this
    have := A.lt
    omega
  have hshape : STP.1.shape = S.shape.eraseIdx v ++ [S.shape.getD v 0] := by
    rw [hsh]
    refine (contiguousCasts_spec S v A.lt (List.replicate (S.shape.length - 1) 0) 0 ?_).2
    have := A.lt
    simp; omega
  refine ⟨hshape, ?_⟩
  intro m hm
  have hget : ∀ k, STP.1.get (m ++ [k]) = S.get (m.insertIdx v k) ∧ STP.2.1.get (m ++ [k]) = T.get (m.insertIdx v k) ∧
      STP.2.2.get (m ++ [k]) = pr m k := by
    intro k
    obtain ⟨h1, h2⟩ := processCasts_spec dims S T d v A.lt A.dim (by rw [A.shape])
    have hp := A.press
    cases P with
    | full P =>
      obtain ⟨hp1, hp2⟩ := hp
      obtain ⟨S', T', P', e, e'⟩ := h2 P (by rw [hp1])
      rw [h] at e
      cases e
      rw [hp2]
      exact e' m k (hlen m hm)
    | small size P =>
      obtain ⟨hp1, hp2⟩ := hp
      obtain ⟨S', T', P', e, e'⟩ := h1 size P hp1
      rw [h] at e
      cases e
      rw [hp2]
      exact e' m k (hlen m hm)
  unfold castsOf castAt
  rw [hshape, List.dropLast_concat, unravel_ravel hm]
  simp only [List.getLastD_concat]
  congr 2 <;> funext k
  · exact (hget k).1
  · exact (hget k).2.1
  · exact (hget k).2.2

end Lib
