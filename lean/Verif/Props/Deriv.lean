import Verif.Model.Deriv
import Verif.Model.Float

/-!
# Which orders of the derivative are accepted (C182)
-/

namespace Deriv
open FloatLike Interp
variable {F : Type*} [FloatLike F]

theorem foldl_bad {R : Type*} {β : Type*} {bad : Ev R} (hb : ∀ r, bad ≠ .ret r) (f : R → β → Ev R) (l : List β) :
    l.foldl (fun y o => y.bind fun y => f y o) bad = bad := by
  induction l with
  | nil => rfl
  | cons b l ih =>
    rw [List.foldl_cons]
    have : (bad.bind fun y => f y b) = bad := by
      cases bad with
      | ret r => exact absurd rfl (hb r)
      | zeroDiv => rfl
      | indexError => rfl
      | oob => rfl
    rw [this, ih]

theorem foldl_ret {R : Type*} {β : Type*} (f : R → β → Ev R) (g : R → β → R) (l : List β) (h : ∀ b ∈ l, ∀ r, f r b = .ret (g r b)) (r : R) :
    l.foldl (fun (y : Ev R) o => y.bind fun y => f y o) (Ev.ret r) = Ev.ret (l.foldl g r) := by
  induction l generalizing r with
  | nil => rfl
  | cons b l ih =>
    rw [List.foldl_cons, List.foldl_cons]
    have : ((Ev.ret r).bind fun y => f y b) = .ret (g r b) := h b (List.mem_cons_self ..) r
    rw [this]
    exact ih (fun b' hb' => h b' (List.mem_cons_of_mem _ hb')) _

theorem multiplier_nat {order o d : ℕ} (h : o + d ≤ order) : (multiplierZ order o d : F) = multiplier order o d := by
  unfold multiplierZ multiplier pyRange
  rw [List.range'_eq_map_range, List.foldl_map, List.foldl_map]
  have e : ((order : ℤ) - o - ((order : ℤ) - o - d)).toNat = d := by omega
  rw [e]
  congr 1
  funext p i
  congr 2
  push_cast [Nat.sub_sub, Nat.cast_sub h]
  ring

/-- **C182** For orders from zero on, the derivative is that of C16. -/
theorem pvalZ_nat (bad : Ev F) (x : F) (C : List F) (d : ℕ) : pvalZ bad x C d = .ret (pval x C d) := by
  unfold pvalZ pval
  by_cases hd : d = 0
  · simp [hd]
  · rw [if_neg (by exact_mod_cast hd), if_neg hd]
    unfold pyRange
    rw [List.foldl_map]
    have e : ((C.length : ℤ) - d - 0).toNat = C.length - d := by omega
    rw [e]
    have hm : ∀ b ∈ List.range (C.length - d), ∀ y : F, ((readC bad C (0 + (b : ℤ))).bind fun c => Ev.ret (y * x + c * multiplierZ C.length (0 + (b : ℤ)) d)) =
        .ret (y * x + (C[b]?.getD (lit 0)) * multiplier C.length b d) := by
      intro b hb y
      rw [List.mem_range] at hb
      rw [zero_add, multiplier_nat (by omega)]
      unfold readC
      rw [Int.toNat_natCast, List.getElem?_eq_getElem (by omega)]
      rfl
    rw [foldl_ret (fun (y : F) (b : ℕ) => (readC bad C (0 + (b : ℤ))).bind fun c => Ev.ret (y * x + c * multiplierZ C.length (0 + (b : ℤ)) d))
      (fun y b => y * x + (C[b]?.getD (lit 0)) * multiplier C.length b d) _ hm]
    congr 1
    have hz : (C.take (C.length - d)).zipIdx = (List.range (C.length - d)).map fun b => (C[b]?.getD (lit 0), b) := by
      apply List.ext_getElem
      · simp
      · intro i h1 h2
        simp only [List.length_zipIdx, List.length_take] at h1
        simp only [List.getElem_zipIdx, List.getElem_map, List.getElem_range, List.getElem_take, Nat.zero_add]
        rw [List.getElem?_eq_getElem (by omega)]
        rfl
    rw [hz, List.foldl_map]

/-- **C182** With a negative order more coefficients are read than there are. -/
theorem pvalZ_neg {bad : Ev F} (hb : ∀ r, bad ≠ .ret r) (x : F) (C : List F) {d : ℤ} (hd : d < 0) : pvalZ bad x C d = bad := by
  unfold pvalZ
  rw [if_neg hd.ne]
  unfold pyRange
  rw [List.foldl_map]
  obtain ⟨m, hm⟩ : ∃ m, ((C.length : ℤ) - d - 0).toNat = C.length + (1 + m) := ⟨((C.length : ℤ) - d - 0).toNat - C.length - 1, by omega⟩
  rw [hm, List.range_add, List.foldl_append]
  have h1 : ∃ r, (List.range C.length).foldl (fun (y : Ev F) (b : ℕ) => y.bind fun y => (readC bad C (0 + (b : ℤ))).bind fun c =>
      Ev.ret (y * x + c * multiplierZ C.length (0 + (b : ℤ)) d)) (.ret (lit 0)) = .ret r := by
    refine ⟨_, foldl_ret (fun (y : F) (b : ℕ) => (readC bad C (0 + (b : ℤ))).bind fun c => Ev.ret (y * x + c * multiplierZ C.length (0 + (b : ℤ)) d))
      (fun y b => y * x + (C[b]?.getD (lit 0)) * multiplierZ C.length (0 + (b : ℤ)) d) _ ?_ _⟩
    intro b hb y
    rw [List.mem_range] at hb
    unfold readC
    rw [zero_add, Int.toNat_natCast, List.getElem?_eq_getElem hb]
    rfl
  obtain ⟨r, hr⟩ := h1
  rw [hr, List.range_add, List.map_append, List.foldl_append]
  have h2 : (List.map (fun y => C.length + y) (List.range 1)).foldl (fun (y : Ev F) (b : ℕ) => y.bind fun y => (readC bad C (0 + (b : ℤ))).bind fun c =>
      Ev.ret (y * x + c * multiplierZ C.length (0 + (b : ℤ)) d)) (.ret r) = bad := by
    show ((readC bad C (0 + ((C.length + 0 : ℕ) : ℤ))).bind fun c => _) = bad
    have : readC bad C (0 + ((C.length + 0 : ℕ) : ℤ)) = bad := by
      unfold readC
      rw [zero_add, Int.toNat_natCast, List.getElem?_eq_none (by omega)]
    rw [this]
    cases bad with
    | ret r => exact absurd rfl (hb r)
    | zeroDiv => rfl
    | indexError => rfl
    | oob => rfl
  rw [h2]
  exact foldl_bad hb (fun (y : F) (b : ℕ) => (readC bad C (0 + (b : ℤ))).bind fun c => Ev.ret (y * x + c * multiplierZ C.length (0 + (b : ℤ)) d)) _

/-- **C182** (proved part) Functions that interpolate on the fly: orders from zero on give what C10-C17 are about; a negative order gives an exception wherever it would
give a number. -/
theorem interp_order_partial (x : F) (X Y : Arr F) :
    (∀ d : ℕ, linearInterp1Z x X Y d = (match linearInterp1 x X Y d with | none => .zeroDiv | some v => .ret v) ∧
      pchipInterp1Z x X Y d = (match pchipInterp1 x X Y d with | none => .zeroDiv | some v => .ret v)) ∧
    ∀ d : ℤ, d < 0 →
      (outside X (validRange2 X Y).1 (validRange2 X Y).2 x = false → (linearInterp1Z x X Y d = .indexError ∨ linearInterp1Z x X Y d = .zeroDiv) ∧
        (pchipInterp1Z x X Y d = .indexError ∨ pchipInterp1Z x X Y d = .zeroDiv)) ∧
      (outside X (validRange2 X Y).1 (validRange2 X Y).2 x = true → linearInterp1Z x X Y d = .ret nan ∧ pchipInterp1Z x X Y d = .ret nan) := by
  have hn : ∀ (f : Arr F → Arr F → ℕ → Option (List F)) (d : ℕ), ppinterp1Z f x X Y d = (match ppinterp1 f x X Y d with | none => .zeroDiv | some v => .ret v) := by
    intro f d
    unfold ppinterp1Z ppinterp1
    simp only [pvalZ_nat]
    by_cases h : outside X (validRange2 X Y).1 (validRange2 X Y).2 x = true
    · simp only [h, if_true]
    · simp only [h, if_false, Bool.false_eq_true]
      cases f X Y (pieceIndex X (validRange2 X Y).1 (validRange2 X Y).2 x) <;> rfl
  have hneg : ∀ (f : Arr F → Arr F → ℕ → Option (List F)) (d : ℤ), d < 0 →
      (outside X (validRange2 X Y).1 (validRange2 X Y).2 x = false → (ppinterp1Z f x X Y d = .indexError ∨ ppinterp1Z f x X Y d = .zeroDiv)) ∧
      (outside X (validRange2 X Y).1 (validRange2 X Y).2 x = true → ppinterp1Z f x X Y d = .ret nan) := by
    intro f d hd
    unfold ppinterp1Z
    constructor <;> intro h <;> simp only [h, if_true, if_false, Bool.false_eq_true]
    cases f X Y (pieceIndex X (validRange2 X Y).1 (validRange2 X Y).2 x) with
    | none => exact Or.inr rfl
    | some C => exact Or.inl (pvalZ_neg (fun r => by simp) _ _ hd)
  exact ⟨fun d => ⟨hn _ d, hn _ d⟩, fun d hd => ⟨fun h => ⟨(hneg _ d hd).1 h, (hneg _ d hd).1 h⟩, fun h => ⟨(hneg _ d hd).2 h, (hneg _ d hd).2 h⟩⟩⟩

/-- **C182** (violated) With coefficients computed beforehand a negative order is not refused: within the data, memory behind the row of coefficients is read,
whatever the coefficients are. -/
theorem ppval_order (x : F) (X : Arr F) (C : PPC F) :
    (∀ d : ℕ, ppval1Z x X C d = .ret (ppval1 x X C d)) ∧
    ∀ d : ℤ, d < 0 → ppval1Z x X C d = if outside X (validRange2 X C.lastCol).1 (validRange2 X C.lastCol).2 x then .ret nan else .oob := by
  constructor
  · intro d
    unfold ppval1Z ppval1
    simp only [pvalZ_nat]
    split_ifs <;> rfl
  · intro d hd
    unfold ppval1Z
    simp only [pvalZ_neg (fun r => by simp : ∀ r : F, (Ev.oob : Ev F) ≠ .ret r) _ _ hd]

/-- **C182** (witness) The same call on the same data is refused with one family of functions and reads outside an array with the other; outside the data neither is
refused. -/
theorem negative_order_accepted :
    let X : Arr (Fl ℚ) := Arr.ofList [.fin 0, .fin 1, .fin 3]
    let Y : Arr (Fl ℚ) := Arr.ofList [.fin 35, .fin 36, .fin 37]
    ppval1Z (.fin 2) X (linearCoeffs1 X Y) (-1) = .oob ∧ linearInterp1Z (.fin 2) X Y (-1) = .indexError ∧ pchipInterp1Z (.fin 2) X Y (-1) = .indexError ∧
      linearInterp1Z (.fin 4) X Y (-1) = .ret .nan ∧ linearInterp1Z (.fin 2) X Y 1 = .ret (.fin (1 / 2)) := by
  decide +kernel

end Deriv
