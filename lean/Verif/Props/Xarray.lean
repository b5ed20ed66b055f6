import Verif.Model.Xarray
import Verif.Props.Lib

/-! # xarray containers (C106, C107, C108) -/

namespace Xarray
open FloatLike Lib

set_option linter.unusedSectionVars false

variable {F : Type*} [FloatLike F]

theorem map_update {dims : List String} {z : String} (hz : z ∈ dims) (hd : dims.Nodup) (i : String → ℕ) (k : ℕ) :
    ((dims.eraseIdx (dims.idxOf z)).map i).insertIdx (dims.idxOf z) k = dims.map (Function.update i z k) := by
  have hlt : dims.idxOf z < dims.length := List.idxOf_lt_length_iff.2 hz
  have h1 : (dims.eraseIdx (dims.idxOf z)).insertIdx (dims.idxOf z) z = dims := by
    have := List.insertIdx_eraseIdx_getElem hlt
    rwa [List.getElem_idxOf] at this
  conv_rhs => rw [← h1, List.map_insertIdx, Function.update_self]
  congr 1
  apply List.map_congr_left
  intro x hx
  have : x ≠ z := by
    rintro rfl
    rw [← List.erase_eq_eraseIdx_of_idxOf rfl] at hx
    exact hd.not_mem_erase hx
  rw [Function.update_of_ne this]

/-- Specification: `vert_dim` names the dimension `z`, or numbers it as an index into the dimensions does. -/
def Names (dims : List String) (z : String) : Dim → Prop
  | .name s => s = z
  | .int d => d = dims.idxOf z ∨ d = (dims.idxOf z : ℤ) - dims.length

theorem Names.dimName {b : Box} {z : String} {d : Dim} (hz : z ∈ b.dims) (h : Names b.dims z d) : dimName b d = .ok z := by
  have hlt : b.dims.idxOf z < b.dims.length := List.idxOf_lt_length_iff.2 hz
  have hget : b.dims.getD (b.dims.idxOf z) "" = z := by
    rw [List.getD_eq_getElem?_getD, List.getElem?_eq_getElem hlt, List.getElem_idxOf, Option.getD_some]
  cases d with
  | name s => cases h; rfl
  | int d =>
    have : npIdx b.dims.length d = some (b.dims.idxOf z) := by
      unfold npIdx
      rcases h with rfl | rfl
      · simp [hlt]
      · rw [if_neg (by omega), if_pos (by omega)]
        congr 1
        omega
    simp only [Xarray.dimName, this, hget]

theorem Names.process {dims : List String} {z : String} {d : Dim} (hz : z ∈ dims) (h : Names dims z d) :
    processVertDim (some dims) dims.length d = .ok (dims.idxOf z) := by
  have hlt : dims.idxOf z < dims.length := List.idxOf_lt_length_iff.2 hz
  cases d with
  | name s =>
    cases h
    simp only [processVertDim, if_pos hz, Nat.mod_eq_of_lt hlt]
  | int d =>
    have : d % (dims.length : ℤ) = dims.idxOf z := by
      rcases h with rfl | rfl
      · exact Int.emod_eq_of_lt (by omega) (by omega)
      · rw [Int.sub_emod_right]; exact Int.emod_eq_of_lt (by omega) (by omega)
    simp only [processVertDim, this, Int.toNat_natCast]

/-- Specification: what the container of the result of `b` should be: without the dimension and the coordinate `z`. -/
def drop (b : Box) (z : String) : Box where
  dims := b.dims.erase z
  shape := b.shape.eraseIdx (b.dims.idxOf z)
  name := b.name
  attrs := b.attrs
  coords k := if k = z then none else (b.coords k).map fun l => l.filter (· ≠ z)

theorem xrIn_drop {b : Box} {z : String} {d : Dim} (x : List ℕ → F) (hz : z ∈ b.dims) (h : Names b.dims z d)
    (hc : (b.coords z).isSome) : xrIn d (.xr b x) = .ok (some (drop b z)) := by
  simp only [xrIn, h.dimName hz, if_pos hz, dropVars, isel0, Option.isSome_map, hc, if_true]
  congr 2
  unfold drop
  congr 1
  rw [List.erase_eq_eraseIdx_of_idxOf rfl]

/-- Specification: `P` at the labels `i`, level `k`: an array like `S`, or one vector for all casts. -/
def Pressure (b : Box) (z : String) (pr : (String → ℕ) → ℕ → F) : PArg F → Prop
  | .full P => P.shape = b.shape ∧ ∀ i k, pr i k = P.get (b.dims.map (Function.update i z k))
  | .small size P => size = b.shape.getD (b.dims.idxOf z) 0 ∧ ∀ i k, pr i k = P k

/-- **C106.** Surfaces of `DataArray`s: for a calculation that works cast by cast (`g` of the salinity, temperature and pressure
of the cast), wherever the vertical dimension `z` is and whether it is given by name or number, the results are `DataArray`s
with the dimensions of `S` except `z`, in the same order, without the coordinate `z`, and the values at the labels `i` come from the
cast at the labels `i`. `s` and `t` have the name and the attributes of `S` and `T`, and `p` the name of `P`. -/
theorem surf_labels (g : (ℕ → F) → (ℕ → F) → (ℕ → F) → F × F × F) {bS bT : Box} {xS xT : List ℕ → F} {P : PXr F} {d : Dim} {z : String}
    {pr : (String → ℕ) → ℕ → F} (hz : z ∈ bS.dims) (hn : bS.dims.Nodup) (hl : bS.shape.length = bS.dims.length)
    (hd : Names bS.dims z d) (hT : bT.dims = bS.dims) (hT' : bT.shape = bS.shape) (hcS : (bS.coords z).isSome)
    (hcT : (bT.coords z).isSome) (hP : Pressure bS z pr P.data) :
    ∃ bp xs xt xp,
      surf (fun S T P m => g (fun k => S.get (m ++ [k])) (fun k => T.get (m ++ [k])) (fun k => P.get (m ++ [k])))
        (.xr bS xS) (.xr bT xT) P d = .ok (.xr (drop bS z) xs, .xr (drop bT z) xt, .xr bp xp) ∧
      bp.dims = bS.dims.erase z ∧ bp.shape = (drop bS z).shape ∧ bp.coords = (drop bS z).coords ∧ bp.name = P.tags.bind Prod.fst ∧
      (∀ i : String → ℕ, (xs ((bS.dims.erase z).map i), xt ((bS.dims.erase z).map i), xp ((bS.dims.erase z).map i)) =
        g (fun k => xS (bS.dims.map (Function.update i z k))) (fun k => xT (bS.dims.map (Function.update i z k))) (pr i)) ∧
      (∀ name attrs, P.tags = some (name, attrs) → ∀ k, bp.attrs k = (attrs k).orElse fun _ => bS.attrs k) ∧
      (P.tags = none → ∀ k, bp.attrs k = none) := by
  have hlt : bS.dims.idxOf z < bS.shape.length := by rw [hl]; exact List.idxOf_lt_length_iff.2 hz
  have hv : processVertDim (some bS.dims) bS.shape.length d = .ok (bS.dims.idxOf z) := by rw [hl]; exact hd.process hz
  have hTdrop : (drop bT z).shape = bS.shape.eraseIdx (bS.dims.idxOf z) := by simp only [drop, hT, hT']
  obtain ⟨S', T', P', hpc, hshape, hget⟩ : ∃ S' T' P', processCasts (some bS.dims) (⟨bS.shape, xS⟩ : Nd F) ⟨bT.shape, xT⟩ P.data d = .ok (S', T', P') ∧
      S'.shape.dropLast = bS.shape.eraseIdx (bS.dims.idxOf z) ∧
      ∀ (i : String → ℕ) (k : ℕ), S'.get ((bS.dims.erase z).map i ++ [k]) = xS (bS.dims.map (Function.update i z k)) ∧
        T'.get ((bS.dims.erase z).map i ++ [k]) = xT (bS.dims.map (Function.update i z k)) ∧
        P'.get ((bS.dims.erase z).map i ++ [k]) = pr i k := by
    have hlen : ∀ i : String → ℕ, ((bS.dims.erase z).map i).length + 1 = bS.shape.length := by
      intro i
      rw [List.length_map, List.length_erase_of_mem hz]
      omega
    have hins : ∀ (i : String → ℕ) (k : ℕ), ((bS.dims.erase z).map i).insertIdx (bS.dims.idxOf z) k = bS.dims.map (Function.update i z k) := by
      intro i k
      rw [List.erase_eq_eraseIdx_of_idxOf rfl, map_update hz hn]
    obtain ⟨h1, h2⟩ := processCasts_spec (some bS.dims) (⟨bS.shape, xS⟩ : Nd F) ⟨bT.shape, xT⟩ d _ hlt hv (by simp [hT'])
    have hsh : ∀ S' T' P', processCasts (some bS.dims) (⟨bS.shape, xS⟩ : Nd F) ⟨bT.shape, xT⟩ P.data d = .ok (S', T', P') →
        S'.shape.dropLast = bS.shape.eraseIdx (bS.dims.idxOf z) := by
      intro S' T' P' e
      have : S' = contiguousCasts (⟨bS.shape, xS⟩ : Nd F) (bS.dims.idxOf z) := by
        unfold processCasts at e
        rw [hv] at e
        dsimp only at e
        split at e <;> cases e
        rfl
      rw [this, (contiguousCasts_spec (⟨bS.shape, xS⟩ : Nd F) _ hlt ((bS.dims.erase z).map fun _ => 0) 0 (hlen _)).2, List.dropLast_concat]
    cases hPd : P.data with
    | full Q =>
      rw [hPd] at hP hsh
      obtain ⟨S', T', P', e, e'⟩ := h2 Q (by rw [hP.1])
      refine ⟨S', T', P', e, hsh _ _ _ e, fun i k => ?_⟩
      have := e' _ k (hlen i)
      rw [hins] at this
      rw [hP.2]
      exact this
    | small size Q =>
      rw [hPd] at hP hsh
      obtain ⟨S', T', P', e, e'⟩ := h1 size Q hP.1
      refine ⟨S', T', P', e, hsh _ _ _ e, fun i k => ?_⟩
      have := e' _ k (hlen i)
      rw [hins] at this
      rw [hP.2]
      exact this
  have hS1 := xrIn_drop xS hz hd hcS
  have hT1 := xrIn_drop (b := bT) xT (by rw [hT]; exact hz) (by rw [hT]; exact hd) hcT
  have hval : ∀ i : String → ℕ,
      g (fun k => S'.get ((bS.dims.erase z).map i ++ [k])) (fun k => T'.get ((bS.dims.erase z).map i ++ [k]))
        (fun k => P'.get ((bS.dims.erase z).map i ++ [k])) =
      g (fun k => xS (bS.dims.map (Function.update i z k))) (fun k => xT (bS.dims.map (Function.update i z k))) (pr i) := by
    intro i
    congr 1
    · funext k; exact (hget i k).1
    · funext k; exact (hget i k).2.1
    · funext k; exact (hget i k).2.2
  unfold surf xrsIn
  simp only [hS1, hT1, toNp, dimsOf, hpc, hshape, xrOut, hTdrop, if_true, Option.map_some]
  have e1 : (drop bS z).shape = bS.shape.eraseIdx (bS.dims.idxOf z) := rfl
  rcases htag : P.tags with _ | ⟨name, attrs⟩
  · simp only [e1, if_true]
    refine ⟨_, _, _, _, rfl, rfl, rfl, rfl, rfl, fun i => ?_, fun _ _ h => (by cases h), fun _ _ => rfl⟩
    exact hval i
  · simp only [e1, if_true]
    refine ⟨_, _, _, _, rfl, rfl, rfl, rfl, rfl, fun i => ?_, fun _ _ h k => (by cases h; rfl), fun h => (by cases h)⟩
    exact hval i

/-! ## C107: the attributes of `p` -/

/-- **C107, partial.** Attributes that `P` has are those of `p`.  Missing: `p` should have no others. -/
theorem surf_attrs_partial {bS bT : Box} {xS xT : List ℕ → F} {P : PXr F} {d : Dim} {sxr txr : Option Box} {bp : Box} {name : Option String}
    {attrs : Attrs} (hP : P.tags = some (name, attrs)) (h : xrsIn (.xr bS xS) (.xr bT xT) P d = .ok (sxr, txr, some bp)) {k a : String}
    (hk : attrs k = some a) : bp.attrs k = some a := by
  unfold xrsIn at h
  split at h
  · split at h
    · rename_i s _ _ t _
      cases s with
      | none => cases h
      | some s =>
        rw [hP] at h
        cases h
        simp only [Attrs.update, hk]
        rfl
    all_goals cases h
  all_goals cases h

/-- **C107 is false:** every attribute of `S` that `P` has not, such as its units, is an attribute of `p`. -/
theorem surf_attrs_false {bS bT : Box} {xS xT : List ℕ → F} {P : PXr F} {d : Dim} {sxr txr : Option Box} {bp : Box} {name : Option String}
    {attrs : Attrs} (hP : P.tags = some (name, attrs)) (h : xrsIn (.xr bS xS) (.xr bT xT) P d = .ok (sxr, txr, some bp)) {k a : String}
    (hk : attrs k = none) (ha : bS.attrs k = some a) : bp.attrs k = some a := by
  unfold xrsIn at h
  split at h
  · split at h
    · rename_i s hs _ t _
      cases s with
      | none => cases h
      | some s =>
        have : s.attrs = bS.attrs := by
          simp only [xrIn] at hs
          split at hs
          · split_ifs at hs with h1
            unfold dropVars at hs
            split_ifs at hs with h2
            cases hs; rfl
          · cases hs
        rw [hP] at h
        cases h
        simp only [Attrs.update, hk, this, ha]
        rfl
    all_goals cases h
  all_goals cases h

/-! ## C108: vertical dimension without coordinate, or numbered beyond the dimensions -/

/-- **C108 is false:** a `DataArray` whose vertical dimension has no coordinate raises `ValueError`; -/
theorem surf_nocoord_false (f : Nd F → Nd F → Nd F → List ℕ → F × F × F) {bS : Box} {xS : List ℕ → F} (T : Arg F) (P : PXr F) {d : Dim} {z : String}
    (hz : z ∈ bS.dims) (hd : Names bS.dims z d) (hc : bS.coords z = none) : surf f (.xr bS xS) T P d = .valueError := by
  have : xrIn d (.xr bS xS) = (.valueError : Res (Option Box)) := by
    simp only [xrIn, hd.dimName hz, if_pos hz, dropVars, isel0, hc, Option.map_none, Option.isSome_none]
    rfl
  unfold surf xrsIn
  rw [this]

/-- and a number of the dimension that is accepted (modulo the number of dimensions) for ndarrays raises `IndexError`. -/
theorem surf_int_false (f : Nd F → Nd F → Nd F → List ℕ → F × F × F) {bS : Box} {xS : List ℕ → F} (T : Arg F) (P : PXr F) {k : ℤ}
    (hk : (bS.dims.length : ℤ) ≤ k ∨ k < -(bS.dims.length : ℤ)) :
    surf f (.xr bS xS) T P (.int k) = .indexError ∧
    ∀ n, 0 < n → ∃ v, processVertDim none n (.int k) = .ok v ∧ v < n := by
  constructor
  · have : npIdx bS.dims.length k = none := by
      unfold npIdx
      rcases hk with h | h
      · rw [if_pos (by omega), if_neg (by omega)]
      · rw [if_neg (by omega), if_neg (by omega)]
    unfold surf xrsIn
    simp only [xrIn, dimName, this]
  · intro n hn
    refine ⟨_, rfl, ?_⟩
    have := Int.emod_lt_of_pos k (by omega : (0 : ℤ) < n)
    have := Int.emod_nonneg k (by omega : (n : ℤ) ≠ 0)
    omega

/-- **C108, partial.** Plain arrays have no such condition: the calculation is done without containers. -/
theorem surf_np_partial (f : Nd F → Nd F → Nd F → List ℕ → F × F × F) (S T : Nd F) (P : PXr F) (d : Dim) {S' T' P' : Nd F}
    (h : processCasts none S T P.data d = .ok (S', T', P')) :
    surf f (.np S) (.np T) P d = .ok (.np ⟨S'.shape.dropLast, fun m => (f S' T' P' m).1⟩, .np ⟨S'.shape.dropLast, fun m => (f S' T' P' m).2.1⟩,
      .np ⟨S'.shape.dropLast, fun m => (f S' T' P' m).2.2⟩) := by
  unfold surf xrsIn
  simp only [xrIn, toNp, dimsOf, h, xrOut, Option.map_none]

/-- **C106.** Every `DataArray` returned has labels that fit its data: the shape of its container is the horizontal shape of `S`. -/
theorem surf_fits (f : Nd F → Nd F → Nd F → List ℕ → F × F × F) {S T : Arg F} {P : PXr F} {d : Dim} {s t p : Arg F}
    (h : surf f S T P d = .ok (s, t, p)) :
    ∃ S' T' P', processCasts (dimsOf S) (toNp S) (toNp T) P.data d = .ok (S', T', P') ∧
      (toNp s).shape = S'.shape.dropLast ∧ (toNp t).shape = S'.shape.dropLast ∧ (toNp p).shape = S'.shape.dropLast := by
  have hx : ∀ (a : Nd F) (b : Option Box) (r : Arg F), xrOut a b = .ok r → (toNp r).shape = a.shape := by
    intro a b r hr
    cases b with
    | none => cases hr; rfl
    | some b =>
      simp only [xrOut] at hr
      split_ifs at hr with hb
      cases hr
      exact hb
  unfold surf at h
  split at h
  · split at h
    · rename_i S' T' P' hp
      dsimp only at h
      split at h
      · rename_i h1 h2 h3
        cases h
        exact ⟨S', T', P', hp, hx _ _ _ h1, hx _ _ _ h2, hx _ _ _ h3⟩
      · cases h
    all_goals cases h
  all_goals cases h

/-- **C106.** Casts of temperature on another horizontal grid than those of salinity are rejected. -/
theorem surf_mismatch (f : Nd F → Nd F → Nd F → List ℕ → F × F × F) {bS bT : Box} {xS xT : List ℕ → F} {P : PXr F} {d : Dim}
    {z : String} {pr : (String → ℕ) → ℕ → F} (hz : z ∈ bS.dims) (hl : bS.shape.length = bS.dims.length) (hd : Names bS.dims z d)
    (hzT : z ∈ bT.dims) (hdT : Names bT.dims z d) (hcS : (bS.coords z).isSome) (hcT : (bT.coords z).isSome)
    (hP : Pressure bS z pr P.data) (hne : bT.shape.eraseIdx (bT.dims.idxOf z) ≠ bS.shape.eraseIdx (bS.dims.idxOf z)) :
    surf f (.xr bS xS) (.xr bT xT) P d = .valueError := by
  have hlt : bS.dims.idxOf z < bS.shape.length := by rw [hl]; exact List.idxOf_lt_length_iff.2 hz
  have hv : processVertDim (some bS.dims) bS.shape.length d = .ok (bS.dims.idxOf z) := by rw [hl]; exact hd.process hz
  have hc : ∃ P', processCasts (some bS.dims) ⟨bS.shape, xS⟩ ⟨bT.shape, xT⟩ P.data d =
      .ok (contiguousCasts ⟨bS.shape, xS⟩ (bS.dims.idxOf z), contiguousCasts ⟨bT.shape, xT⟩ (bS.dims.idxOf z), P') := by
    unfold processCasts
    rw [hv]
    dsimp only
    cases h : P.data with
    | full Q =>
      rw [h] at hP
      exact ⟨contiguousCasts Q (bS.dims.idxOf z), by simp only [processP]⟩
    | small size Q =>
      rw [h] at hP
      refine ⟨?_, ?_⟩
      rotate_left
      · simp only [processP, hP.1]
        simp
        rfl
  obtain ⟨P', hc⟩ := hc
  have hhs : (contiguousCasts (⟨bS.shape, xS⟩ : Nd F) (bS.dims.idxOf z)).shape.dropLast = bS.shape.eraseIdx (bS.dims.idxOf z) := by
    have hlen : ((bS.dims.erase z).map fun _ => 0).length + 1 = bS.shape.length := by
      rw [List.length_map, List.length_erase_of_mem hz]
      have := List.length_pos_of_mem hz
      omega
    rw [(contiguousCasts_spec (⟨bS.shape, xS⟩ : Nd F) _ hlt ((bS.dims.erase z).map fun _ => 0) 0 hlen).2, List.dropLast_concat]
  unfold surf xrsIn
  rw [xrIn_drop xS hz hd hcS, xrIn_drop xT hzT hdT hcT]
  simp only [dimsOf, toNp, hc]
  have : ∀ g, xrOut (⟨(contiguousCasts (⟨bS.shape, xS⟩ : Nd F) (bS.dims.idxOf z)).shape.dropLast, g⟩ : Nd F) (some (drop bT z)) = .valueError := by
    intro g
    simp only [xrOut]
    rw [if_neg]
    rw [hhs]
    exact hne
  rw [this]
  split
  · rename_i h _
    cases h
  · rfl


/-! ## Examples -/

/-- Salinity on `(z, y, x)` with units, and coordinates `z` and (if `c`) `lat` along `y`. -/
def demoS (c : Bool) : Box where
  dims := ["z", "y", "x"]
  shape := [4, 2, 3]
  name := some "salt"
  attrs k := if k = "units" then some "psu" else none
  coords k := if k = "z" ∧ c then some ["z"] else if k = "lat" then some ["y"] else none

def demoP : PXr (Fl ℚ) := ⟨.small 4 fun k => .fin k, some (some "pres", fun _ => none)⟩

example : "z" ∈ (demoS true).dims ∧ (demoS true).dims.Nodup ∧ (demoS true).shape.length = (demoS true).dims.length ∧
    Names (demoS true).dims "z" (.int (-3)) ∧ ((demoS true).coords "z").isSome ∧
    Pressure (demoS true) "z" (fun _ k => (.fin k : Fl ℚ)) demoP.data :=
  ⟨by decide, by decide, rfl, .inr (by decide), by decide, rfl, fun _ _ => rfl⟩

/-- The pressure of the surface has units "psu". -/
example : (match xrsIn (.xr (demoS true) (fun _ => (.fin 0 : Fl ℚ))) (.xr (demoS true) fun _ => .fin 0) demoP (.name "z") with
    | .ok (_, _, some b) => some (b.dims, b.name, b.attrs "units") | _ => none) = some (["y", "x"], some "pres", some "psu") := by
  decide +kernel

example (f : Nd (Fl ℚ) → Nd (Fl ℚ) → Nd (Fl ℚ) → List ℕ → Fl ℚ × Fl ℚ × Fl ℚ) :
    surf f (.xr (demoS false) fun _ => .fin 0) (.xr (demoS false) fun _ => .fin 0) demoP (.name "z") = .valueError :=
  surf_nocoord_false f _ _ (z := "z") (by decide) rfl rfl

/-- Temperature on a wider grid than salinity. -/
example (f : Nd (Fl ℚ) → Nd (Fl ℚ) → Nd (Fl ℚ) → List ℕ → Fl ℚ × Fl ℚ × Fl ℚ) :
    surf f (.xr (demoS true) fun _ => .fin 0) (.xr { demoS true with shape := [4, 2, 5] } fun _ => .fin 0) demoP (.name "z") = .valueError :=
  surf_mismatch f (z := "z") (pr := fun _ k => (.fin k : Fl ℚ)) (by decide) rfl rfl (by decide) rfl (by decide) (by decide) ⟨rfl, fun _ _ => rfl⟩
    (by decide)

end Xarray
