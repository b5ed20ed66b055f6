import Verif.Props.UnitsOmega
import Verif.Model.Label
set_option linter.unusedSectionVars false

/-!
# Veronis density in other units (C143)
-/

namespace Interp
open FloatLike
open Fl hiding nan
variable {α : Type*} [Field α] [LinearOrder α] [IsStrictOrderedRing α] {h a b : α} (hh : 0 < h) (ha : 0 < a)
include hh ha

theorem horner1_sc (M : ℕ → Fl α) (x : Fl α) : ∀ (C : List (Fl α)) (o : ℕ) (y : Fl α), C ≠ [] →
    (((scRow h a b C).take (C.length - 1)).zipIdx o).foldl (fun y co => y * sc h x + co.1 * M co.2) (sc (a / h ^ C.length) y) =
      sc (a / h) (((C.take (C.length - 1)).zipIdx o).foldl (fun y co => y * x + co.1 * M co.2) y)
  | [], _, _, hC => absurd rfl hC
  | [c], o, y, _ => by
    show sc (a / h ^ 1) y = sc (a / h) y
    rw [pow_one]
  | c :: d :: r, o, y, _ => by
    have hp : ∀ n : ℕ, (0 : α) < a / h ^ n := fun n => div_pos ha (pow_pos hh n)
    have e : a / h ^ (r.length + 1 + 1) * h = a / h ^ (r.length + 1) := by
      rw [pow_succ h (r.length + 1)]
      field_simp
    show (((scRow h a b (d :: r)).take r.length).zipIdx (o + 1)).foldl _ (sc (a / h ^ (r.length + 1 + 1)) y * sc h x + sc (a / h ^ (r.length + 1)) c * M o) = _
    rw [sc_mul_sc (hp _) hh, e, sc_mul (hp _), sc_add (hp _)]
    exact horner1_sc M x (d :: r) (o + 1) (y * x + c * M o) (by simp)

theorem pval1_sc (x : Fl α) (C : List (Fl α)) (hC : C ≠ []) : pval (sc h x) (scRow h a b C) 1 = sc (a / h) (pval x C 1) := by
  unfold pval
  rw [if_neg one_ne_zero, if_neg one_ne_zero, scRow_length, ← horner1_sc hh ha (b := b) (fun o => multiplier C.length o 1) x C 0 (lit 0) hC]
  simp

end Interp

namespace UnitChange
open FloatLike Fzero Interp Traj VertSolve Label
open Fl hiding nan
variable {α : Type*} [Field α] [LinearOrder α] [IsStrictOrderedRing α] [FloorRing α]

/-- The coefficient functions `make_pp(interp, kind="1", out="coeffs", nans=True)`, `/repo/neutralocean/label.py` line 162
(`/repo/neutralocean/ppinterp/tools.py`, `make_pp`). -/
def ppcNan {F : Type*} [FloatLike F] : PPKind → Arr F → Arr F → Option (PPC F)
  | .linear, X, Y => some (linearCoeffs1 X Y)
  | .pchip, X, Y => pchipCoeffs1 X Y

variable {u : Change α} (hu : u.Pos)
include hu

omit hu in
theorem ppcNan_row {F : Type*} [FloatLike F] {kind : PPKind} {X Y : Arr F} {C : PPC F} (h : ppcNan kind X Y = some C) (i : ℕ) : C.row i ≠ [] := by
  cases kind with
  | linear =>
    obtain rfl := Option.some.inj h
    exact List.cons_ne_nil _ _
  | pchip =>
    have hrow : ∀ {k K j r}, pchipRow X Y k K j = some r → r ≠ [] := by
      intro k K j r hr
      unfold pchipRow hermite at hr
      simp only [Option.bind_eq_bind, Option.bind_eq_some_iff, Option.pure_def, Option.some.injEq] at hr
      obtain ⟨_, _, _, _, _, _, _, _, _, _, rfl⟩ := hr
      exact List.cons_ne_nil _ _
    have h : pchipCoeffsAux X Y (validRange2 X Y).1 (validRange2 X Y).2 = some C := h
    generalize (validRange2 X Y).1 = k, (validRange2 X Y).2 = K at h
    unfold pchipCoeffsAux at h
    dsimp only at h
    split_ifs at h with h1 h2 h3
    · obtain rfl := Option.some.inj h
      dsimp only
      split_ifs with h4
      · cases hr : pchipRow X Y k K i with
        | none => exact List.cons_ne_nil _ _
        | some r => exact hrow hr
      · exact List.cons_ne_nil _ _
    · simp only [Option.bind_eq_bind, Option.bind_eq_some_iff, Option.pure_def, Option.some.injEq] at h
      obtain ⟨_, _, rfl⟩ := h
      dsimp only
      split_ifs <;> exact List.cons_ne_nil _ _
    · obtain rfl := Option.some.inj h
      exact List.cons_ne_nil _ _

theorem ppcNan_units (kind : PPKind) {a b : α} (ha : 0 < a) (X Y : Arr (Fl α)) :
    ppcNan kind (X.map u.P) (Y.map (aff a b)) = (ppcNan kind X Y).map (scPPC u.h a b) := by
  cases kind with
  | linear => exact congrArg some (linearCoeffs1_sc hu.h ha X Y)
  | pchip =>
    show pchipCoeffsAux _ _ (validRange2 (X.map (sc u.h)) (Y.map (aff a b))).1 (validRange2 (X.map (sc u.h)) (Y.map (aff a b))).2 = _
    rw [validRange2_sc hu.h ha]
    exact pchipCoeffsAux_sc hu.h ha X Y _ _

section
variable {e e' : Fl α → Fl α → Fl α → Fl α × Fl α} (he : u.EosST e e') {P : Arr (Fl α)} {C D : PPC (Fl α)} (hC : ∀ i, C.row i ≠ []) (hD : ∀ i, D.row i ≠ [])
include he hC hD

theorem integrand_units (k : ℕ) (x : Fl α) :
    integrand e' (P.map u.P) (scPPC u.h u.aS u.bS C) (scPPC u.h u.aT u.bT D) k (u.P x) = sc (u.k / u.h) (integrand e P C D k x) := by
  unfold integrand
  have e1 : u.P x - (P.map u.P).get k = sc u.h (x - P.get k) := sc_sub hu.h _ _
  have h1 := pval_sc hu.h hu.aS (b := u.bS) (x - P.get k) (C.row k) (hC k)
  have h2 := pval_sc hu.h hu.aT (b := u.bT) (x - P.get k) (D.row k) (hD k)
  have h3 := pval1_sc hu.h hu.aS (b := u.bS) (x - P.get k) (C.row k) (hC k)
  have h4 := pval1_sc hu.h hu.aT (b := u.bT) (x - P.get k) (D.row k) (hD k)
  dsimp only [scPPC]
  rw [e1, h1, h2, h3, h4]
  have h5 := he (pval (x - P.get k) (C.row k) 0) (pval (x - P.get k) (D.row k) 0) x
  unfold Change.S Change.T at h5
  rw [h5]
  dsimp only
  have hk := hu.k; have hS := hu.aS; have hT := hu.aT; have hh := hu.h
  rw [sc_mul_sc (div_pos hk hS) (div_pos hS hh), sc_mul_sc (div_pos hk hT) (div_pos hT hh), div_mul_div_cancel₀ hS.ne', div_mul_div_cancel₀ hT.ne',
    sc_add (div_pos hk hh)]

omit he hC hD in
theorem linspace_units (x y : Fl α) (n i : ℕ) : linspace (u.P x) (u.P y) n i = u.P (linspace x y n i) := by
  unfold linspace Change.P
  split_ifs
  · rfl
  · rfl
  · rw [sc_sub hu.h, sc_mul hu.h, sc_add hu.h]

omit he hC hD in
theorem trapz_units {y y' x x' : ℕ → Fl α} (hx : ∀ i, x' i = u.P (x i)) (hy : ∀ i, y' i = sc (u.k / u.h) (y i)) (n : ℕ) :
    trapz y' x' n = u.drho (trapz y x n) := by
  unfold trapz
  have hk := hu.k; have hh := hu.h
  have key : ∀ (l : List ℕ) (s : Fl α), l.foldl (fun s i => s + (x' (i + 1) - x' i) * (y' (i + 1) + y' i) / lit 2) (u.drho s) =
      u.drho (l.foldl (fun s i => s + (x (i + 1) - x i) * (y (i + 1) + y i) / lit 2) s) := by
    intro l
    induction l with
    | nil => intro s; rfl
    | cons i l ih =>
      intro s
      simp only [List.foldl_cons]
      rw [← ih]
      congr 1
      rw [hx, hx, hy, hy]
      unfold Change.P Change.drho
      rw [sc_sub hh, sc_add (div_pos hk hh), sc_mul_sc hh (div_pos hk hh), mul_div_cancel₀ _ hh.ne', sc_div hk, sc_add hk]
  rw [← key, drho_zero]

theorem intXK_units (dp p : Fl α) (k : ℕ) :
    intXK e' (P.map u.P) (scPPC u.h u.aS u.bS C) (scPPC u.h u.aT u.bT D) (u.P dp) (u.P p) k = (intXK e P C D dp p k).map u.drho := by
  unfold intXK
  have e1 : sdiv ((P.map u.P).get (k + 1) - u.P p) (u.P dp) = sdiv (P.get (k + 1) - p) dp := by
    show sdiv (sc u.h (P.get (k + 1)) - sc u.h p) (sc u.h dp) = _
    rw [sc_sub hu.h, sdiv_sc hu.h hu.h, div_self hu.h.ne']
    cases sdiv (P.get (k + 1) - p) dp <;> simp [sc_one]
  rw [e1]
  cases sdiv (P.get (k + 1) - p) dp with
  | none => rfl
  | some q =>
    dsimp only
    cases FloatCeil.ceilInt q with
    | none => rfl
    | some c =>
      dsimp only
      split_ifs
      · rfl
      · rw [Option.map_some]
        congr 1
        refine trapz_units hu (fun i => linspace_units hu _ _ _ _) (fun i => ?_) _
        show integrand e' _ _ _ k (linspace (u.P p) (u.P (P.get (k + 1))) _ i) = _
        rw [linspace_units hu]
        exact integrand_units hu he hC hD k _

theorem intUp_units (dp p0 p1 : Fl α) :
    intUp e' (P.map u.P) (scPPC u.h u.aS u.bS C) (scPPC u.h u.aT u.bT D) (u.P dp) (u.P p0) (u.P p1) = (intUp e P C D dp p0 p1).map u.drho := by
  have hpe : ∀ p, pieceEnd (P.map u.P) (u.P p) = pieceEnd P p := by
    intro p
    unfold pieceEnd
    have : searchsorted (P.map u.P) (u.P p) = searchsorted P p := searchsorted_sc hu.h P p
    rw [this]
  unfold intUp
  simp only [hpe, intXK_units hu he hC hD]
  have key : ∀ (l : List ℕ) (d : Fl α),
      l.foldlM (fun d k => (intXK e' (P.map u.P) (scPPC u.h u.aS u.bS C) (scPPC u.h u.aT u.bT D) (u.P dp) ((P.map u.P).get k) k).map (fun y => d + y)) (u.drho d) =
      (l.foldlM (fun d k => (intXK e P C D dp (P.get k) k).map (fun y => d + y)) d).map u.drho := by
    intro l
    induction l with
    | nil => intro d; rfl
    | cons k l ih =>
      intro d
      simp only [List.foldlM_cons]
      have e2 : intXK e' (P.map u.P) (scPPC u.h u.aS u.bS C) (scPPC u.h u.aT u.bT D) (u.P dp) ((P.map u.P).get k) k = _ := intXK_units hu he hC hD dp (P.get k) k
      rw [e2]
      cases intXK e P C D dp (P.get k) k with
      | none => rfl
      | some y =>
        show List.foldlM _ (u.drho d + u.drho y) l = Option.map _ (List.foldlM _ (d + y) l)
        rw [← ih]
        congr 1
        exact sc_add hu.k _ _
  cases intXK e P C D dp p0 (pieceEnd P p0 - 1) with
  | none => rfl
  | some d =>
    simp only [Option.map_some, Option.bind_eq_bind, Option.bind_some]
    rw [key]
    cases List.foldlM (fun d k => (intXK e P C D dp (P.get k) k).map (fun y => d + y)) d (List.range' (pieceEnd P p0) (pieceEnd P p1 - pieceEnd P p0)) with
    | none => rfl
    | some d' =>
      cases intXK e P C D dp p1 (pieceEnd P p1 - 1) with
      | none => rfl
      | some y => exact congrArg some (sc_sub hu.k d' y)

theorem intDlrpd_units (dp p1 p0 : Fl α) :
    intDlrpd e' (P.map u.P) (scPPC u.h u.aS u.bS C) (scPPC u.h u.aT u.bT D) (u.P dp) (u.P p1) (u.P p0) = (intDlrpd e P C D dp p1 p0).map u.drho := by
  unfold intDlrpd
  have g : ∀ i, (P.map u.P).get i = sc u.h (P.get i) := fun i => rfl
  have z : (P.map u.P).size = P.size := rfl
  simp only [g, z, intUp_units hu he hC hD]
  unfold Change.P
  rw [sc_add hu.h, sc_add hu.h, sc_isNaN hu.h, sc_lt hu.h, sc_lt hu.h, sc_lt hu.h, sc_lt hu.h, sc_le hu.h]
  split_ifs
  · rfl
  · rw [Option.map_map, Option.map_map]
    congr 1
    funext d
    exact sc_mul hu.k _ _
  · rw [Option.map_map, Option.map_map]
    congr 1
    funext d
    exact sc_mul hu.k _ _

end

/-- **Veronis density**: in other units, with the same factor `b`, it is the same density, or raises the same exceptions. -/
theorem veronis_units {eos eos'} (hq : u.Eos eos eos') {e e'} (he : u.EosST e e') (kind : PPKind) (c : Cast (Fl α)) (p1 : Fl α) (p0 : Option (Fl α))
    (pref b dp : Fl α) :
    veronis (ppcNan kind) eos' e' (u.cast c).S (u.cast c).T (u.cast c).P (u.P p1) (p0.map u.P) (u.P pref) b (u.P dp) =
      (veronis (ppcNan kind) eos e c.S c.T c.P p1 p0 pref b dp).map u.rho := by
  unfold veronis
  have a1 : ppcNan kind (u.cast c).P (u.cast c).S = _ := ppcNan_units hu kind hu.aS c.P c.S
  have a2 : ppcNan kind (u.cast c).P (u.cast c).T = _ := ppcNan_units hu kind hu.aT c.P c.T
  rw [a1, a2]
  cases hC : ppcNan kind c.P c.S with
  | none => rfl
  | some C =>
    cases hD : ppcNan kind c.P c.T with
    | none => rfl
    | some D =>
      simp only [Option.map_some, Option.bind_eq_bind, Option.bind_some]
      have a3 : (p0.map u.P).getD ((u.cast c).P.get 0) = u.P (p0.getD (c.P.get 0)) := by cases p0 <;> rfl
      rw [a3]
      generalize p0.getD (c.P.get 0) = q
      unfold veronisPP
      have a4 : intDlrpd e' (u.cast c).P _ _ _ _ _ = _ := intDlrpd_units hu he (P := c.P) (ppcNan_row hC) (ppcNan_row hD) dp p1 q
      rw [a4, Option.map_map, Option.map_map]
      congr 1
      funext d
      show potDens eos' (c.P.map u.P) (scPPC u.h u.aS u.bS C) (scPPC u.h u.aT u.bT D) (u.P pref) (u.P q) + b * u.drho d = u.rho _
      have a5 : potDens eos' (c.P.map u.P) (scPPC u.h u.aS u.bS C) (scPPC u.h u.aT u.bT D) (u.P pref) (u.P q) = u.rho (potDens eos c.P C D pref q) := by
        unfold potDens
        rw [ppval1Two_units hu (ppcNan_row hC) (ppcNan_row hD)]
        exact hq _ _ _
      rw [a5]
      unfold Change.drho Change.rho
      rw [mul_sc hu.k, aff_add_sc hu.k]

/-! ## Example: pressure in Pa, temperature in K, and density in g/l anomaly from 1000 -/

/-- dbar to Pa, Celsius to Kelvin, density less 1000 -/
def verChange : Change ℚ := ⟨1, 0, 1, 27315 / 100, 10000, 1, -1000⟩

omit hu in
theorem verChange_pos : verChange.Pos := ⟨one_pos, one_pos, by decide +kernel, one_pos⟩

/-- density in dbar and Celsius -/
def verEos (s t p : Fl ℚ) : Fl ℚ := fin 1000 + s - t * (fin 1 + p)
/-- its derivatives -/
def verEosST (_ _ p : Fl ℚ) : Fl ℚ × Fl ℚ := (fin 1, -(fin 1 + p))
/-- density anomaly in Pa and Kelvin -/
def verEos' (s t p : Fl ℚ) : Fl ℚ := fin 1000 + s - (t + fin (-(27315 / 100))) * (fin 1 + p * fin (1 / 10000)) + fin (-1000)
/-- its derivatives -/
def verEosST' (_ _ p : Fl ℚ) : Fl ℚ × Fl ℚ := (fin 1, -(fin 1 + p * fin (1 / 10000)))
/-- a cast with a dry bottom -/
def verCast : Cast (Fl ℚ) := ⟨.ofList [fin 34, fin 35, fin 35, Fl.nan], .ofList [fin 20, fin 15, fin 5, Fl.nan], .ofList [fin 0, fin 10, fin 30, fin 60]⟩

omit hu in
theorem verEosST_units : verChange.EosST verEosST verEosST' := by
  intro s t p
  have h1 : verChange.k / verChange.aS = 1 := by decide +kernel
  have h2 : verChange.k / verChange.aT = 1 := by decide +kernel
  rw [h1, h2, sc_one, sc_one]
  show (fin 1, -(fin 1 + sc 10000 p * fin (1 / 10000))) = (fin 1, -(fin 1 + p))
  congr 3
  have e : (0 : ℚ) < 10000 := by norm_num
  cases p with
  | nan => rfl
  | pinf => rw [sc_pinf e]; decide +kernel
  | ninf => rw [sc_ninf e]; decide +kernel
  | fin p => simp [sc]; ring

omit hu in
theorem verEos_units : verChange.Eos verEos verEos' := by
  intro s t p
  have e : (0 : ℚ) < 10000 := by norm_num
  have e1 : verChange.P p * fin (1 / 10000) = p := by
    show sc 10000 p * _ = p
    cases p with
    | nan => rfl
    | pinf => rw [sc_pinf e]; decide +kernel
    | ninf => rw [sc_ninf e]; decide +kernel
    | fin p => simp [sc]; ring
  have e2 : verChange.T t + fin (-(27315 / 100)) = t := by
    show aff 1 (27315 / 100) t + _ = t
    cases t with
    | nan => rfl
    | pinf => decide +kernel
    | ninf => decide +kernel
    | fin t => simp [aff, sc]
  have e3 : verChange.S s = s := by
    show aff 1 0 s = s
    cases s with
    | nan => rfl
    | pinf => decide +kernel
    | ninf => decide +kernel
    | fin s => simp [aff, sc]
  unfold verEos'
  rw [e1, e2, e3]
  show _ = sc 1 _ + _
  rw [sc_one]
  rfl

example : veronis (ppcNan .linear) verEos verEosST verCast.S verCast.T verCast.P (fin 20) none (fin 0) (fin 1) (fin 3) = some (fin 1125) ∧
    veronis (ppcNan .linear) verEos' verEosST' (verChange.cast verCast).S (verChange.cast verCast).T (verChange.cast verCast).P (fin 200000) none (fin 0) (fin 1)
      (fin 30000) = some (fin 125) := by
  constructor
  · decide +kernel
  · have := veronis_units verChange_pos verEos_units verEosST_units .linear verCast (fin 20) none (fin 0) (fin 1) (fin 3)
    have h : veronis (ppcNan .linear) verEos verEosST verCast.S verCast.T verCast.P (fin 20) none (fin 0) (fin 1) (fin 3) = some (fin 1125) := by decide +kernel
    rw [h] at this
    refine Eq.trans ?_ (this.trans ?_)
    · have h1 : verChange.P (fin 20) = fin 200000 := by decide +kernel
      have h2 : verChange.P (fin 0) = fin 0 := by decide +kernel
      have h3 : verChange.P (fin 3) = fin 30000 := by decide +kernel
      rw [h1, h2, h3]
      rfl
    · decide +kernel

end UnitChange
