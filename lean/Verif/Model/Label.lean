import Verif.Model.Interp
import Mathlib.Algebra.Order.Floor.Ring

/-!
# Model of `/repo/neutralocean/label.py` (Veronis density)
-/

/-- Number systems with `int(np.ceil(x))` (`/repo/neutralocean/label.py` line 237).  `none`: `x` is NaN or infinite,
where the conversion has no meaning and the array allocation that follows fails. -/
class FloatCeil (F : Type*) extends FloatLike F where
  ceilInt : F → Option ℤ

/-- The exact instance: the ceiling function. -/
instance {α : Type*} [Field α] [LinearOrder α] [FloorRing α] : FloatCeil (Fl α) where
  ceilInt
    | Fl.fin x => some ⌈x⌉
    | _ => none

namespace Label
open FloatLike Interp
variable {F : Type*} [FloatCeil F]

/-- Entry `i` of `np.linspace(a, b, n)`, `/repo/neutralocean/label.py` line 239: the last entry is `b` itself.
Simplification: the order of the multiplication and the division by `n - 1`. -/
def linspace (a b : F) (n i : ℕ) : F :=
  if i = 0 then a else if i + 1 = n then b else a + (b - a) * (lit i / lit ((n - 1 : ℕ) : ℚ))

/-- `np.trapz(y_, x=p_)` for arrays of length `n`, `/repo/neutralocean/label.py` line 264. -/
def trapz (y x : ℕ → F) (n : ℕ) : F :=
  (List.range (n - 1)).foldl (fun s i => s + (x (i + 1) - x i) * (y (i + 1) + y i) / lit 2) (lit 0)

/-- The integrand at position `x` on piece `k`, `/repo/neutralocean/label.py` lines 248-263. -/
def integrand (eosST : F → F → F → F × F) (P : Arr F) (S T : PPC F) (k : ℕ) (x : F) : F :=
  let dx := x - P.get k
  let r := eosST (pval dx (S.row k) 0) (pval dx (T.row k) 0) x
  r.1 * pval dx (S.row k) 1 + r.2 * pval dx (T.row k) 1

/-- `_int_x_k(p, k, dp, P, Sppc, Tppc, eos_s_t)`, `/repo/neutralocean/label.py` lines 231-266.
`none`: division by `dp = 0`, or a negative array length. -/
def intXK (eosST : F → F → F → F × F) (P : Arr F) (S T : PPC F) (dp p : F) (k : ℕ) : Option F :=
  match sdiv (P.get (k + 1) - p) dp with
  | none => none
  | some q =>
    match FloatCeil.ceilInt q with
    | none => none
    | some c =>
      if c + 1 < 0 then none
      else
        let n := (c + 1).toNat
        let x := linspace p (P.get (k + 1)) n
        some (trapz (fun i => integrand eosST P S T k (x i)) x n)

/-- `max(1, np.searchsorted(P, p))`, `/repo/neutralocean/label.py` lines 212-213. -/
def pieceEnd (P : Arr F) (p : F) : ℕ := max 1 (searchsorted P p)

/-- Lines 204-227 of `/repo/neutralocean/label.py`, after the swap of the limits: the integral from `p0` to `p1`. -/
def intUp (eosST : F → F → F → F × F) (P : Arr F) (S T : PPC F) (dp p0 p1 : F) : Option F := do
  let k0 := pieceEnd P p0
  let k1 := pieceEnd P p1
  let d ← intXK eosST P S T dp p0 (k0 - 1)
  let d ← (List.range' k0 (k1 - k0)).foldlM
    (fun d k => (intXK eosST P S T dp (P.get k) k).map (fun y => d + y)) d
  let y ← intXK eosST P S T dp p1 (k1 - 1)
  return d - y

/-- `_int_dlrpd_dz(p1, p0, P, Sppc, Tppc, dp, eos_s_t)`, `/repo/neutralocean/label.py` lines 193-227.
`P` is nonempty. -/
def intDlrpd (eosST : F → F → F → F × F) (P : Arr F) (S T : PPC F) (dp p1 p0 : F) : Option F :=
  if isNaN (p0 + p1 + P.get 0) || lt p0 (P.get 0) || lt (P.get (P.size - 1)) p0 ||
      lt p1 (P.get 0) || lt (P.get (P.size - 1)) p1 then some nan
  else if le p0 p1 then (intUp eosST P S T dp p0 p1).map (fun d => d * lit 1)
  else (intUp eosST P S T dp p1 p0).map (fun d => d * lit (-1))

/-- `pot_dens_1(p0, p_ref, P, Sppc, Tppc, eos)`, `/repo/neutralocean/label.py` lines 186-189. -/
def potDens (eos : F → F → F → F) (P : Arr F) (S T : PPC F) (pref p0 : F) : F :=
  let st := ppval1Two p0 P S T 0
  eos st.1 st.2 pref

/-- `_veronis` with `_veronis_affine`, `/repo/neutralocean/label.py` lines 172-182. -/
def veronisPP (eos : F → F → F → F) (eosST : F → F → F → F × F) (P : Arr F) (S T : PPC F)
    (pref b dp p1 p0 : F) : Option F :=
  (intDlrpd eosST P S T dp p1 p0).map (fun d => potDens eos P S T pref p0 + b * d)

/-- `veronis(p1, S, T, P, p0, p_ref, b, dp, interp, ...)`, `/repo/neutralocean/label.py` lines 8-168, with
`ppc` the coefficient function chosen by `interp` (`none`: it raises) and `p0 = none` for the default. -/
def veronis (ppc : Arr F → Arr F → Option (PPC F)) (eos : F → F → F → F) (eosST : F → F → F → F × F)
    (S T P : Arr F) (p1 : F) (p0 : Option F) (pref b dp : F) : Option F := do
  let Sppc ← ppc P S
  let Tppc ← ppc P T
  veronisPP eos eosST P Sppc Tppc pref b dp p1 (p0.getD (P.get 0))

end Label
