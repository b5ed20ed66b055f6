import Verif.Model.EosGsw
import Verif.Model.EosJmd95
import Verif.Model.EosJmdfwg06

/-!
# Model of `/repo/neutralocean/eos/tools.py` and of `_process_eos`

Functions of salinity, temperature and pressure or depth are `Fn`: they return the list of their outputs, or `none` for
`ZeroDivisionError`. The caches (`ft.lru_cache`) are in `Verif.Model.Cache`, `vectorize_eos` is in `Verif.Model.Gufunc`. Not modelled:
an unhashable `eos` fails in the cache already.
-/

namespace EosTools
open FloatLike Eos

/-- A function of three numbers with one or more outputs. -/
abbrev Fn (F : Type*) := F → F → F → Option (List F)

/-- What a user may pass for `eos`. `seq` is a tuple or list, `other` anything not a string, sequence or callable. -/
inductive Arg (F : Type*) where
  | str (name : String)
  | fn (f : Fn F)
  | seq (l : List (Arg F))
  | other

/-- The exceptions raised. -/
inductive Err where
  | value
  | type
  | attribute
deriving DecidableEq

variable {F : Type*} [FloatSqrt F]

/-- `modules`, `/repo/neutralocean/eos/tools.py` line 8. -/
def modules : String → Option String
  | "gsw" => some "specvol"
  | "jmd95" => some "rho"
  | "jmdfwg06" => some "rho"
  | _ => none

/-- Attribute lookup in a module of `/repo/neutralocean/eos/`, for the names `tools.py` can build
(`/repo/neutralocean/eos/gsw.py` lines 224, 343, 372; `jmd95.py` lines 87, 187, 319; `jmdfwg06.py` lines 72, 112, 184). -/
def attr : String → String → Option (Fn F)
  | "gsw", "specvol" => some fun s t p => some [Gsw.specvol s t p]
  | "gsw", "specvol_s_t" => some fun s t p => (Gsw.specvolST s t p).map fun r => [r.1, r.2]
  | "gsw", "specvol_p" => some fun s t p => (Gsw.specvolP s t p).map fun r => [r]
  | "jmd95", "rho" => some fun s t p => (Jmd95.rho s t p).map fun r => [r]
  | "jmd95", "rho_s_t" => some fun s t p => (Jmd95.rhoST s t p).map fun r => [r.1, r.2]
  | "jmd95", "rho_p" => some fun s t p => (Jmd95.rhoP s t p).map fun r => [r]
  | "jmdfwg06", "rho" => some fun s t p => (Jmdfwg06.rho s t p).map fun r => [r]
  | "jmdfwg06", "rho_s_t" => some fun s t p => (Jmdfwg06.rhoST s t p).map fun r => [r.1, r.2]
  | "jmdfwg06", "rho_p" => some fun s t p => (Jmdfwg06.rhoP s t p).map fun r => [r]
  | _, _ => none

/-- `x ** n` for `n ≥ 1` as repeated multiplication. -/
def fpow (x : F) : ℕ → F
  | 0 => lit 1
  | 1 => x
  | n + 2 => fpow x (n + 1) * x

/-- `make_bsq(fn, grav, rho_c, num_p_derivs)`, `/repo/neutralocean/eos/tools.py` lines 128-179.
Simplification: with several outputs each is multiplied by the factor (the code has a single output there). -/
def makeBsq (fn : Fn F) (grav rhoC : F) (n : ℕ) : Fn F :=
  let zToP := lit 1e-4 * grav * rhoC
  if n = 0 then fun s t z => fn s t (z * zToP)
  else
    let factor := fpow zToP n
    fun s t z => (fn s t (z * zToP)).map (·.map (· * factor))

/-- `_make_eos(eos, derivs, num_p_derivs, grav, rho_c)`, `/repo/neutralocean/eos/tools.py` lines 12-36. -/
def makeEos' (eos : Arg F) (derivs : String) (n : ℕ) (grav rhoC : Option F) : Except Err (Fn F) :=
  let base : Except Err (Fn F) :=
    match eos with
    | .str name =>
      match modules name with
      | some stem =>
        match attr name (stem ++ derivs) with
        | some f => .ok f
        | none => .error .attribute
      | none => .error .value
    | .fn f => .ok f
    | _ => .error .type
  match base with
  | .error e => .error e
  | .ok fn =>
    match grav, rhoC with
    | some g, some r => .ok (makeBsq fn g r n)
    | _, _ => .ok fn

/-- `make_eos(eos, grav, rho_c)`, `/repo/neutralocean/eos/tools.py` lines 39-84. -/
def makeEos (eos : Arg F) (grav rhoC : Option F) : Except Err (Fn F) := makeEos' eos "" 0 grav rhoC

/-- `make_eos_s_t(eos, grav, rho_c)`, `/repo/neutralocean/eos/tools.py` lines 87-105. -/
def makeEosST (eos : Arg F) (grav rhoC : Option F) : Except Err (Fn F) := makeEos' eos "_s_t" 0 grav rhoC

/-- `make_eos_p(eos, grav, rho_c)`, `/repo/neutralocean/eos/tools.py` lines 108-124. -/
def makeEosP (eos : Arg F) (grav rhoC : Option F) : Except Err (Fn F) := makeEos' eos "_p" 1 grav rhoC

/-- `_process_eos(eos, grav, rho_c, need_s_t)`, `/repo/neutralocean/lib.py` lines 367-390. -/
def processEos (eos : Arg F) (grav rhoC : Option F) (needST : Bool) : Except Err (Fn F × Option (Fn F)) :=
  match eos with
  | .str _ => do
    let st ← if needST then (makeEosST eos grav rhoC).map some else .ok none
    let e ← makeEos eos grav rhoC
    return (e, st)
  | _ =>
    if needST then
      let (e, st) : Arg F × Arg F :=
        match eos with
        | .seq [a, b] => (a, b)
        | _ => (eos, .other)
      match e, st with
      | .fn f, .fn g => .ok (f, some g)
      | _, _ => .error .value
    else
      let e : Arg F :=
        match eos with
        | .seq (a :: _) => a
        | _ => eos
      match e with
      | .fn f => .ok (f, none)
      | _ => .error .value

end EosTools
