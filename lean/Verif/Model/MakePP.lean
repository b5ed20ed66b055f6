import Mathlib.Data.List.Basic

/-!
# Model of `/repo/neutralocean/ppinterp/tools.py`
-/

namespace MakePP

/-- A request to `make_pp`, `/repo/neutralocean/ppinterp/tools.py` lines 6-12. Options of other types than these are
not modelled. -/
structure Request where
  interpolant : String := "linear"
  kind : String := "u"
  out : String := "coeffs"
  nans : Bool := true
  numDepVars : Int := 1

/-- The functions defined in `/repo/neutralocean/ppinterp/linear.py` (lines 8, 50, 66, 71, 109, 115, 123, 131) and
`/repo/neutralocean/ppinterp/pchip.py` (lines 9, 57, 67, 78, 95, 107, 191, 344, 349, 354, 362, 370). -/
def defined : String → List String
  | "linear" => ["linear_coeffs", "linear_coeffs_1", "_linear_coeffs", "_linear_coeffs_i", "linear_interp_1",
      "linear_interp_1_two", "linear_interp", "linear_interp_two"]
  | "pchip" => ["pchip_coeffs", "pchip_interp", "pchip_interp_two", "pchip_coeffs_1", "pchip_coeffs_1_nonan",
      "_pchip_coeffs_1", "_pchip_coeffs_i", "_pchip_coeffs", "pchip_interp_1", "pchip_interp_1_two", "_pchip_interp",
      "_pchip_interp_two"]
  | _ => []

/-- Exceptions. -/
inductive Err where
  | value
  | attribute
deriving DecidableEq

/-- `make_pp`, `/repo/neutralocean/ppinterp/tools.py` lines 6-65: the module and the name of the function returned. -/
def makePP (r : Request) : Except Err (String × String) :=
  if ¬ (r.interpolant = "linear" ∨ r.interpolant = "pchip") then .error .value
  else if ¬ (r.kind = "1" ∨ r.kind = "u") then .error .value
  else if ¬ (r.out = "coeffs" ∨ r.out = "interp") then .error .value
  else if ¬ (r.numDepVars = 1 ∨ r.numDepVars = 2) then .error .value
  else if r.out = "coeffs" ∧ r.numDepVars ≠ 1 then .error .value
  else if r.nans = false ∧ (r.out = "interp" ∨ r.kind = "u") then .error .value
  else
    let kind := if r.kind = "1" then "_1" else ""
    let nans := if r.nans = false ∧ r.interpolant = "pchip" then "_nonan" else ""
    let two := if r.numDepVars = 1 then "" else "_two"
    let name := r.interpolant ++ "_" ++ r.out ++ kind ++ nans ++ two
    if name ∈ defined r.interpolant then .ok (r.interpolant, name) else .error .attribute

/-- The number of arguments a caller must supply to a function: the parameters in front of the first one with a default,
without the output arrays of vectorised functions. `/repo/neutralocean/ppinterp/linear.py` lines 8, 50, 109, 115, 123,
131 and `/repo/neutralocean/ppinterp/pchip.py` lines 9, 57, 67, 78, 95, 349, 354. In the vectorised functions
`linear_interp` and `linear_interp_two` (decorated by `numba.guvectorize`, lines 119-137) all inputs are required. -/
def required : String → Nat
  | "linear_interp_1" => 3
  | "linear_interp_1_two" => 4
  | "linear_interp" => 4
  | "linear_interp_two" => 5
  | "pchip_interp" => 3
  | "pchip_interp_two" => 4
  | "pchip_interp_1" => 3
  | "pchip_interp_1_two" => 4
  | _ => 2

end MakePP
