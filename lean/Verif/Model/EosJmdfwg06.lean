import Verif.Model.EosBase

/-!
# Model of `/repo/neutralocean/eos/jmdfwg06.py`

The expressions are translated term by term from the Python text by `/verif/tools/mkeos.py`.
`c` turns a literal into a number and `k` looks up a coefficient, so that the same expression can be read in
floating point, in `Fl ℝ` and in `ℝ`.
-/

namespace Jmdfwg06
open FloatLike Interp Eos

/-- The coefficients, `/repo/neutralocean/eos/jmdfwg06.py` lines 40-67. -/
inductive Co where
  | a0 | a1 | a2 | a3 | a4 | a5 | a6 | a7 | a8 | a9 | a10 | a11 | b0 | b1 | b2 | b3 | b4 | b5 | b6 | b7 | b8 | b9 | b10 | b11 | b12 | epsln

/-- Their values, `/repo/neutralocean/eos/jmdfwg06.py` lines 40-67. -/
def co : Co → ℚ
  | .a0 => 9.9984085444849347e2
  | .a1 => 7.3471625860981584e0
  | .a2 => -5.3211231792841769e-2
  | .a3 => 3.6492439109814549e-4
  | .a4 => 2.5880571023991390e0
  | .a5 => -6.7168282786692355e-3
  | .a6 => 1.9203202055760151e-3
  | .a7 => 1.1798263740430364e-2
  | .a8 => 9.8920219266399117e-8
  | .a9 => 4.6996642771754730e-6
  | .a10 => -2.5862187075154352e-8
  | .a11 => -3.2921414007960662e-12
  | .b0 => 1.0000000000000000e0
  | .b1 => 7.2815210113327091e-3
  | .b2 => -4.4787265461983921e-5
  | .b3 => 3.3851002965802430e-7
  | .b4 => 1.3651202389758572e-10
  | .b5 => 1.7632126669040377e-3
  | .b6 => -8.8066583251206474e-6
  | .b7 => -1.8832689434804897e-10
  | .b8 => 5.7463776745432097e-6
  | .b9 => 1.4716275472242334e-9
  | .b10 => 6.7103246285651894e-6
  | .b11 => -2.4461698007024582e-17
  | .b12 => -9.1534417604289062e-18
  | .epsln => 1.0e-40

/-- `num` in `rho`, `/repo/neutralocean/eos/jmdfwg06.py` lines 93-98. -/
def num {R : Type*} [Add R] [Sub R] [Mul R] (k : Co → R) (s t p t2 : R) : R :=
  k .a0 + t * (k .a1 + t * (k .a2 + k .a3 * t)) + s * (k .a4 + k .a5 * t + k .a6 * s) + p * (k .a7 + k .a8 * t2 + k
    .a9 * s + p * (k .a10 + k .a11 * t2))

/-- Denominator in `rho`, `/repo/neutralocean/eos/jmdfwg06.py` lines 100-106 (`sp5` is `np.sqrt(s)`). -/
def den {R : Type*} [Add R] [Sub R] [Mul R] (k : Co → R) (sp5 s t p t2 : R) : R :=
  k .b0 + t * (k .b1 + t * (k .b2 + t * (k .b3 + t * k .b4))) + s * (k .b5 + t * (k .b6 + k .b7 * t2) + sp5 * (k
    .b8 + k .b9 * t2)) + p * (k .b10 + p * t * (k .b11 * t2 + k .b12 * p)) + k .epsln

/-- `num` in `rho_s_t`, `/repo/neutralocean/eos/jmdfwg06.py` lines 138-143. -/
def numST {R : Type*} [Add R] [Sub R] [Mul R] (k : Co → R) (s t p t2 : R) : R :=
  k .a0 + t * (k .a1 + t * (k .a2 + k .a3 * t)) + s * (k .a4 + k .a5 * t + k .a6 * s) + p * (k .a7 + k .a8 * t2 + k
    .a9 * s + p * (k .a10 + k .a11 * t2))

/-- Denominator in `rho_s_t`, `/repo/neutralocean/eos/jmdfwg06.py` lines 145-151 (`sp5` is `np.sqrt(s)`). -/
def denST {R : Type*} [Add R] [Sub R] [Mul R] (k : Co → R) (sp5 s t p t2 pt : R) : R :=
  k .b0 + t * (k .b1 + t * (k .b2 + t * (k .b3 + t * k .b4))) + s * (k .b5 + t * (k .b6 + k .b7 * t2) + sp5 * (k
    .b8 + k .b9 * t2)) + p * (k .b10 + pt * (k .b11 * t2 + k .b12 * p)) + k .epsln

/-- `num_s`, `/repo/neutralocean/eos/jmdfwg06.py` lines 159-159. -/
def numS {R : Type*} [Add R] [Sub R] [Mul R] (c : ℚ → R) (k : Co → R) (s t p : R) : R :=
  k .a4 + k .a5 * t + c 2.0 * k .a6 * s + p * k .a9

/-- `num_t`, `/repo/neutralocean/eos/jmdfwg06.py` lines 160-166. -/
def numT {R : Type*} [Add R] [Sub R] [Mul R] (c : ℚ → R) (k : Co → R) (s t p pt : R) : R :=
  k .a1 + t * (c 2.0 * k .a2 + c 3.0 * k .a3 * t) + k .a5 * s + c 2.0 * k .a8 * pt + c 2.0 * k .a11 * p * pt

/-- `den_s`, `/repo/neutralocean/eos/jmdfwg06.py` lines 168-168. -/
def denS {R : Type*} [Add R] [Sub R] [Mul R] (c : ℚ → R) (k : Co → R) (sp5 t t2 : R) : R :=
  k .b5 + t * (k .b6 + k .b7 * t2) + sp5 * (c 1.5 * k .b8 + c 1.5 * k .b9 * t2)

/-- `den_t`, `/repo/neutralocean/eos/jmdfwg06.py` lines 169-175; `p**3` as repeated multiplication. -/
def denT {R : Type*} [Add R] [Sub R] [Mul R] (c : ℚ → R) (k : Co → R) (sp5 s t p t2 pt : R) : R :=
  k .b1 + t * (c 2.0 * k .b2 + t * (c 3.0 * k .b3 + c 4.0 * k .b4 * t)) + s * (k .b6 + c 3.0 * k .b7 * t2 + c 2.0 *
    k .b9 * sp5 * t) + c 3.0 * k .b11 * pt * pt + k .b12 * (p * p * p)

/-- `num` in `rho_p`, `/repo/neutralocean/eos/jmdfwg06.py` lines 205-210. -/
def numP {R : Type*} [Add R] [Sub R] [Mul R] (k : Co → R) (s t p t2 : R) : R :=
  k .a0 + t * (k .a1 + t * (k .a2 + k .a3 * t)) + s * (k .a4 + k .a5 * t + k .a6 * s) + p * (k .a7 + k .a8 * t2 + k
    .a9 * s + p * (k .a10 + k .a11 * t2))

/-- Denominator in `rho_p`, `/repo/neutralocean/eos/jmdfwg06.py` lines 212-218 (`sp5` is `np.sqrt(s)`). -/
def denP {R : Type*} [Add R] [Sub R] [Mul R] (k : Co → R) (sp5 s t p t2 : R) : R :=
  k .b0 + t * (k .b1 + t * (k .b2 + t * (k .b3 + t * k .b4))) + s * (k .b5 + t * (k .b6 + k .b7 * t2) + sp5 * (k
    .b8 + k .b9 * t2)) + p * (k .b10 + p * t * (k .b11 * t2 + k .b12 * p)) + k .epsln

/-- `num_p`, `/repo/neutralocean/eos/jmdfwg06.py` lines 225-225. -/
def numP_ {R : Type*} [Add R] [Sub R] [Mul R] (c : ℚ → R) (k : Co → R) (s t2 p : R) : R :=
  k .a7 + k .a8 * t2 + k .a9 * s + p * (c 2.0 * k .a10 + c 2.0 * k .a11 * t2)

/-- `den_p`, `/repo/neutralocean/eos/jmdfwg06.py` lines 227-227. -/
def denP_ {R : Type*} [Add R] [Sub R] [Mul R] (c : ℚ → R) (k : Co → R) (t p t2 : R) : R :=
  k .b10 + p * t * (c 2.0 * k .b11 * t2 + c 3.0 * k .b12 * p)

variable {F : Type*} [FloatSqrt F]

/-- The coefficients as numbers. -/
def cf (n : Co) : F := lit (co n)

/-- `rho(s, t, p)`, `/repo/neutralocean/eos/jmdfwg06.py` lines 72-108; `none` is `ZeroDivisionError`. -/
def rho (s t p : F) : Option F := do
  let t2 := t * t
  let inv ← sdiv (lit 1.0) (den cf (FloatSqrt.sqrt s) s t p t2)
  return num cf s t p t2 * inv

/-- `rho_s_t(s, t, p)`, `/repo/neutralocean/eos/jmdfwg06.py` lines 112-180. -/
def rhoST (s t p : F) : Option (F × F) := do
  let t2 := t * t
  let sp5 := FloatSqrt.sqrt s
  let pt := p * t
  let n := numST cf s t p t2
  let inv ← sdiv (lit 1.0) (denST cf sp5 s t p t2 pt)
  return ((numS lit cf s t p - n * denS lit cf sp5 t t2 * inv) * inv,
    (numT lit cf s t p pt - n * denT lit cf sp5 s t p t2 pt * inv) * inv)

/-- `rho_p(s, t, p)`, `/repo/neutralocean/eos/jmdfwg06.py` lines 184-229. -/
def rhoP (s t p : F) : Option F := do
  let t2 := t * t
  let n := numP cf s t p t2
  let inv ← sdiv (lit 1.0) (denP cf (FloatSqrt.sqrt s) s t p t2)
  return (numP_ lit cf s t2 p - n * denP_ lit cf t p t2 * inv) * inv

end Jmdfwg06
