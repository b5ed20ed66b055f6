import Verif.Model.EosBase

/-!
# Model of `/repo/neutralocean/eos/jmd95.py`

The expressions are translated term by term from the Python text by `/verif/tools/mkeos.py`.
`c` turns a literal into a number and `k` looks up a coefficient, so that the same expression can be read in
floating point, in `Fl ℝ` and in `ℝ`.
-/

namespace Jmd95
open FloatLike Interp Eos

/-- The coefficients `eosJMD...`, `/repo/neutralocean/eos/jmd95.py` lines 32-77. -/
inductive Co where
  | CFw0 | CFw1 | CFw2 | CFw3 | CFw4 | CFw5 | CSw0 | CSw1 | CSw2 | CSw3 | CSw4 | CSw5 | CSw6 | CSw7 | CSw8 | CKFw0 | CKFw1 | CKFw2 | CKFw3 | CKFw4 | CKSw0 | CKSw1 | CKSw2 | CKSw3 | CKSw4 | CKSw5 | CKSw6 | CKP0 | CKP1 | CKP2 | CKP3 | CKP4 | CKP5 | CKP6 | CKP7 | CKP8 | CKP9 | CKP10 | CKP11 | CKP12 | CKP13

/-- Their values, `/repo/neutralocean/eos/jmd95.py` lines 32-77. -/
def co : Co → ℚ
  | .CFw0 => 999.842594
  | .CFw1 => 6.793952e-2
  | .CFw2 => -9.095290e-3
  | .CFw3 => 1.001685e-4
  | .CFw4 => -1.120083e-6
  | .CFw5 => 6.536332e-9
  | .CSw0 => 8.244930e-1
  | .CSw1 => -4.089900e-3
  | .CSw2 => 7.643800e-5
  | .CSw3 => -8.246700e-7
  | .CSw4 => 5.387500e-9
  | .CSw5 => -5.724660e-3
  | .CSw6 => 1.022700e-4
  | .CSw7 => -1.654600e-6
  | .CSw8 => 4.831400e-4
  | .CKFw0 => 1.965933e5
  | .CKFw1 => 1.444304e3
  | .CKFw2 => -1.706103e1
  | .CKFw3 => 9.648704e-2
  | .CKFw4 => -4.190253e-4
  | .CKSw0 => 5.284855e2
  | .CKSw1 => -3.101089e0
  | .CKSw2 => 6.283263e-2
  | .CKSw3 => -5.084188e-4
  | .CKSw4 => 3.886640e0
  | .CKSw5 => 9.085835e-2
  | .CKSw6 => -4.619924e-3
  | .CKP0 => 3.186519e0
  | .CKP1 => 2.212276e-2
  | .CKP2 => -2.984642e-4
  | .CKP3 => 1.956415e-6
  | .CKP4 => 6.704388e-3
  | .CKP5 => -1.847318e-4
  | .CKP6 => 2.059331e-7
  | .CKP7 => 1.480266e-4
  | .CKP8 => 2.102898e-5
  | .CKP9 => -1.202016e-6
  | .CKP10 => 1.394680e-8
  | .CKP11 => -2.040237e-7
  | .CKP12 => 6.128773e-9
  | .CKP13 => 6.207323e-11

/-- `K` in `rho`, `/repo/neutralocean/eos/jmd95.py` lines 156-162 (literal coefficients). -/
def bulkLit {R : Type*} [Add R] [Sub R] [Mul R] (c : ℚ → R) (s1o2 s t p : R) : R :=
  c 1.965933e5 + t * (c 1.444304e3 + t * (c (-1.706103e1) + t * (c 9.648704e-2 + t * c (-4.190253e-4)))) + s * (c
    5.284855e2 + t * (c (-3.101089e0) + t * (c 6.283263e-2 + t * c (-5.084188e-4))) + s1o2 * (c 3.886640e0 + t * (c
    9.085835e-2 + t * c (-4.619924e-3)))) + p * (c 3.186519e0 + t * (c 2.212276e-2 + t * (c (-2.984642e-4) + t * c
    1.956415e-6)) + s * (c 6.704388e-3 + t * (c (-1.847318e-4) + t * c 2.059331e-7) + s1o2 * c 1.480266e-4) + p *
    (c 2.102898e-5 + t * (c (-1.202016e-6) + t * c 1.394680e-8) + s * (c (-2.040237e-7) + t * (c 6.128773e-9 + t *
    c 6.207323e-11))))

/-- Numerator of `rho`, `/repo/neutralocean/eos/jmd95.py` lines 165-170 (literal coefficients). -/
def dens0Lit {R : Type*} [Add R] [Sub R] [Mul R] (c : ℚ → R) (s1o2 s t : R) : R :=
  c 999.842594 + t * (c 6.793952e-2 + t * (c (-9.095290e-3) + t * (c 1.001685e-4 + t * (c (-1.120083e-6) + t * c
    6.536332e-9)))) + s * (c 8.244930e-1 + t * (c (-4.089900e-3) + t * (c 7.643800e-5 + t * (c (-8.246700e-7) + t *
    c 5.387500e-9))) + s1o2 * (c (-5.724660e-3) + t * (c 1.022700e-4 + t * c (-1.654600e-6))) + s * c 4.831400e-4)

/-- `K` in `rho_s_t`, `/repo/neutralocean/eos/jmd95.py` lines 216-222. -/
def bulk {R : Type*} [Add R] [Sub R] [Mul R] (k : Co → R) (s1o2 s t p : R) : R :=
  k .CKFw0 + t * (k .CKFw1 + t * (k .CKFw2 + t * (k .CKFw3 + t * k .CKFw4))) + s * (k .CKSw0 + t * (k .CKSw1 + t *
    (k .CKSw2 + t * k .CKSw3)) + s1o2 * (k .CKSw4 + t * (k .CKSw5 + t * k .CKSw6))) + p * (k .CKP0 + t * (k .CKP1 +
    t * (k .CKP2 + t * k .CKP3)) + s * (k .CKP4 + t * (k .CKP5 + t * k .CKP6) + s1o2 * k .CKP7) + p * (k .CKP8 + t
    * (k .CKP9 + t * k .CKP10) + s * (k .CKP11 + t * (k .CKP12 + t * k .CKP13))))

/-- Factor marked `rho_0_S` of `rho_s`, `/repo/neutralocean/eos/jmd95.py` lines 272-289. -/
def dens0S {R : Type*} [Add R] [Sub R] [Mul R] (c : ℚ → R) (k : Co → R) (s1o2 s t : R) : R :=
  k .CSw0 + t * (k .CSw1 + t * (k .CSw2 + t * (k .CSw3 + t * k .CSw4))) + s1o2 * (c 1.5 * k .CSw5 + t * (c 1.5 * k
    .CSw6 + t * (c 1.5 * k .CSw7))) + s * (c 2.0 * k .CSw8)

/-- Factor marked `rho_0` of `rho_s`, `/repo/neutralocean/eos/jmd95.py` lines 272-289. -/
def dens0InS {R : Type*} [Add R] [Sub R] [Mul R] (k : Co → R) (s1o2 s t : R) : R :=
  k .CFw0 + t * (k .CFw1 + t * (k .CFw2 + t * (k .CFw3 + t * (k .CFw4 + t * k .CFw5)))) + s * (k .CSw0 + t * (k
    .CSw1 + t * (k .CSw2 + t * (k .CSw3 + t * k .CSw4))) + s1o2 * (k .CSw5 + t * (k .CSw6 + t * k .CSw7)) + s * k
    .CSw8)

/-- Factor marked `K_s` of `rho_s`, `/repo/neutralocean/eos/jmd95.py` lines 272-289. -/
def bulkS {R : Type*} [Add R] [Sub R] [Mul R] (c : ℚ → R) (k : Co → R) (s1o2 s t p : R) : R :=
  k .CKSw0 + t * (k .CKSw1 + t * (k .CKSw2 + t * k .CKSw3)) + s1o2 * (c 1.5 * k .CKSw4 + t * (c 1.5 * k .CKSw5 + t
    * (c 1.5 * k .CKSw6))) + p * (k .CKP4 + t * (k .CKP5 + t * k .CKP6) + s1o2 * (c 1.5 * k .CKP7) + p * (k .CKP11
    + t * (k .CKP12 + t * k .CKP13)))

/-- Factor marked `rho_0_T` of `rho_t`, `/repo/neutralocean/eos/jmd95.py` lines 291-311. -/
def dens0T {R : Type*} [Add R] [Sub R] [Mul R] (c : ℚ → R) (k : Co → R) (s1o2 s t : R) : R :=
  k .CFw1 + t * (c 2.0 * k .CFw2 + t * (c 3.0 * k .CFw3 + t * (c 4.0 * k .CFw4 + t * (c 5.0 * k .CFw5)))) + s * (k
    .CSw1 + t * (c 2.0 * k .CSw2 + t * (c 3.0 * k .CSw3 + t * (c 4.0 * k .CSw4))) + s1o2 * (k .CSw6 + t * (c 2.0 *
    k .CSw7)))

/-- Factor marked `rho_0` of `rho_t`, `/repo/neutralocean/eos/jmd95.py` lines 291-311. -/
def dens0InT {R : Type*} [Add R] [Sub R] [Mul R] (k : Co → R) (s1o2 s t : R) : R :=
  k .CFw0 + t * (k .CFw1 + t * (k .CFw2 + t * (k .CFw3 + t * (k .CFw4 + t * k .CFw5)))) + s * (k .CSw0 + t * (k
    .CSw1 + t * (k .CSw2 + t * (k .CSw3 + t * k .CSw4))) + s1o2 * (k .CSw5 + t * (k .CSw6 + t * k .CSw7)) + s * k
    .CSw8)

/-- Factor marked `K_t` of `rho_t`, `/repo/neutralocean/eos/jmd95.py` lines 291-311. -/
def bulkT {R : Type*} [Add R] [Sub R] [Mul R] (c : ℚ → R) (k : Co → R) (s1o2 s t p : R) : R :=
  k .CKFw1 + t * (c 2.0 * k .CKFw2 + t * (c 3.0 * k .CKFw3 + t * (c 4.0 * k .CKFw4))) + s * (k .CKSw1 + t * (c 2.0
    * k .CKSw2 + t * (c 3.0 * k .CKSw3)) + s1o2 * (k .CKSw5 + t * (c 2.0 * k .CKSw6))) + p * (k .CKP1 + t * (c 2.0
    * k .CKP2 + t * (c 3.0 * k .CKP3)) + s * (k .CKP5 + t * (c 2.0 * k .CKP6)) + p * (k .CKP9 + t * (c 2.0 * k
    .CKP10) + s * (k .CKP12 + t * (c 2.0 * k .CKP13))))

/-- `K2` in `rho_p`, `/repo/neutralocean/eos/jmd95.py` lines 342-345. -/
def pK2 {R : Type*} [Add R] [Sub R] [Mul R] (k : Co → R) (s t p : R) : R :=
  p * (k .CKP8 + t * (k .CKP9 + t * k .CKP10) + s * (k .CKP11 + t * (k .CKP12 + t * k .CKP13)))

/-- `K1plusK2` in `rho_p`, `/repo/neutralocean/eos/jmd95.py` lines 347-351. -/
def pK1plusK2 {R : Type*} [Add R] [Sub R] [Mul R] (k : Co → R) (s1o2 s t K2 : R) : R :=
  K2 + k .CKP0 + t * (k .CKP1 + t * (k .CKP2 + t * k .CKP3)) + s * (k .CKP4 + t * (k .CKP5 + t * k .CKP6) + k .CKP7
    * s1o2)

/-- `K` in `rho_p`, `/repo/neutralocean/eos/jmd95.py` lines 353-358. -/
def pK {R : Type*} [Add R] [Sub R] [Mul R] (k : Co → R) (s1o2 s t p K1plusK2 : R) : R :=
  k .CKFw0 + t * (k .CKFw1 + t * (k .CKFw2 + t * (k .CKFw3 + t * k .CKFw4))) + s * (k .CKSw0 + t * (k .CKSw1 + t *
    (k .CKSw2 + t * k .CKSw3)) + s1o2 * (k .CKSw4 + t * (k .CKSw5 + t * k .CKSw6))) + p * K1plusK2

/-- `rho` in `rho_p`, `/repo/neutralocean/eos/jmd95.py` lines 360-366. -/
def pRho {R : Type*} [Add R] [Sub R] [Mul R] (k : Co → R) (s1o2 s t : R) : R :=
  k .CFw0 + t * (k .CFw1 + t * (k .CFw2 + t * (k .CFw3 + t * (k .CFw4 + t * k .CFw5)))) + s * (k .CSw0 + t * (k
    .CSw1 + t * (k .CSw2 + t * (k .CSw3 + t * k .CSw4))) + s1o2 * (k .CSw5 + t * (k .CSw6 + t * k .CSw7)) + s * k
    .CSw8)

variable {F : Type*} [FloatSqrt F]

/-- `rho(s, t, p)`, `/repo/neutralocean/eos/jmd95.py` lines 87-172; `none` is `ZeroDivisionError`. -/
def rho (s t p : F) : Option F := do
  let s1o2 := FloatSqrt.sqrt s
  let K := bulkLit lit s1o2 s t p
  let q ← sdiv p K
  sdiv (dens0Lit lit s1o2 s t) (lit 1.0 - q)

/-- The coefficients as numbers. -/
def num (n : Co) : F := lit (co n)

/-- `rho_s_t(s, t, p)`, `/repo/neutralocean/eos/jmd95.py` lines 187-315. -/
def rhoST (s t p : F) : Option (F × F) := do
  let s1o2 := FloatSqrt.sqrt s
  let K := bulk num s1o2 s t p
  let w ← sdiv (dens0InS num s1o2 s t * p) (K - p)
  let rs ← sdiv (dens0S lit num s1o2 s t * K - w * bulkS lit num s1o2 s t p) (K - p)
  let w' ← sdiv (dens0InT num s1o2 s t * p) (K - p)
  let rt ← sdiv (dens0T lit num s1o2 s t * K - w' * bulkT lit num s1o2 s t p) (K - p)
  return (rs, rt)

/-- `rho_p(s, t, p)`, `/repo/neutralocean/eos/jmd95.py` lines 319-372. -/
def rhoP (s t p : F) : Option F :=
  let s1o2 := FloatSqrt.sqrt s
  let K2 := pK2 num s t p
  let K1plusK2 := pK1plusK2 num s1o2 s t K2
  let K := pK num s1o2 s t p K1plusK2
  sdiv (pRho num s1o2 s t * (K - p * (K1plusK2 + K2))) ((K - p) * (K - p))

end Jmd95
