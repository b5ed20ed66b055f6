import Verif.Model.EosBase

/-!
# Model of `/repo/neutralocean/eos/gsw.py`

The expressions are translated term by term from the Python text by `/verif/tools/mkeos.py`.
`c` turns a literal into a number and `v` looks up a coefficient, so that the same expression can be read in
floating point, in `Fl ℝ` and in `ℝ`.
-/

namespace Gsw
open FloatLike Interp Eos

/-- `tfac`, `/repo/neutralocean/eos/gsw.py` line 131. -/
def tfac : ℚ := 0.025

/-- `pfac`, `/repo/neutralocean/eos/gsw.py` line 132. -/
def pfac : ℚ := 1e-4

/-- `sfac`, `/repo/neutralocean/eos/gsw.py` line 135. -/
def sfac : ℚ := 0.0248826675584615

/-- `offset`, `/repo/neutralocean/eos/gsw.py` line 138. -/
def offset : ℚ := 5.971840214030754e-1

/-- The coefficients `vijk`, `/repo/neutralocean/eos/gsw.py` lines 141-215. -/
def vtab : ℕ → ℕ → ℕ → ℚ
  | 0, 0, 0 => 1.0769995862e-3
  | 0, 0, 1 => -6.0799143809e-5
  | 0, 0, 2 => 9.9856169219e-6
  | 0, 0, 3 => -1.1309361437e-6
  | 0, 0, 4 => 1.0531153080e-7
  | 0, 0, 5 => -1.2647261286e-8
  | 0, 0, 6 => 1.9613503930e-9
  | 0, 1, 0 => -1.5649734675e-5
  | 0, 1, 1 => 1.8505765429e-5
  | 0, 1, 2 => -1.1736386731e-6
  | 0, 1, 3 => -3.6527006553e-7
  | 0, 1, 4 => 3.1454099902e-7
  | 0, 2, 0 => 2.7762106484e-5
  | 0, 2, 1 => -1.1716606853e-5
  | 0, 2, 2 => 2.1305028740e-6
  | 0, 2, 3 => 2.8695905159e-7
  | 0, 3, 0 => -1.6521159259e-5
  | 0, 3, 1 => 7.9279656173e-6
  | 0, 3, 2 => -4.6132540037e-7
  | 0, 4, 0 => 6.9111322702e-6
  | 0, 4, 1 => -3.4102187482e-6
  | 0, 4, 2 => -6.3352916514e-8
  | 0, 5, 0 => -8.0539615540e-7
  | 0, 5, 1 => 5.0736766814e-7
  | 0, 6, 0 => 2.0543094268e-7
  | 1, 0, 0 => -3.1038981976e-4
  | 1, 0, 1 => 2.4262468747e-5
  | 1, 0, 2 => -5.8484432984e-7
  | 1, 0, 3 => 3.6310188515e-7
  | 1, 0, 4 => -1.1147125423e-7
  | 1, 1, 0 => 3.5009599764e-5
  | 1, 1, 1 => -9.5677088156e-6
  | 1, 1, 2 => -5.5699154557e-6
  | 1, 1, 3 => -2.7295696237e-7
  | 1, 2, 0 => -3.7435842344e-5
  | 1, 2, 1 => -2.3678308361e-7
  | 1, 2, 2 => 3.9137387080e-7
  | 1, 3, 0 => 2.4141479483e-5
  | 1, 3, 1 => -3.4558773655e-6
  | 1, 3, 2 => 7.7618888092e-9
  | 1, 4, 0 => -8.7595873154e-6
  | 1, 4, 1 => 1.2956717783e-6
  | 1, 5, 0 => -3.3052758900e-7
  | 2, 0, 0 => 6.6928067038e-4
  | 2, 0, 1 => -3.4792460974e-5
  | 2, 0, 2 => -4.8122251597e-6
  | 2, 0, 3 => 1.6746303780e-8
  | 2, 1, 0 => -4.3592678561e-5
  | 2, 1, 1 => 1.1100834765e-5
  | 2, 1, 2 => 5.4620748834e-6
  | 2, 2, 0 => 3.5907822760e-5
  | 2, 2, 1 => 2.9283346295e-6
  | 2, 2, 2 => -6.5731104067e-7
  | 2, 3, 0 => -1.4353633048e-5
  | 2, 3, 1 => 3.1655306078e-7
  | 2, 4, 0 => 4.3703680598e-6
  | 3, 0, 0 => -8.5047933937e-4
  | 3, 0, 1 => 3.7470777305e-5
  | 3, 0, 2 => 4.9263106998e-6
  | 3, 1, 0 => 3.4532461828e-5
  | 3, 1, 1 => -9.8447117844e-6
  | 3, 1, 2 => -1.3544185627e-6
  | 3, 2, 0 => -1.8698584187e-5
  | 3, 2, 1 => -4.8826139200e-7
  | 3, 3, 0 => 2.2863324556e-6
  | 4, 0, 0 => 5.8086069943e-4
  | 4, 0, 1 => -1.7322218612e-5
  | 4, 0, 2 => -1.7811974727e-6
  | 4, 1, 0 => -1.1959409788e-5
  | 4, 1, 1 => 2.5909225260e-6
  | 4, 2, 0 => 3.8595339244e-6
  | 5, 0, 0 => -2.1092370507e-4
  | 5, 0, 1 => 3.0927427253e-6
  | 5, 1, 0 => 1.3864594581e-6
  | 6, 0, 0 => 3.1932457305e-5
  | _, _, _ => 0

/-- `_specvol`, `/repo/neutralocean/eos/gsw.py` lines 483-508. -/
def pSpecvol {R : Type*} [Add R] [Sub R] [Mul R] (v : ℕ → ℕ → ℕ → R) (x y z : R) : R :=
  v 0 0 0 + x * (v 1 0 0 + x * (v 2 0 0 + x * (v 3 0 0 + x * (v 4 0 0 + x * (v 5 0 0 + x * v 6 0 0))))) + y * (v 0
    1 0 + x * (v 1 1 0 + x * (v 2 1 0 + x * (v 3 1 0 + x * (v 4 1 0 + x * v 5 1 0)))) + y * (v 0 2 0 + x * (v 1 2 0
    + x * (v 2 2 0 + x * (v 3 2 0 + x * v 4 2 0))) + y * (v 0 3 0 + x * (v 1 3 0 + x * (v 2 3 0 + x * v 3 3 0)) + y
    * (v 0 4 0 + x * (v 1 4 0 + x * v 2 4 0) + y * (v 0 5 0 + x * v 1 5 0 + y * v 0 6 0))))) + z * (v 0 0 1 + x *
    (v 1 0 1 + x * (v 2 0 1 + x * (v 3 0 1 + x * (v 4 0 1 + x * v 5 0 1)))) + y * (v 0 1 1 + x * (v 1 1 1 + x * (v
    2 1 1 + x * (v 3 1 1 + x * v 4 1 1))) + y * (v 0 2 1 + x * (v 1 2 1 + x * (v 2 2 1 + x * v 3 2 1)) + y * (v 0 3
    1 + x * (v 1 3 1 + x * v 2 3 1) + y * (v 0 4 1 + x * v 1 4 1 + y * v 0 5 1)))) + z * (v 0 0 2 + x * (v 1 0 2 +
    x * (v 2 0 2 + x * (v 3 0 2 + x * v 4 0 2))) + y * (v 0 1 2 + x * (v 1 1 2 + x * (v 2 1 2 + x * v 3 1 2)) + y *
    (v 0 2 2 + x * (v 1 2 2 + x * v 2 2 2) + y * (v 0 3 2 + x * v 1 3 2 + y * v 0 4 2))) + z * (v 0 0 3 + x * (v 1
    0 3 + x * v 2 0 3) + y * (v 0 1 3 + x * v 1 1 3 + y * v 0 2 3) + z * (v 0 0 4 + x * v 1 0 4 + y * v 0 1 4 + z *
    (v 0 0 5 + z * v 0 0 6)))))

/-- Numerator of `_s`, `/repo/neutralocean/eos/gsw.py` lines 512-530. -/
def n_s {R : Type*} [Add R] [Sub R] [Mul R] (c : ℚ → R) (v : ℕ → ℕ → ℕ → R) (x y z : R) : R :=
  v 1 0 0 + x * (c 2 * v 2 0 0 + x * (c 3 * v 3 0 0 + x * (c 4 * v 4 0 0 + x * (c 5 * v 5 0 0 + x * (c 6 * v 6 0
    0))))) + y * (v 1 1 0 + x * (c 2 * v 2 1 0 + x * (c 3 * v 3 1 0 + x * (c 4 * v 4 1 0 + x * (c 5 * v 5 1 0)))) +
    y * (v 1 2 0 + x * (c 2 * v 2 2 0 + x * (c 3 * v 3 2 0 + x * (c 4 * v 4 2 0))) + y * (v 1 3 0 + x * (c 2 * v 2
    3 0 + x * (c 3 * v 3 3 0)) + y * (v 1 4 0 + x * (c 2 * v 2 4 0) + y * v 1 5 0)))) + z * (v 1 0 1 + x * (c 2 * v
    2 0 1 + x * (c 3 * v 3 0 1 + x * (c 4 * v 4 0 1 + x * (c 5 * v 5 0 1)))) + y * (v 1 1 1 + x * (c 2 * v 2 1 1 +
    x * (c 3 * v 3 1 1 + x * (c 4 * v 4 1 1))) + y * (v 1 2 1 + x * (c 2 * v 2 2 1 + x * (c 3 * v 3 2 1)) + y * (v
    1 3 1 + x * (c 2 * v 2 3 1) + y * v 1 4 1))) + z * (v 1 0 2 + x * (c 2 * v 2 0 2 + x * (c 3 * v 3 0 2 + x * (c
    4 * v 4 0 2))) + y * (v 1 1 2 + x * (c 2 * v 2 1 2 + x * (c 3 * v 3 1 2)) + y * (v 1 2 2 + x * (c 2 * v 2 2 2)
    + y * v 1 3 2)) + z * (v 1 0 3 + x * (c 2 * v 2 0 3) + y * v 1 1 3 + z * v 1 0 4)))

/-- Numerator of `_t`, `/repo/neutralocean/eos/gsw.py` lines 534-552. -/
def n_t {R : Type*} [Add R] [Sub R] [Mul R] (c : ℚ → R) (v : ℕ → ℕ → ℕ → R) (x y z : R) : R :=
  v 0 1 0 + x * (v 1 1 0 + x * (v 2 1 0 + x * (v 3 1 0 + x * (v 4 1 0 + x * v 5 1 0)))) + y * (c 2 * v 0 2 0 + x *
    (c 2 * v 1 2 0 + x * (c 2 * v 2 2 0 + x * (c 2 * v 3 2 0 + x * (c 2 * v 4 2 0)))) + y * (c 3 * v 0 3 0 + x * (c
    3 * v 1 3 0 + x * (c 3 * v 2 3 0 + x * (c 3 * v 3 3 0))) + y * (c 4 * v 0 4 0 + x * (c 4 * v 1 4 0 + x * (c 4 *
    v 2 4 0)) + y * (c 5 * v 0 5 0 + x * (c 5 * v 1 5 0) + y * (c 6 * v 0 6 0))))) + z * (v 0 1 1 + x * (v 1 1 1 +
    x * (v 2 1 1 + x * (v 3 1 1 + x * v 4 1 1))) + y * (c 2 * v 0 2 1 + x * (c 2 * v 1 2 1 + x * (c 2 * v 2 2 1 + x
    * (c 2 * v 3 2 1))) + y * (c 3 * v 0 3 1 + x * (c 3 * v 1 3 1 + x * (c 3 * v 2 3 1)) + y * (c 4 * v 0 4 1 + x *
    (c 4 * v 1 4 1) + y * (c 5 * v 0 5 1)))) + z * (v 0 1 2 + x * (v 1 1 2 + x * (v 2 1 2 + x * v 3 1 2)) + y * (c
    2 * v 0 2 2 + x * (c 2 * v 1 2 2 + x * (c 2 * v 2 2 2)) + y * (c 3 * v 0 3 2 + x * (c 3 * v 1 3 2) + y * (c 4 *
    v 0 4 2))) + z * (v 0 1 3 + x * v 1 1 3 + y * (c 2 * v 0 2 3) + z * v 0 1 4)))

/-- Numerator of `_p`, `/repo/neutralocean/eos/gsw.py` lines 556-574. -/
def n_p {R : Type*} [Add R] [Sub R] [Mul R] (c : ℚ → R) (v : ℕ → ℕ → ℕ → R) (x y z : R) : R :=
  v 0 0 1 + x * (v 1 0 1 + x * (v 2 0 1 + x * (v 3 0 1 + x * (v 4 0 1 + x * v 5 0 1)))) + y * (v 0 1 1 + x * (v 1 1
    1 + x * (v 2 1 1 + x * (v 3 1 1 + x * v 4 1 1))) + y * (v 0 2 1 + x * (v 1 2 1 + x * (v 2 2 1 + x * v 3 2 1)) +
    y * (v 0 3 1 + x * (v 1 3 1 + x * v 2 3 1) + y * (v 0 4 1 + x * v 1 4 1 + y * v 0 5 1)))) + z * (c 2 * v 0 0 2
    + x * (c 2 * v 1 0 2 + x * (c 2 * v 2 0 2 + x * (c 2 * v 3 0 2 + x * (c 2 * v 4 0 2)))) + y * (c 2 * v 0 1 2 +
    x * (c 2 * v 1 1 2 + x * (c 2 * v 2 1 2 + x * (c 2 * v 3 1 2))) + y * (c 2 * v 0 2 2 + x * (c 2 * v 1 2 2 + x *
    (c 2 * v 2 2 2)) + y * (c 2 * v 0 3 2 + x * (c 2 * v 1 3 2) + y * (c 2 * v 0 4 2)))) + z * (c 3 * v 0 0 3 + x *
    (c 3 * v 1 0 3 + x * (c 3 * v 2 0 3)) + y * (c 3 * v 0 1 3 + x * (c 3 * v 1 1 3) + y * (c 3 * v 0 2 3)) + z *
    (c 4 * v 0 0 4 + x * (c 4 * v 1 0 4) + y * (c 4 * v 0 1 4) + z * (c 5 * v 0 0 5 + z * (c 6 * v 0 0 6)))))

/-- Numerator of `_ss`, `/repo/neutralocean/eos/gsw.py` lines 578-596. -/
def n_ss {R : Type*} [Add R] [Sub R] [Mul R] (c : ℚ → R) (v : ℕ → ℕ → ℕ → R) (x y z x2 : R) : R :=
  c (-0.25) * v 1 0 0 + x2 * (c 0.75 * v 3 0 0 + x * (c 2.0 * v 4 0 0 + x * (c 3.75 * v 5 0 0 + x * (c 6 * v 6 0
    0)))) + y * (c (-0.25) * v 1 1 0 + x2 * (c 0.75 * v 3 1 0 + x * (c 2.0 * v 4 1 0 + x * (c 3.75 * v 5 1 0))) + y
    * (c (-0.25) * v 1 2 0 + x2 * (c 0.75 * v 3 2 0 + x * (c 2.0 * v 4 2 0)) + y * (c (-0.25) * v 1 3 0 + x2 * (c
    0.75 * v 3 3 0) + y * (c (-0.25) * v 1 4 0 + y * (c (-0.25) * v 1 5 0))))) + z * (c (-0.25) * v 1 0 1 + x2 * (c
    0.75 * v 3 0 1 + x * (c 2.0 * v 4 0 1 + x * (c 3.75 * v 5 0 1))) + y * (c (-0.25) * v 1 1 1 + x2 * (c 0.75 * v
    3 1 1 + x * (c 2.0 * v 4 1 1)) + y * (c (-0.25) * v 1 2 1 + x2 * (c 0.75 * v 3 2 1) + y * (c (-0.25) * v 1 3 1
    + y * (c (-0.25) * v 1 4 1)))) + z * (c (-0.25) * v 1 0 2 + x2 * (c 0.75 * v 3 0 2 + x * (c 2.0 * v 4 0 2)) + y
    * (c (-0.25) * v 1 1 2 + x2 * (c 0.75 * v 3 1 2) + y * (c (-0.25) * v 1 2 2 + y * (c (-0.25) * v 1 3 2))) + z *
    (c (-0.25) * v 1 0 3 + y * (c (-0.25) * v 1 1 3) + z * (c (-0.25) * v 1 0 4))))

/-- Numerator of `_st`, `/repo/neutralocean/eos/gsw.py` lines 600-613. -/
def n_st {R : Type*} [Add R] [Sub R] [Mul R] (c : ℚ → R) (v : ℕ → ℕ → ℕ → R) (x y z : R) : R :=
  v 1 1 0 + x * (c 2 * v 2 1 0 + x * (c 3 * v 3 1 0 + x * (c 4 * v 4 1 0 + x * (c 5 * v 5 1 0)))) + y * (c 2 * v 1
    2 0 + x * (c 4 * v 2 2 0 + x * (c 6 * v 3 2 0 + x * (c 8 * v 4 2 0))) + y * (c 3 * v 1 3 0 + x * (c 6 * v 2 3 0
    + x * (c 9 * v 3 3 0)) + y * (c 4 * v 1 4 0 + x * (c 8 * v 2 4 0) + y * (c 5 * v 1 5 0)))) + z * (v 1 1 1 + x *
    (c 2 * v 2 1 1 + x * (c 3 * v 3 1 1 + x * (c 4 * v 4 1 1))) + y * (c 2 * v 1 2 1 + x * (c 4 * v 2 2 1 + x * (c
    6 * v 3 2 1)) + y * (c 3 * v 1 3 1 + x * (c 6 * v 2 3 1) + y * (c 4 * v 1 4 1))) + z * (v 1 1 2 + x * (c 2 * v
    2 1 2 + x * (c 3 * v 3 1 2)) + y * (c 2 * v 1 2 2 + x * (c 4 * v 2 2 2) + y * (c 3 * v 1 3 2)) + z * v 1 1 3))

/-- Numerator of `_tt`, `/repo/neutralocean/eos/gsw.py` lines 617-630. -/
def n_tt {R : Type*} [Add R] [Sub R] [Mul R] (c : ℚ → R) (v : ℕ → ℕ → ℕ → R) (x y z : R) : R :=
  c 2 * v 0 2 0 + x * (c 2 * v 1 2 0 + x * (c 2 * v 2 2 0 + x * (c 2 * v 3 2 0 + x * (c 2 * v 4 2 0)))) + y * (c 6
    * v 0 3 0 + x * (c 6 * v 1 3 0 + x * (c 6 * v 2 3 0 + x * (c 6 * v 3 3 0))) + y * (c 12 * v 0 4 0 + x * (c 12 *
    v 1 4 0 + x * (c 12 * v 2 4 0)) + y * (c 20 * v 0 5 0 + x * (c 20 * v 1 5 0) + y * (c 30 * v 0 6 0)))) + z * (c
    2 * v 0 2 1 + x * (c 2 * v 1 2 1 + x * (c 2 * v 2 2 1 + x * (c 2 * v 3 2 1))) + y * (c 6 * v 0 3 1 + x * (c 6 *
    v 1 3 1 + x * (c 6 * v 2 3 1)) + y * (c 12 * v 0 4 1 + x * (c 12 * v 1 4 1) + y * (c 20 * v 0 5 1))) + z * (c 2
    * v 0 2 2 + x * (c 2 * v 1 2 2 + x * (c 2 * v 2 2 2)) + y * (c 6 * v 0 3 2 + x * (c 6 * v 1 3 2) + y * (c 12 *
    v 0 4 2)) + z * (c 2 * v 0 2 3)))

/-- Numerator of `_sp`, `/repo/neutralocean/eos/gsw.py` lines 634-646. -/
def n_sp {R : Type*} [Add R] [Sub R] [Mul R] (c : ℚ → R) (v : ℕ → ℕ → ℕ → R) (x y z : R) : R :=
  v 1 0 1 + x * (c 2 * v 2 0 1 + x * (c 3 * v 3 0 1 + x * (c 4 * v 4 0 1 + x * (c 5 * v 5 0 1)))) + y * (v 1 1 1 +
    x * (c 2 * v 2 1 1 + x * (c 3 * v 3 1 1 + x * (c 4 * v 4 1 1))) + y * (v 1 2 1 + x * (c 2 * v 2 2 1 + x * (c 3
    * v 3 2 1)) + y * (v 1 3 1 + x * (c 2 * v 2 3 1) + y * v 1 4 1))) + z * (c 2 * v 1 0 2 + x * (c 4 * v 2 0 2 + x
    * (c 6 * v 3 0 2 + x * (c 8 * v 4 0 2))) + y * (c 2 * v 1 1 2 + x * (c 4 * v 2 1 2 + x * (c 6 * v 3 1 2)) + y *
    (c 2 * v 1 2 2 + x * (c 4 * v 2 2 2) + y * (c 2 * v 1 3 2))) + z * (c 3 * v 1 0 3 + x * (c 6 * v 2 0 3) + y *
    (c 3 * v 1 1 3) + z * (c 4 * v 1 0 4)))

/-- Numerator of `_tp`, `/repo/neutralocean/eos/gsw.py` lines 650-662. -/
def n_tp {R : Type*} [Add R] [Sub R] [Mul R] (c : ℚ → R) (v : ℕ → ℕ → ℕ → R) (x y z : R) : R :=
  v 0 1 1 + x * (v 1 1 1 + x * (v 2 1 1 + x * (v 3 1 1 + x * v 4 1 1))) + y * (c 2 * v 0 2 1 + x * (c 2 * v 1 2 1 +
    x * (c 2 * v 2 2 1 + x * (c 2 * v 3 2 1))) + y * (c 3 * v 0 3 1 + x * (c 3 * v 1 3 1 + x * (c 3 * v 2 3 1)) + y
    * (c 4 * v 0 4 1 + x * (c 4 * v 1 4 1) + y * (c 5 * v 0 5 1)))) + z * (c 2 * v 0 1 2 + x * (c 2 * v 1 1 2 + x *
    (c 2 * v 2 1 2 + x * (c 2 * v 3 1 2))) + y * (c 4 * v 0 2 2 + x * (c 4 * v 1 2 2 + x * (c 4 * v 2 2 2)) + y *
    (c 6 * v 0 3 2 + x * (c 6 * v 1 3 2) + y * (c 8 * v 0 4 2))) + z * (c 3 * v 0 1 3 + x * (c 3 * v 1 1 3) + y *
    (c 6 * v 0 2 3) + z * (c 4 * v 0 1 4)))

/-- Numerator of `_pp`, `/repo/neutralocean/eos/gsw.py` lines 666-679. -/
def n_pp {R : Type*} [Add R] [Sub R] [Mul R] (c : ℚ → R) (v : ℕ → ℕ → ℕ → R) (x y z : R) : R :=
  c 2 * v 0 0 2 + x * (c 2 * v 1 0 2 + x * (c 2 * v 2 0 2 + x * (c 2 * v 3 0 2 + x * (c 2 * v 4 0 2)))) + y * (c 2
    * v 0 1 2 + x * (c 2 * v 1 1 2 + x * (c 2 * v 2 1 2 + x * (c 2 * v 3 1 2))) + y * (c 2 * v 0 2 2 + x * (c 2 * v
    1 2 2 + x * (c 2 * v 2 2 2)) + y * (c 2 * v 0 3 2 + x * (c 2 * v 1 3 2) + y * (c 2 * v 0 4 2)))) + z * (c 6 * v
    0 0 3 + x * (c 6 * v 1 0 3 + x * (c 6 * v 2 0 3)) + y * (c 6 * v 0 1 3 + x * (c 6 * v 1 1 3) + y * (c 6 * v 0 2
    3)) + z * (c 12 * v 0 0 4 + x * (c 12 * v 1 0 4) + y * (c 12 * v 0 1 4) + z * (c 20 * v 0 0 5 + z * (c 30 * v 0
    0 6))))

/-- Numerator of `_sss`, `/repo/neutralocean/eos/gsw.py` lines 683-702. -/
def n_sss {R : Type*} [Add R] [Sub R] [Mul R] (c : ℚ → R) (v : ℕ → ℕ → ℕ → R) (x y z x2 : R) : R :=
  c 0.375 * v 1 0 0 + x2 * (c (-0.375) * v 3 0 0 + x2 * (c 1.875 * v 5 0 0 + x * (c 6.0 * v 6 0 0))) + y * (c 0.375
    * v 1 1 0 + x2 * (c (-0.375) * v 3 1 0 + x2 * (c 1.875 * v 5 1 0)) + y * (c 0.375 * v 1 2 0 + x2 * (c (-0.375)
    * v 3 2 0) + y * (c 0.375 * v 1 3 0 + x2 * (c (-0.375) * v 3 3 0) + y * (c 0.375 * v 1 4 0 + y * (c 0.375 * v 1
    5 0))))) + z * (c 0.375 * v 1 0 1 + x2 * (c (-0.375) * v 3 0 1 + x2 * (c 1.875 * v 5 0 1)) + y * (c 0.375 * v 1
    1 1 + x2 * (c (-0.375) * v 3 1 1) + y * (c 0.375 * v 1 2 1 + x2 * (c (-0.375) * v 3 2 1) + y * (c 0.375 * v 1 3
    1 + y * (c 0.375 * v 1 4 1)))) + z * (c 0.375 * v 1 0 2 + x2 * (c (-0.375) * v 3 0 2) + y * (c 0.375 * v 1 1 2
    + x2 * (c (-0.375) * v 3 1 2) + y * (c 0.375 * v 1 2 2 + y * (c 0.375 * v 1 3 2))) + z * (c 0.375 * v 1 0 3 + y
    * (c 0.375 * v 1 1 3) + z * (c 0.375 * v 1 0 4))))

/-- Numerator of `_sst`, `/repo/neutralocean/eos/gsw.py` lines 706-723. -/
def n_sst {R : Type*} [Add R] [Sub R] [Mul R] (c : ℚ → R) (v : ℕ → ℕ → ℕ → R) (x y z x2 : R) : R :=
  c (-0.25) * v 1 1 0 + x2 * (c 0.75 * v 3 1 0 + x * (c 2.0 * v 4 1 0 + x * (c 3.75 * v 5 1 0))) + y * (c (-0.50) *
    v 1 2 0 + x2 * (c 1.50 * v 3 2 0 + x * (c 4.0 * v 4 2 0)) + y * (c (-0.75) * v 1 3 0 + x2 * (c 2.25 * v 3 3 0)
    + y * (c (-1.00) * v 1 4 0 + y * (c (-1.25) * v 1 5 0)))) + z * (c (-0.25) * v 1 1 1 + x2 * (c 0.75 * v 3 1 1 +
    x * (c 2.0 * v 4 1 1)) + y * (c (-0.50) * v 1 2 1 + x2 * (c 1.50 * v 3 2 1) + y * (c (-0.75) * v 1 3 1 + y * (c
    (-1.00) * v 1 4 1))) + z * (c (-0.25) * v 1 1 2 + x2 * (c 0.75 * v 3 1 2) + y * (c (-0.50) * v 1 2 2 + y * (c
    (-0.75) * v 1 3 2)) + z * c (-0.25) * v 1 1 3))

/-- Numerator of `_stt`, `/repo/neutralocean/eos/gsw.py` lines 727-736. -/
def n_stt {R : Type*} [Add R] [Sub R] [Mul R] (c : ℚ → R) (v : ℕ → ℕ → ℕ → R) (x y z : R) : R :=
  c 2 * v 1 2 0 + x * (c 4 * v 2 2 0 + x * (c 6 * v 3 2 0 + x * (c 8 * v 4 2 0))) + y * (c 6 * v 1 3 0 + x * (c 12
    * v 2 3 0 + x * (c 18 * v 3 3 0)) + y * (c 12 * v 1 4 0 + x * (c 24 * v 2 4 0) + y * (c 20 * v 1 5 0))) + z *
    (c 2 * v 1 2 1 + x * (c 4 * v 2 2 1 + x * (c 6 * v 3 2 1)) + y * (c 6 * v 1 3 1 + x * (c 12 * v 2 3 1) + y * (c
    12 * v 1 4 1)) + z * (c 2 * v 1 2 2 + x * (c 4 * v 2 2 2) + y * (c 6 * v 1 3 2)))

/-- Numerator of `_ttt`, `/repo/neutralocean/eos/gsw.py` lines 740-749. -/
def n_ttt {R : Type*} [Add R] [Sub R] [Mul R] (c : ℚ → R) (v : ℕ → ℕ → ℕ → R) (x y z : R) : R :=
  c 6 * v 0 3 0 + x * (c 6 * v 1 3 0 + x * (c 6 * v 2 3 0 + x * (c 6 * v 3 3 0))) + y * (c 24 * v 0 4 0 + x * (c 24
    * v 1 4 0 + x * (c 24 * v 2 4 0)) + y * (c 60 * v 0 5 0 + x * (c 60 * v 1 5 0) + y * (c 120 * v 0 6 0))) + z *
    (c 6 * v 0 3 1 + x * (c 6 * v 1 3 1 + x * (c 6 * v 2 3 1)) + y * (c 24 * v 0 4 1 + x * (c 24 * v 1 4 1) + y *
    (c 60 * v 0 5 1)) + z * (c 6 * v 0 3 2 + x * (c 6 * v 1 3 2) + y * (c 24 * v 0 4 2)))

/-- Numerator of `_ssp`, `/repo/neutralocean/eos/gsw.py` lines 753-766. -/
def n_ssp {R : Type*} [Add R] [Sub R] [Mul R] (c : ℚ → R) (v : ℕ → ℕ → ℕ → R) (x y z x2 : R) : R :=
  c (-0.25) * v 1 0 1 + x2 * (c 0.75 * v 3 0 1 + x * (c 2.0 * v 4 0 1 + x * (c 3.75 * v 5 0 1))) + y * (c (-0.25) *
    v 1 1 1 + x2 * (c 0.75 * v 3 1 1 + x * (c 2.0 * v 4 1 1)) + y * (c (-0.25) * v 1 2 1 + x2 * (c 0.75 * v 3 2 1)
    + y * (c (-0.25) * v 1 3 1 + y * (c (-0.25) * v 1 4 1)))) + z * (c (-0.50) * v 1 0 2 + x2 * (c 1.50 * v 3 0 2 +
    x * (c 4.0 * v 4 0 2)) + y * (c (-0.50) * v 1 1 2 + x2 * (c 1.50 * v 3 1 2) + y * (c (-0.50) * v 1 2 2 + y * (c
    (-0.50) * v 1 3 2))) + z * (c (-0.75) * v 1 0 3 + y * (c (-0.75) * v 1 1 3) + z * (c (-1.00) * v 1 0 4)))

/-- Numerator of `_stp`, `/repo/neutralocean/eos/gsw.py` lines 770-778. -/
def n_stp {R : Type*} [Add R] [Sub R] [Mul R] (c : ℚ → R) (v : ℕ → ℕ → ℕ → R) (x y z : R) : R :=
  v 1 1 1 + x * (c 2 * v 2 1 1 + x * (c 3 * v 3 1 1 + x * (c 4 * v 4 1 1))) + y * (c 2 * v 1 2 1 + x * (c 4 * v 2 2
    1 + x * (c 6 * v 3 2 1)) + y * (c 3 * v 1 3 1 + x * (c 6 * v 2 3 1) + y * (c 4 * v 1 4 1))) + z * (c 2 * v 1 1
    2 + x * (c 4 * v 2 1 2 + x * (c 6 * v 3 1 2)) + y * (c 4 * v 1 2 2 + x * (c 8 * v 2 2 2) + y * (c 6 * v 1 3 2))
    + z * (c 3 * v 1 1 3))

/-- Numerator of `_ttp`, `/repo/neutralocean/eos/gsw.py` lines 782-790. -/
def n_ttp {R : Type*} [Add R] [Sub R] [Mul R] (c : ℚ → R) (v : ℕ → ℕ → ℕ → R) (x y z : R) : R :=
  c 2 * v 0 2 1 + x * (c 2 * v 1 2 1 + x * (c 2 * v 2 2 1 + x * (c 2 * v 3 2 1))) + y * (c 6 * v 0 3 1 + x * (c 6 *
    v 1 3 1 + x * (c 6 * v 2 3 1)) + y * (c 12 * v 0 4 1 + x * (c 12 * v 1 4 1) + y * (c 20 * v 0 5 1))) + z * (c 4
    * v 0 2 2 + x * (c 4 * v 1 2 2 + x * (c 4 * v 2 2 2)) + y * (c 12 * v 0 3 2 + x * (c 12 * v 1 3 2) + y * (c 24
    * v 0 4 2)) + z * (c 6 * v 0 2 3))

/-- Numerator of `_spp`, `/repo/neutralocean/eos/gsw.py` lines 794-801. -/
def n_spp {R : Type*} [Add R] [Sub R] [Mul R] (c : ℚ → R) (v : ℕ → ℕ → ℕ → R) (x y z : R) : R :=
  c 2 * v 1 0 2 + x * (c 4 * v 2 0 2 + x * (c 6 * v 3 0 2 + x * (c 8 * v 4 0 2))) + y * (c 2 * v 1 1 2 + x * (c 4 *
    v 2 1 2 + x * (c 6 * v 3 1 2)) + y * (c 2 * v 1 2 2 + x * (c 4 * v 2 2 2) + y * (c 2 * v 1 3 2))) + z * (c 6 *
    v 1 0 3 + x * (c 12 * v 2 0 3) + y * (c 6 * v 1 1 3) + z * (c 12 * v 1 0 4))

/-- Numerator of `_tpp`, `/repo/neutralocean/eos/gsw.py` lines 805-812. -/
def n_tpp {R : Type*} [Add R] [Sub R] [Mul R] (c : ℚ → R) (v : ℕ → ℕ → ℕ → R) (x y z : R) : R :=
  c 2 * v 0 1 2 + x * (c 2 * v 1 1 2 + x * (c 2 * v 2 1 2 + x * (c 2 * v 3 1 2))) + y * (c 4 * v 0 2 2 + x * (c 4 *
    v 1 2 2 + x * (c 4 * v 2 2 2)) + y * (c 6 * v 0 3 2 + x * (c 6 * v 1 3 2) + y * (c 8 * v 0 4 2))) + z * (c 6 *
    v 0 1 3 + x * (c 6 * v 1 1 3) + y * (c 12 * v 0 2 3) + z * (c 12 * v 0 1 4))

/-- Numerator of `_ppp`, `/repo/neutralocean/eos/gsw.py` lines 816-823. -/
def n_ppp {R : Type*} [Add R] [Sub R] [Mul R] (c : ℚ → R) (v : ℕ → ℕ → ℕ → R) (x y z : R) : R :=
  c 6 * v 0 0 3 + x * (c 6 * v 1 0 3 + x * (c 6 * v 2 0 3)) + y * (c 6 * v 0 1 3 + x * (c 6 * v 1 1 3) + y * (c 6 *
    v 0 2 3)) + z * (c 24 * v 0 0 4 + x * (c 24 * v 1 0 4) + y * (c 24 * v 0 1 4) + z * (c 60 * v 0 0 5 + z * (c
    120 * v 0 0 6)))

/-- `_s`, `/repo/neutralocean/eos/gsw.py` lines 512-530; `none` is `ZeroDivisionError`. -/
def d_s {F : Type*} [FloatLike F] (v : ℕ → ℕ → ℕ → F) (x y z : F) : Option F := do
  let q ← sdiv (n_s lit v x y z) (x)
  return q * (lit 0.5 * lit sfac)

/-- `_t`, `/repo/neutralocean/eos/gsw.py` lines 534-552. -/
def d_t {F : Type*} [FloatLike F] (v : ℕ → ℕ → ℕ → F) (x y z : F) : Option F :=
  some ((n_t lit v x y z) * (lit tfac))

/-- `_p`, `/repo/neutralocean/eos/gsw.py` lines 556-574. -/
def d_p {F : Type*} [FloatLike F] (v : ℕ → ℕ → ℕ → F) (x y z : F) : Option F :=
  some ((n_p lit v x y z) * (lit pfac))

/-- `_ss`, `/repo/neutralocean/eos/gsw.py` lines 578-596; `none` is `ZeroDivisionError`. -/
def d_ss {F : Type*} [FloatLike F] (v : ℕ → ℕ → ℕ → F) (x y z x2 : F) : Option F := do
  let q ← sdiv (n_ss lit v x y z x2) (x * x2)
  return q * (lit sfac * lit sfac)

/-- `_st`, `/repo/neutralocean/eos/gsw.py` lines 600-613; `none` is `ZeroDivisionError`. -/
def d_st {F : Type*} [FloatLike F] (v : ℕ → ℕ → ℕ → F) (x y z : F) : Option F := do
  let q ← sdiv (n_st lit v x y z) (x)
  return q * (lit 0.5 * lit tfac * lit sfac)

/-- `_tt`, `/repo/neutralocean/eos/gsw.py` lines 617-630. -/
def d_tt {F : Type*} [FloatLike F] (v : ℕ → ℕ → ℕ → F) (x y z : F) : Option F :=
  some ((n_tt lit v x y z) * (lit tfac * lit tfac))

/-- `_sp`, `/repo/neutralocean/eos/gsw.py` lines 634-646; `none` is `ZeroDivisionError`. -/
def d_sp {F : Type*} [FloatLike F] (v : ℕ → ℕ → ℕ → F) (x y z : F) : Option F := do
  let q ← sdiv (n_sp lit v x y z) (x)
  return q * (lit 0.5 * lit pfac * lit sfac)

/-- `_tp`, `/repo/neutralocean/eos/gsw.py` lines 650-662. -/
def d_tp {F : Type*} [FloatLike F] (v : ℕ → ℕ → ℕ → F) (x y z : F) : Option F :=
  some ((n_tp lit v x y z) * (lit tfac * lit pfac))

/-- `_pp`, `/repo/neutralocean/eos/gsw.py` lines 666-679. -/
def d_pp {F : Type*} [FloatLike F] (v : ℕ → ℕ → ℕ → F) (x y z : F) : Option F :=
  some ((n_pp lit v x y z) * (lit pfac * lit pfac))

/-- `_sss`, `/repo/neutralocean/eos/gsw.py` lines 683-702; `none` is `ZeroDivisionError`. -/
def d_sss {F : Type*} [FloatLike F] (v : ℕ → ℕ → ℕ → F) (x y z x2 : F) : Option F := do
  let q ← sdiv (n_sss lit v x y z x2) (x * x2 * x2)
  return q * (lit sfac * lit sfac * lit sfac)

/-- `_sst`, `/repo/neutralocean/eos/gsw.py` lines 706-723; `none` is `ZeroDivisionError`. -/
def d_sst {F : Type*} [FloatLike F] (v : ℕ → ℕ → ℕ → F) (x y z x2 : F) : Option F := do
  let q ← sdiv (n_sst lit v x y z x2) (x * x2)
  return q * (lit sfac * lit sfac * lit tfac)

/-- `_stt`, `/repo/neutralocean/eos/gsw.py` lines 727-736; `none` is `ZeroDivisionError`. -/
def d_stt {F : Type*} [FloatLike F] (v : ℕ → ℕ → ℕ → F) (x y z : F) : Option F := do
  let q ← sdiv (n_stt lit v x y z) (x)
  return q * (lit tfac * lit tfac * lit sfac / lit 2)

/-- `_ttt`, `/repo/neutralocean/eos/gsw.py` lines 740-749. -/
def d_ttt {F : Type*} [FloatLike F] (v : ℕ → ℕ → ℕ → F) (x y z : F) : Option F :=
  some ((n_ttt lit v x y z) * (lit tfac * lit tfac * lit tfac))

/-- `_ssp`, `/repo/neutralocean/eos/gsw.py` lines 753-766; `none` is `ZeroDivisionError`. -/
def d_ssp {F : Type*} [FloatLike F] (v : ℕ → ℕ → ℕ → F) (x y z x2 : F) : Option F := do
  let q ← sdiv (n_ssp lit v x y z x2) (x * x2)
  return q * (lit sfac * lit sfac * lit pfac)

/-- `_stp`, `/repo/neutralocean/eos/gsw.py` lines 770-778; `none` is `ZeroDivisionError`. -/
def d_stp {F : Type*} [FloatLike F] (v : ℕ → ℕ → ℕ → F) (x y z : F) : Option F := do
  let q ← sdiv (n_stp lit v x y z) (x)
  return q * (lit 0.5 * lit sfac * lit tfac * lit pfac)

/-- `_ttp`, `/repo/neutralocean/eos/gsw.py` lines 782-790. -/
def d_ttp {F : Type*} [FloatLike F] (v : ℕ → ℕ → ℕ → F) (x y z : F) : Option F :=
  some ((n_ttp lit v x y z) * (lit tfac * lit tfac * lit pfac))

/-- `_spp`, `/repo/neutralocean/eos/gsw.py` lines 794-801; `none` is `ZeroDivisionError`. -/
def d_spp {F : Type*} [FloatLike F] (v : ℕ → ℕ → ℕ → F) (x y z : F) : Option F := do
  let q ← sdiv (n_spp lit v x y z) (x)
  return q * (lit pfac * lit pfac * lit sfac / lit 2)

/-- `_tpp`, `/repo/neutralocean/eos/gsw.py` lines 805-812. -/
def d_tpp {F : Type*} [FloatLike F] (v : ℕ → ℕ → ℕ → F) (x y z : F) : Option F :=
  some ((n_tpp lit v x y z) * (lit tfac * lit pfac * lit pfac))

/-- `_ppp`, `/repo/neutralocean/eos/gsw.py` lines 816-823. -/
def d_ppp {F : Type*} [FloatLike F] (v : ℕ → ℕ → ℕ → F) (x y z : F) : Option F :=
  some ((n_ppp lit v x y z) * (lit pfac * lit pfac * lit pfac))

variable {F : Type*} [FloatSqrt F]

/-- The coefficients as numbers. -/
def vf (i j k : ℕ) : F := lit (vtab i j k)

/-- `np.maximum(a, 0)`: NaN stays NaN. -/
def max0 (a : F) : F := if isNaN a then a else if lt a (lit 0) then lit 0 else a

/-- `_process(SA, CT, p)`, `/repo/neutralocean/eos/gsw.py` lines 470-476: `(x, y, z, x2)`. -/
def process (SA CT p : F) : F × F × F × F :=
  let x2 := lit sfac * max0 SA + lit offset
  (FloatSqrt.sqrt x2, CT * lit tfac, p * lit pfac, x2)

/-- `specvol(SA, CT, p)`, `/repo/neutralocean/eos/gsw.py` lines 224-243. -/
def specvol (SA CT p : F) : F :=
  let (x, y, z, _) := process SA CT p
  pSpecvol vf x y z

/-- `specvol_first_derivs`, `/repo/neutralocean/eos/gsw.py` lines 247-271. -/
def specvolFirst (SA CT p : F) : Option (List F) := do
  let (x, y, z, _) := process SA CT p
  let s ← d_s vf x y z
  let t ← d_t vf x y z
  let p ← d_p vf x y z
  return [s, t, p]

/-- `specvol_second_derivs`, `/repo/neutralocean/eos/gsw.py` lines 275-303. -/
def specvolSecond (SA CT p : F) : Option (List F) := do
  let (x, y, z, x2) := process SA CT p
  let ss ← d_ss vf x y z x2
  let st ← d_st vf x y z
  let tt ← d_tt vf x y z
  let sp ← d_sp vf x y z
  let tp ← d_tp vf x y z
  let pp ← d_pp vf x y z
  return [ss, st, tt, sp, tp, pp]

/-- `specvol_third_derivs`, `/repo/neutralocean/eos/gsw.py` lines 307-339. -/
def specvolThird (SA CT p : F) : Option (List F) := do
  let (x, y, z, x2) := process SA CT p
  let sss ← d_sss vf x y z x2
  let sst ← d_sst vf x y z x2
  let stt ← d_stt vf x y z
  let ttt ← d_ttt vf x y z
  let ssp ← d_ssp vf x y z x2
  let stp ← d_stp vf x y z
  let ttp ← d_ttp vf x y z
  let spp ← d_spp vf x y z
  let tpp ← d_tpp vf x y z
  let ppp ← d_ppp vf x y z
  return [sss, sst, stt, ttt, ssp, stp, ttp, spp, tpp, ppp]

/-- `specvol_s_t`, `/repo/neutralocean/eos/gsw.py` lines 343-368. -/
def specvolST (SA CT p : F) : Option (F × F) := do
  let (x, y, z, _) := process SA CT p
  let s ← d_s vf x y z
  let t ← d_t vf x y z
  return (s, t)

/-- `specvol_p`, `/repo/neutralocean/eos/gsw.py` lines 372-391. -/
def specvolP (SA CT p : F) : Option F :=
  let (x, y, z, _) := process SA CT p
  d_p vf x y z

/-- `specvol_s_t_ss_st_tt_sp_tp`, `/repo/neutralocean/eos/gsw.py` lines 395-423. -/
def specvolSel2 (SA CT p : F) : Option (List F) := do
  let (x, y, z, x2) := process SA CT p
  let s ← d_s vf x y z
  let t ← d_t vf x y z
  let ss ← d_ss vf x y z x2
  let st ← d_st vf x y z
  let tt ← d_tt vf x y z
  let sp ← d_sp vf x y z
  let tp ← d_tp vf x y z
  return [s, t, ss, st, tt, sp, tp]

/-- `specvol_s_t_ss_st_tt_sp_tp_sss_sst_stt_ttt_ssp_stp_ttp_spp_tpp`, `/repo/neutralocean/eos/gsw.py` lines 427-466. -/
def specvolSel3 (SA CT p : F) : Option (List F) := do
  let (x, y, z, x2) := process SA CT p
  let s ← d_s vf x y z
  let t ← d_t vf x y z
  let ss ← d_ss vf x y z x2
  let st ← d_st vf x y z
  let tt ← d_tt vf x y z
  let sp ← d_sp vf x y z
  let tp ← d_tp vf x y z
  let sss ← d_sss vf x y z x2
  let sst ← d_sst vf x y z x2
  let stt ← d_stt vf x y z
  let ttt ← d_ttt vf x y z
  let ssp ← d_ssp vf x y z x2
  let stp ← d_stp vf x y z
  let ttp ← d_ttp vf x y z
  let spp ← d_spp vf x y z
  let tpp ← d_tpp vf x y z
  return [s, t, ss, st, tt, sp, tp, sss, sst, stt, ttt, ssp, stp, ttp, spp, tpp]

end Gsw
