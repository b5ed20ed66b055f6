import Verif.Model.Float
import Mathlib.Analysis.Real.Pi.Bounds

/-!
# Model of `/repo/neutralocean/synthocean.py`
-/

namespace Synthocean
open FloatLike
variable {F : Type*} [FloatLike F]

/-- Element `i` of numpy's `linspace(a, b, n)`, used at `/repo/neutralocean/synthocean.py` lines 55, 58, 105, 109, 110,
113, 114 and 117: `a` alone when `n = 1`, and otherwise `i * ((b - a) / (n - 1)) + a` with the last element set to `b`. -/
def linspace (a b : F) (n i : ℕ) : F :=
  if n ≤ 1 then a else if i = n - 1 then b else lit i * ((b - a) / lit (n - 1 : ℕ)) + a

/-- `x ** k` for the literal exponents in the code. -/
def pow (x : F) : ℕ → F
  | 0 => lit 1
  | 1 => x
  | k + 1 => pow x k * x

/-- The options of `synthocean`, `/repo/neutralocean/synthocean.py` lines 4-6. -/
structure Opts (F : Type*) where
  ni : ℕ
  nj : ℕ
  nk : ℕ
  pbot : F
  ssssa : F
  uniform : Bool
  wrap0 : Bool
  wrap1 : Bool

variable (o : Opts F)

/-- Scaled longitude `X[i]`, `/repo/neutralocean/synthocean.py` line 55. -/
def X (i : ℕ) : F := linspace (lit (-1)) (lit 1) o.ni i

/-- `x = (Y - -7) / 41.14`, `/repo/neutralocean/synthocean.py` lines 56-58, 71 and 94. -/
def xx (j : ℕ) : F := (linspace (lit (-80)) (lit 60) o.nj j - lit (-7)) / lit 41.14

/-- Surface temperature before scaling, `/repo/neutralocean/synthocean.py` lines 65-78. -/
def rawT (i j : ℕ) : F :=
  let x := xx o j
  let t := lit 0.6265 * pow x 5 + lit 3.269 * pow x 4 + lit (-3.602) * pow x 3 + lit (-18.93) * pow x 2 + lit 5.927 * x
    + lit 27.41
  if o.uniform then t else t - lit 1.5 * X o i

/-- All the values of a horizontal field. -/
def cells (ni nj : ℕ) (f : ℕ → ℕ → F) : List F := (List.range ni).flatMap fun i => (List.range nj).map fun j => f i j

/-- `np.min` and `np.max` of a nonempty array without NaN (here the array never contains NaN); `none` is the `ValueError`
for an empty one. -/
def amin : List F → Option F
  | [] => none
  | x :: l => some (l.foldl fmin x)
@[inherit_doc amin] def amax : List F → Option F
  | [] => none
  | x :: l => some (l.foldl fmax x)

/-- Surface temperature, `/repo/neutralocean/synthocean.py` lines 81-83. -/
def Ts (i j : ℕ) : Option F := do
  let lo ← amin (cells o.ni o.nj (rawT o))
  let hi ← amax (cells o.ni o.nj (rawT o))
  some ((rawT o i j - lo) / (hi - lo) * (lit 30 - lit (-1.8)) + lit (-1.8))

/-- Surface salinity, `/repo/neutralocean/synthocean.py` lines 89-105. -/
def Ss (i j : ℕ) : F :=
  let x := xx o j
  let s := lit 0.2221 * pow x 4 + lit (-0.09487) * pow x 3 + lit (-1.355) * pow x 2 + lit (-0.126) * x + lit 35.59
  (if o.uniform then s else s + (lit 0.4 + lit 0.5 * X o i - lit 0.8 * pow (X o i) 2)) + linspace o.ssssa (lit 0) o.nj j

/-- Bottom temperature and salinity, `/repo/neutralocean/synthocean.py` lines 109-110. -/
def Tb (j : ℕ) : F := linspace (lit 0) (lit 1) o.nj j + (lit (-1.8) - lit 0.1)
@[inherit_doc Tb] def Sb (j : ℕ) : F := linspace (lit 34.7) (lit 34.5) o.nj j

/-- Whether a column is a wall, `/repo/neutralocean/synthocean.py` lines 120-125. -/
def wall (i j : ℕ) : Bool := (!o.wrap0 && i == 0) || (!o.wrap1 && j == 0)

/-- `S[i, j, k]`, `/repo/neutralocean/synthocean.py` lines 113 and 120-125. -/
def S (i j k : ℕ) : F :=
  if wall o i j then nan else linspace (lit 0) (lit 1) o.nk k * (Sb o j - Ss o i j) + Ss o i j

/-- `T[i, j, k]`, `/repo/neutralocean/synthocean.py` lines 114 and 120-125; `none` when `np.min` raises. -/
def T (i j k : ℕ) : Option F := do
  let t ← Ts o i j
  some (if wall o i j then nan else linspace (lit 0) (lit 1) o.nk k * (Tb o j - t) + t)

/-- `P[k]`, `/repo/neutralocean/synthocean.py` line 117. -/
def P (k : ℕ) : F := pow (linspace (lit 0) (lit 1) o.nk k) 3 * o.pbot

/-! The grid geometry `g`, in real numbers (`np.pi`, `np.sin` and `np.cos` are exact here). -/
noncomputable section
variable (ni nj : ℕ)

/-- `g["rSphere"]`, `/repo/neutralocean/synthocean.py` line 133. -/
def rSphere : ℝ := 6370000
/-- `g["resx"]`, `/repo/neutralocean/synthocean.py` line 134. -/
def resx : ℝ := ni / 360
/-- `g["resy"]`, `/repo/neutralocean/synthocean.py` line 135. -/
def resy : ℝ := nj / (60 - -80)
/-- `deg2rad`, `/repo/neutralocean/synthocean.py` line 145. -/
def deg2rad : ℝ := Real.pi / 180
/-- `g["XGvec"][i]`, `/repo/neutralocean/synthocean.py` line 148. -/
def XG (i : ℕ) : ℝ := 0 + i / resx ni
/-- `g["YGvec"][j]`, `/repo/neutralocean/synthocean.py` line 149. -/
def YG (j : ℕ) : ℝ := -80 + j / resy nj
/-- `g["XCvec"][i]`, `/repo/neutralocean/synthocean.py` line 150. -/
def XC (i : ℕ) : ℝ := XG ni i + 1 / (2 * resx ni)
/-- `g["YCvec"][j]`, `/repo/neutralocean/synthocean.py` line 151. -/
def YC (j : ℕ) : ℝ := YG nj j + 1 / (2 * resy nj)
/-- `g["DXGvec"][j]`, `/repo/neutralocean/synthocean.py` line 153. -/
def DXG (j : ℕ) : ℝ := rSphere * Real.cos (YG nj j * deg2rad) / resx ni * deg2rad
/-- `g["DYGsc"]` and `g["DYCsc"]`, `/repo/neutralocean/synthocean.py` lines 154 and 156. -/
def DYG : ℝ := rSphere * deg2rad / resy nj
/-- `g["DXCvec"][j]`, `/repo/neutralocean/synthocean.py` line 155. -/
def DXC (j : ℕ) : ℝ := rSphere * Real.cos (YC nj j * deg2rad) / resx ni * deg2rad
/-- `g["RACvec"][j]` and `g["RAWvec"][j]`, `/repo/neutralocean/synthocean.py` lines 158-159. -/
def RAC (j : ℕ) : ℝ := rSphere * rSphere / resx ni * deg2rad *
  |Real.sin ((YG nj j + 1 / resy nj) * deg2rad) - Real.sin (YG nj j * deg2rad)|
/-- `g["RASvec"][j]` and `g["RAZvec"][j]`, `/repo/neutralocean/synthocean.py` lines 160-161. -/
def RAS (j : ℕ) : ℝ := rSphere * rSphere / resx ni * deg2rad *
  |Real.sin (YC nj j * deg2rad) - Real.sin ((YC nj j - 1 / resy nj) * deg2rad)|

end
end Synthocean
