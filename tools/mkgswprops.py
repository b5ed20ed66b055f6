"""Writes lean/Verif/Lemmas/EosGsw.lean: derivative lemmas for the 19 polynomials of gsw.py."""
import os
out = []
w = out.append
w('''import Verif.Model.EosGsw
import Verif.Lemmas.Eos
import Verif.Props.Interp

/-!
# Derivatives of the polynomials in `gsw.py`

Written by `/verif/tools/mkgswprops.py`.
-/

namespace Gsw
open FloatLike Interp Eos
open Fl hiding nan

/-- A literal as a real number. -/
def cR (q : ℚ) : ℝ := q

/-- The scale factors as real numbers. -/
def sf : ℝ := (sfac : ℚ)
/-- The scale factors as real numbers. -/
def tf : ℝ := (tfac : ℚ)
/-- The scale factors as real numbers. -/
def pf : ℝ := (pfac : ℚ)
''')
for q, v in [("2","2"),("3","3"),("4","4"),("5","5"),("6","6"),("8","8"),("9","9"),("12","12"),("18","18"),("20","20"),("24","24"),("30","30"),("60","60"),("120","120")]:
    w(f"theorem c_{q} : cR {q} = {v} := by norm_num [cR]")
dec = [("0.5","1/2"),("0.75","3/4"),("2.0","2"),("3.75","15/4"),("0.375","3/8"),("1.875","15/8"),("6.0","6"),("1.50","3/2"),("4.0","4"),("2.25","9/4"),
  ("(-0.25)","-1/4"),("(-0.375)","-3/8"),("(-0.50)","-1/2"),("(-0.75)","-3/4"),("(-1.00)","-1"),("(-1.25)","-5/4")]
names = [f"c_{q}" for q in "2 3 4 5 6 8 9 12 18 20 24 30 60 120".split()]
for i,(q,v) in enumerate(dec):
    w(f"theorem cd_{i} : cR {q} = {v} := by norm_num [cR]")
    names.append(f"cd_{i}")
cs = ", ".join(names)
# order: key -> (scale, power of x, uses x2)
sc = {
 "s": ("(1 / 2 * sf)",1,False), "t": ("tf",0,False), "p": ("pf",0,False),
 "ss": ("(sf * sf)",3,True), "st": ("(1 / 2 * tf * sf)",1,False), "tt": ("(tf * tf)",0,False),
 "sp": ("(1 / 2 * pf * sf)",1,False), "tp": ("(tf * pf)",0,False), "pp": ("(pf * pf)",0,False),
 "sss": ("(sf * sf * sf)",5,True), "sst": ("(sf * sf * tf)",3,True), "stt": ("(tf * tf * sf / 2)",1,False), "ttt": ("(tf * tf * tf)",0,False),
 "ssp": ("(sf * sf * pf)",3,True), "stp": ("(1 / 2 * sf * tf * pf)",1,False), "ttp": ("(tf * tf * pf)",0,False),
 "spp": ("(pf * pf * sf / 2)",1,False), "tpp": ("(tf * pf * pf)",0,False), "ppp": ("(pf * pf * pf)",0,False)}
den = {1:"x",3:"(x * (x * x))",5:"(x * (x * x) * (x * x))"}
w("")
for k,(s,n,u) in sc.items():
    x2 = " (x * x)" if u else ""
    d = f" / {den[n]}" if n else ""
    w(f"/-- The value of `_{k}` as a real function of `x`, `y`, `z`. -/")
    w(f"noncomputable def r_{k} (v : ℕ → ℕ → ℕ → ℝ) (x y z : ℝ) : ℝ := n_{k} cR v x y z{x2}{d} * {s}\n")
w('''
/-! ### The model over `Fl ℝ` computes these -/

theorem half_eq : ((0.5 : ℚ) : ℝ) = 1 / 2 := by norm_num

theorem fin_div_two (a : ℝ) : (Fl.fin a : Fl ℝ) / .fin ((2 : ℚ) : ℝ) = .fin (a / 2) := by
  rw [Rat.cast_ofNat, fin_div _ _ (by norm_num)]
''')
for k,(s,n,u) in sc.items():
    x2 = " (.fin (x * x))" if u else ""
    hx = "" if n==0 else " (hx : x ≠ 0)"
    w(f"theorem d_{k}_fin (v : ℕ → ℕ → ℕ → ℝ) {{x : ℝ}} (y z : ℝ){hx} :")
    w(f"    d_{k} (fun i j k => Fl.fin (v i j k)) (.fin x) (.fin y) (.fin z){x2} = some (.fin (r_{k} v x y z)) := by")
    if n>1:
        w(f"  have hd : {den[n]} ≠ 0 := by positivity")
    hd = {0:"",1:", sdiv_fin hx",3:", sdiv_fin hd",5:", sdiv_fin hd"}[n]
    two = ""
    if "/ 2)" in s and n==1 and s.endswith("/ 2)"):
        two = ", fin_div_two"
    w(f"  simp only [d_{k}, r_{k}, n_{k}, lit_eq, fin_add, fin_mul, fin_sub, cR, sf, tf, pf, half_eq{hd}{two}, Option.bind_eq_bind,")
    w(f"    Option.bind_some, Option.pure_def]\n")
w('''
/-! ### Derivatives in `y` and `z` -/
''')
def canon(s): return "".join(sorted(s, key="stp".index))
parents = [""]+list(sc)
var = {"t":("y","tf"),"p":("z","pf"),"s":("x","sf")}
pairs=[]
for k in parents:
    if len(k)==3: continue
    for d in "tp":
        pairs.append((k,d,canon(k+d)))
for k,d,c in pairs:
    V,S = var[d]
    f = f"pSpecvol v x y z" if k=="" else f"r_{k} v x y z"
    unf = "pSpecvol" if k=="" else f"r_{k}, n_{k}"
    # derivative in y of f times scale = r_c
    w(f"theorem deriv_{k or 'v'}_{d} (v : ℕ → ℕ → ℕ → ℝ) (x y z : ℝ) :")
    w(f"    ∃ g, HasDerivAt (fun {V} => {f}) g {V} ∧ g * {S} = r_{c} v x y z := by")
    w(f"  simp only [{unf}, r_{c}, n_{c}, {cs}, div_eq_mul_inv]")
    w(f"  refine ⟨_, by hderiv, ?_⟩")
    w(f"  ring\n")
w('''
/-! ### Derivatives in `x` -/
''')
# f = n/x^m * sc ; derivative in x times sf/(2x) = r_c
for k in parents:
    if len(k)==3: continue
    c = canon(k+"s")
    if k=="":
        w(f"theorem deriv_v_s (v : ℕ → ℕ → ℕ → ℝ) (x y z : ℝ) (hx : x ≠ 0) :")
        w(f"    ∃ g, HasDerivAt (fun x => pSpecvol v x y z) g x ∧ g * (sf / (2 * x)) = r_s v x y z := by")
        w(f"  simp only [pSpecvol, r_s, n_s, {cs}]")
        w(f"  refine ⟨_, by hderiv, ?_⟩")
        w(f"  field_simp\n  ring\n")
        continue
    s,n,u = sc[k]
    w(f"theorem deriv_{k}_s (v : ℕ → ℕ → ℕ → ℝ) (x y z : ℝ) (hx : x ≠ 0) :")
    w(f"    ∃ g, HasDerivAt (fun x => r_{k} v x y z) g x ∧ g * (sf / (2 * x)) = r_{c} v x y z := by")
    w(f"  simp only [r_{k}, n_{k}, r_{c}, n_{c}, {cs}]")
    if n==0:
        w(f"  refine ⟨_, by hderiv, ?_⟩")
    else:
        w(f"  refine ⟨_, HasDerivAt.fun_mul (HasDerivAt.fun_div (by hderiv) (by hderiv) (by positivity)) (hasDerivAt_const _ _), ?_⟩")
    w(f"  field_simp\n  ring\n")
w("end Gsw")
open(os.path.join(os.path.dirname(__file__),"../lean/Verif/Lemmas/EosGsw.lean"),"w").write("\n".join(out)+"\n")
