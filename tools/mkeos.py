"""Generate Verif/Model/EosJmd95.lean, EosJmdfwg06.lean and EosGsw.lean from the text of /repo/neutralocean/eos/*.py."""
import ast
from py2lean import Tr, wrap, functions

OUT = '/verif/lean/Verif/Model/'
HEAD = '''import Verif.Model.EosBase

/-!
# Model of `/repo/neutralocean/eos/{mod}.py`

The expressions are translated term by term from the Python text by `/verif/tools/mkeos.py`.
`c` turns a literal into a number and `{k}` looks up a coefficient, so that the same expression can be read in
floating point, in `Fl ℝ` and in `ℝ`.
-/

namespace {ns}
open FloatLike Interp Eos
'''


def assigns(fn):
    return {s.targets[0].id: s for s in fn.body if isinstance(s, ast.Assign) and isinstance(s.targets[0], ast.Name)}


def poly(name, args, tr, node, doc, kty):
    return (f"/-- {doc} -/\ndef {name} {{R : Type*}} [Add R] [Sub R] [Mul R] (c : ℚ → R) ({kty}) ({' '.join(args)} : R) : R :=\n"
            + wrap(tr.e(node)) + '\n')


def ratlit(t):
    neg = t.startswith('-')
    t = t.lstrip('-')
    m, _, e = t.lower().partition('e')
    if e:
        s = '-' if e.startswith('-') else ''
        e = 'e' + s + (e.lstrip('+-').lstrip('0') or '0')
    return ('-' if neg else '') + m + e


# ---------------------------------------------------------------- jmd95
def jmd95():
    path = '/repo/neutralocean/eos/jmd95.py'
    src, fns, consts = functions(path)
    names = {n: 'k .' + n[len('eosJMD'):] for n, _, _ in consts}
    tr = Tr(src, names)
    kty = 'k : Co → R'
    o = [HEAD.format(mod='jmd95', ns='Jmd95', k='k')]
    o.append(f"/-- The coefficients `eosJMD...`, `{path}` lines {consts[0][2]}-{consts[-1][2]}. -/\ninductive Co where")
    o.append('  | ' + ' | '.join(n[len('eosJMD'):] for n, _, _ in consts))
    o.append(f"\n/-- Their values, `{path}` lines {consts[0][2]}-{consts[-1][2]}. -/\ndef co : Co → ℚ")
    for n, t, _ in consts:
        o.append(f"  | .{n[len('eosJMD'):]} => {ratlit(t)}")
    o.append('')
    A = ['s1o2', 's', 't', 'p']
    a = assigns(fns['rho'])
    o.append(poly('bulkLit', A, tr, a['K'].value, f'`K` in `rho`, `{path}` lines {a["K"].lineno}-{a["K"].end_lineno} (literal coefficients).', kty).replace(' (k : Co → R)', ''))
    r = a['rho'].value
    assert isinstance(r.op, ast.Div) and ast.unparse(r.right) == '1.0 - p / K'
    o.append(poly('dens0Lit', A[:3], tr, r.left, f'Numerator of `rho`, `{path}` lines {a["rho"].lineno}-{a["rho"].end_lineno} (literal coefficients).', kty).replace(' (k : Co → R)', ''))
    b = assigns(fns['rho_s_t'])
    o.append(poly('bulk', A, tr, b['K'].value, f'`K` in `rho_s_t`, `{path}` lines {b["K"].lineno}-{b["K"].end_lineno}.', kty).replace('(c : ℚ → R) ', ''))
    for nm, n1, n2, n3 in (('rho_s', 'dens0S', 'dens0InS', 'bulkS'), ('rho_t', 'dens0T', 'dens0InT', 'bulkT')):
        v = b[nm].value
        assert isinstance(v.op, ast.Div) and ast.unparse(v.right) == 'K - p'
        s = v.left
        assert isinstance(s.op, ast.Sub) and isinstance(s.left.op, ast.Mult) and ast.unparse(s.left.right) == 'K'
        assert isinstance(s.right.op, ast.Mult) and isinstance(s.right.left.op, ast.Div) and ast.unparse(s.right.left.right) == 'K - p'
        assert isinstance(s.right.left.left.op, ast.Mult) and ast.unparse(s.right.left.left.right) == 'p'
        L = f'`{path}` lines {b[nm].lineno}-{b[nm].end_lineno}'
        o.append(poly(n1, A[:3], tr, s.left.left, f'Factor marked `rho_0_{nm[-1].upper()}` of `{nm}`, {L}.', kty))
        o.append(poly(n2, A[:3], tr, s.right.left.left.left, f'Factor marked `rho_0` of `{nm}`, {L}.', kty).replace('(c : ℚ → R) ', ''))
        o.append(poly(n3, A, tr, s.right.right, f'Factor marked `K_{nm[-1]}` of `{nm}`, {L}.', kty))
    q = assigns(fns['rho_p'])
    trp = Tr(src, dict(names))
    o.append(poly('pK2', ['s', 't', 'p'], trp, q['K2'].value, f'`K2` in `rho_p`, `{path}` lines {q["K2"].lineno}-{q["K2"].end_lineno}.', kty).replace('(c : ℚ → R) ', ''))
    o.append(poly('pK1plusK2', ['s1o2', 's', 't', 'K2'], trp, q['K1plusK2'].value, f'`K1plusK2` in `rho_p`, `{path}` lines {q["K1plusK2"].lineno}-{q["K1plusK2"].end_lineno}.', kty).replace('(c : ℚ → R) ', ''))
    o.append(poly('pK', ['s1o2', 's', 't', 'p', 'K1plusK2'], trp, q['K'].value, f'`K` in `rho_p`, `{path}` lines {q["K"].lineno}-{q["K"].end_lineno}.', kty).replace('(c : ℚ → R) ', ''))
    o.append(poly('pRho', ['s1o2', 's', 't'], trp, q['rho'].value, f'`rho` in `rho_p`, `{path}` lines {q["rho"].lineno}-{q["rho"].end_lineno}.', kty).replace('(c : ℚ → R) ', ''))
    assert ast.unparse(q['rho_p'].value) == 'rho * (K - p * (K1plusK2 + K2)) / (K - p) ** 2'
    o.append(f'''variable {{F : Type*}} [FloatSqrt F]

/-- `rho(s, t, p)`, `{path}` lines {fns['rho'].lineno}-{fns['rho'].end_lineno}; `none` is `ZeroDivisionError`. -/
def rho (s t p : F) : Option F := do
  let s1o2 := FloatSqrt.sqrt s
  let K := bulkLit lit s1o2 s t p
  let q ← sdiv p K
  sdiv (dens0Lit lit s1o2 s t) (lit 1.0 - q)

/-- The coefficients as numbers. -/
def num (n : Co) : F := lit (co n)

/-- `rho_s_t(s, t, p)`, `{path}` lines {fns['rho_s_t'].lineno}-{fns['rho_s_t'].end_lineno}. -/
def rhoST (s t p : F) : Option (F × F) := do
  let s1o2 := FloatSqrt.sqrt s
  let K := bulk num s1o2 s t p
  let w ← sdiv (dens0InS num s1o2 s t * p) (K - p)
  let rs ← sdiv (dens0S lit num s1o2 s t * K - w * bulkS lit num s1o2 s t p) (K - p)
  let w' ← sdiv (dens0InT num s1o2 s t * p) (K - p)
  let rt ← sdiv (dens0T lit num s1o2 s t * K - w' * bulkT lit num s1o2 s t p) (K - p)
  return (rs, rt)

/-- `rho_p(s, t, p)`, `{path}` lines {fns['rho_p'].lineno}-{fns['rho_p'].end_lineno}. -/
def rhoP (s t p : F) : Option F :=
  let s1o2 := FloatSqrt.sqrt s
  let K2 := pK2 num s t p
  let K1plusK2 := pK1plusK2 num s1o2 s t K2
  let K := pK num s1o2 s t p K1plusK2
  sdiv (pRho num s1o2 s t * (K - p * (K1plusK2 + K2))) ((K - p) * (K - p))

end Jmd95''')
    open(OUT + 'EosJmd95.lean', 'w').write('\n'.join(o) + '\n')


# ---------------------------------------------------------------- jmdfwg06
def jmdfwg06():
    path = '/repo/neutralocean/eos/jmdfwg06.py'
    src, fns, consts = functions(path)
    names = {n: 'k .' + n for n, _, _ in consts}
    tr = Tr(src, names)
    kty = 'k : Co → R'
    o = [HEAD.format(mod='jmdfwg06', ns='Jmdfwg06', k='k')]
    o.append(f"/-- The coefficients, `{path}` lines {consts[0][2]}-{consts[-1][2]}. -/\ninductive Co where")
    o.append('  | ' + ' | '.join(n for n, _, _ in consts))
    o.append(f"\n/-- Their values, `{path}` lines {consts[0][2]}-{consts[-1][2]}. -/\ndef co : Co → ℚ")
    for n, t, _ in consts:
        o.append(f"  | .{n} => {ratlit(t)}")
    o.append('')

    def add(name, args, node, doc, usec):
        t = poly(name, args, tr, node, doc, kty)
        if not usec:
            t = t.replace('(c : ℚ → R) ', '')
        o.append(t)
    for f, suf in (('rho', ''), ('rho_s_t', 'ST'), ('rho_p', 'P')):
        a = assigns(fns[f])
        L = lambda x: f'`{path}` lines {a[x].lineno}-{a[x].end_lineno}'
        add('num' + suf, ['s', 't', 'p', 't2'], a['num'].value, f'`num` in `{f}`, {L("num")}.', False)
        d = a['inv_den'].value
        assert isinstance(d.op, ast.Div) and ast.unparse(d.left) == '1.0'

        class S(ast.NodeTransformer):
            def visit_Call(self, n):
                assert ast.unparse(n) == 'np.sqrt(s)'
                return ast.Name('sp5')
        add('den' + suf, ['sp5', 's', 't', 'p', 't2'] + (['pt'] if f == 'rho_s_t' else []), S().visit(d.right), f'Denominator in `{f}`, {L("inv_den")} (`sp5` is `np.sqrt(s)`).', False)
        if f == 'rho_s_t':
            add('numS', ['s', 't', 'p'], a['num_s'].value, f'`num_s`, {L("num_s")}.', True)
            add('numT', ['s', 't', 'p', 'pt'], a['num_t'].value, f'`num_t`, {L("num_t")}.', True)
            add('denS', ['sp5', 't', 't2'], a['den_s'].value, f'`den_s`, {L("den_s")}.', True)
            add('denT', ['sp5', 's', 't', 'p', 't2', 'pt'], a['den_t'].value, f'`den_t`, {L("den_t")}; `p**3` as repeated multiplication.', True)
            assert ast.unparse(a['rho_s'].value) == '(num_s - num * den_s * inv_den) * inv_den'
            assert ast.unparse(a['rho_t'].value) == '(num_t - num * den_t * inv_den) * inv_den'
        if f == 'rho_p':
            add('numP_', ['s', 't2', 'p'], a['num_p'].value, f'`num_p`, {L("num_p")}.', True)
            add('denP_', ['t', 'p', 't2'], a['den_p'].value, f'`den_p`, {L("den_p")}.', True)
            assert ast.unparse(fns[f].body[-1]) == 'return (num_p - num * den_p * inv_den) * inv_den'
        if f == 'rho':
            assert ast.unparse(fns[f].body[-1]) == 'return num * inv_den'
    o.append(f'''variable {{F : Type*}} [FloatSqrt F]

/-- The coefficients as numbers. -/
def cf (n : Co) : F := lit (co n)

/-- `rho(s, t, p)`, `{path}` lines {fns['rho'].lineno}-{fns['rho'].end_lineno}; `none` is `ZeroDivisionError`. -/
def rho (s t p : F) : Option F := do
  let t2 := t * t
  let inv ← sdiv (lit 1.0) (den cf (FloatSqrt.sqrt s) s t p t2)
  return num cf s t p t2 * inv

/-- `rho_s_t(s, t, p)`, `{path}` lines {fns['rho_s_t'].lineno}-{fns['rho_s_t'].end_lineno}. -/
def rhoST (s t p : F) : Option (F × F) := do
  let t2 := t * t
  let sp5 := FloatSqrt.sqrt s
  let pt := p * t
  let n := numST cf s t p t2
  let inv ← sdiv (lit 1.0) (denST cf sp5 s t p t2 pt)
  return ((numS lit cf s t p - n * denS lit cf sp5 t t2 * inv) * inv,
    (numT lit cf s t p pt - n * denT lit cf sp5 s t p t2 pt * inv) * inv)

/-- `rho_p(s, t, p)`, `{path}` lines {fns['rho_p'].lineno}-{fns['rho_p'].end_lineno}. -/
def rhoP (s t p : F) : Option F := do
  let t2 := t * t
  let n := numP cf s t p t2
  let inv ← sdiv (lit 1.0) (denP cf (FloatSqrt.sqrt s) s t p t2)
  return (numP_ lit cf s t2 p - n * denP_ lit cf t p t2 * inv) * inv

end Jmdfwg06''')
    open(OUT + 'EosJmdfwg06.lean', 'w').write('\n'.join(o) + '\n')


# ---------------------------------------------------------------- gsw
def gsw():
    path = '/repo/neutralocean/eos/gsw.py'
    src, fns, consts = functions(path)
    vs = [x for x in consts if x[0].startswith('v')]
    names = {n: 'v ' + ' '.join(n[1:]) for n, _, _ in vs}
    tr = Tr(src, names)
    kty = 'v : ℕ → ℕ → ℕ → R'
    o = [HEAD.format(mod='gsw', ns='Gsw', k='v')]
    for n, t, l in consts:
        if not n.startswith('v'):
            o.append(f"/-- `{n}`, `{path}` line {l}. -/\ndef {n} : ℚ := {ratlit(t)}\n")
    o.append(f"/-- The coefficients `vijk`, `{path}` lines {vs[0][2]}-{vs[-1][2]}. -/\ndef vtab : ℕ → ℕ → ℕ → ℚ")
    for n, t, _ in vs:
        o.append(f"  | {', '.join(n[1:])} => {ratlit(t)}")
    o.append("  | _, _, _ => 0\n")
    tails = {}
    for f in fns.values():
        if f.name in ('_process',) or not f.name.startswith('_'):
            continue
        ret = f.body[-1].value
        args = [a.arg for a in f.args.args]
        L = f'`{path}` lines {f.lineno}-{f.end_lineno}'
        if f.name == '_specvol':
            o.append(poly('pSpecvol', args, tr, ret, f'`_specvol`, {L}.', kty).replace('(c : ℚ → R) ', ''))
            continue
        assert isinstance(ret.op, ast.Mult)
        scale = ast.unparse(ret.right)
        body = ret.left
        div = None
        if isinstance(body, ast.BinOp) and isinstance(body.op, ast.Div):
            div = ast.unparse(body.right)
            body = body.left
        usec = 'c ' in tr.e(body)
        o.append(poly('n' + f.name, args, tr, body, f'Numerator of `{f.name}`, {L}.', kty))
        tails[f.name] = (div, scale, args, L, ret.right)
    for nm, (div, scale, args, L, rnode) in tails.items():
        sc = Tr(src, {'sfac': 'lit sfac', 'tfac': 'lit tfac', 'pfac': 'lit pfac'})
        txt = sc.e(rnode).replace('c 0.5', 'lit 0.5').replace('/ c 2', '/ lit 2')
        if div is None:
            o.append(f'''/-- `{nm}`, {L}. -/
def d{nm} {{F : Type*}} [FloatLike F] (v : ℕ → ℕ → ℕ → F) ({' '.join(args)} : F) : Option F :=
  some ((n{nm} lit v {' '.join(args)}) * ({txt}))
''')
        else:
            o.append(f'''/-- `{nm}`, {L}; `none` is `ZeroDivisionError`. -/
def d{nm} {{F : Type*}} [FloatLike F] (v : ℕ → ℕ → ℕ → F) ({' '.join(args)} : F) : Option F := do
  let q ← sdiv (n{nm} lit v {' '.join(args)}) ({div})
  return q * ({txt})
''')
    o.append(GSWTAIL)
    open(OUT + 'EosGsw.lean', 'w').write('\n'.join(o) + '\n')


GSWTAIL = '''variable {F : Type*} [FloatSqrt F]

/-- The coefficients as numbers. -/
def vf (i j k : ℕ) : F := lit (vtab i j k)

/-- `np.maximum(a, 0)`: NaN stays NaN. -/
def max0 (a : F) : F := if isNaN a then a else if lt a (lit 0) then lit 0 else a

/-- `_process(SA, CT, p)`, `/repo/neutralocean/eos/gsw.py` lines 470-476: `(x, y, z, x2)`. -/
def process (SA CT p : F) : F × F × F × F :=
  let x2 := lit sfac * max0 SA + lit offset
  (FloatSqrt.sqrt x2, CT * lit tfac, p * lit pfac, x2)

/-- `specvol(SA, CT, p)`, `/repo/neutralocean/eos/gsw.py` lines 224-243. -/
def specvol (SA CT p : F) : F :=
  let (x, y, z, _) := process SA CT p
  pSpecvol vf x y z

/-- `specvol_first_derivs`, `/repo/neutralocean/eos/gsw.py` lines 247-271. -/
def specvolFirst (SA CT p : F) : Option (List F) := do
  let (x, y, z, _) := process SA CT p
  let s ← d_s vf x y z
  let t ← d_t vf x y z
  let p ← d_p vf x y z
  return [s, t, p]

/-- `specvol_second_derivs`, `/repo/neutralocean/eos/gsw.py` lines 275-303. -/
def specvolSecond (SA CT p : F) : Option (List F) := do
  let (x, y, z, x2) := process SA CT p
  let ss ← d_ss vf x y z x2
  let st ← d_st vf x y z
  let tt ← d_tt vf x y z
  let sp ← d_sp vf x y z
  let tp ← d_tp vf x y z
  let pp ← d_pp vf x y z
  return [ss, st, tt, sp, tp, pp]

/-- `specvol_third_derivs`, `/repo/neutralocean/eos/gsw.py` lines 307-339. -/
def specvolThird (SA CT p : F) : Option (List F) := do
  let (x, y, z, x2) := process SA CT p
  let sss ← d_sss vf x y z x2
  let sst ← d_sst vf x y z x2
  let stt ← d_stt vf x y z
  let ttt ← d_ttt vf x y z
  let ssp ← d_ssp vf x y z x2
  let stp ← d_stp vf x y z
  let ttp ← d_ttp vf x y z
  let spp ← d_spp vf x y z
  let tpp ← d_tpp vf x y z
  let ppp ← d_ppp vf x y z
  return [sss, sst, stt, ttt, ssp, stp, ttp, spp, tpp, ppp]

/-- `specvol_s_t`, `/repo/neutralocean/eos/gsw.py` lines 343-368. -/
def specvolST (SA CT p : F) : Option (F × F) := do
  let (x, y, z, _) := process SA CT p
  let s ← d_s vf x y z
  let t ← d_t vf x y z
  return (s, t)

/-- `specvol_p`, `/repo/neutralocean/eos/gsw.py` lines 372-391. -/
def specvolP (SA CT p : F) : Option F :=
  let (x, y, z, _) := process SA CT p
  d_p vf x y z

/-- `specvol_s_t_ss_st_tt_sp_tp`, `/repo/neutralocean/eos/gsw.py` lines 395-423. -/
def specvolSel2 (SA CT p : F) : Option (List F) := do
  let (x, y, z, x2) := process SA CT p
  let s ← d_s vf x y z
  let t ← d_t vf x y z
  let ss ← d_ss vf x y z x2
  let st ← d_st vf x y z
  let tt ← d_tt vf x y z
  let sp ← d_sp vf x y z
  let tp ← d_tp vf x y z
  return [s, t, ss, st, tt, sp, tp]

/-- `specvol_s_t_ss_st_tt_sp_tp_sss_sst_stt_ttt_ssp_stp_ttp_spp_tpp`, `/repo/neutralocean/eos/gsw.py` lines 427-466. -/
def specvolSel3 (SA CT p : F) : Option (List F) := do
  let (x, y, z, x2) := process SA CT p
  let s ← d_s vf x y z
  let t ← d_t vf x y z
  let ss ← d_ss vf x y z x2
  let st ← d_st vf x y z
  let tt ← d_tt vf x y z
  let sp ← d_sp vf x y z
  let tp ← d_tp vf x y z
  let sss ← d_sss vf x y z x2
  let sst ← d_sst vf x y z x2
  let stt ← d_stt vf x y z
  let ttt ← d_ttt vf x y z
  let ssp ← d_ssp vf x y z x2
  let stp ← d_stp vf x y z
  let ttp ← d_ttp vf x y z
  let spp ← d_spp vf x y z
  let tpp ← d_tpp vf x y z
  return [s, t, ss, st, tt, sp, tp, sss, sst, stt, ttt, ssp, stp, ttp, spp, tpp]

end Gsw'''

jmd95()
jmdfwg06()
gsw()
