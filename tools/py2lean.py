"""Translate arithmetic expressions of the equation-of-state modules in /repo into Lean text (source is read as text,
never run).  Usage: see mkeos.py."""
import ast


class Tr:
    def __init__(self, src, names):
        self.src = src
        self.names = names  # python name -> lean term

    def num(self, node, neg=False):
        t = ast.get_source_segment(self.src, node)
        if '.' in t or 'e' in t:
            m, _, e = t.lower().partition('e')
            t = m + ('' if not e else 'e' + (e.lstrip('+').lstrip('0') or '0' if not e.startswith('-') else '-' + e[1:].lstrip('0')))
        return f"c ({'-' if neg else ''}{t})" if neg else f"c {t}"

    def e(self, n):
        if isinstance(n, ast.Constant):
            return self.num(n)
        if isinstance(n, ast.Name):
            return self.names.get(n.id, n.id)
        if isinstance(n, ast.UnaryOp):
            if isinstance(n.op, ast.USub) and isinstance(n.operand, ast.Constant):
                return self.num(n.operand, True)
            if isinstance(n.op, ast.UAdd):
                return self.e(n.operand)
        if isinstance(n, ast.BinOp):
            if isinstance(n.op, ast.Pow):
                assert isinstance(n.right, ast.Constant) and n.right.value in (2, 3)
                b = self.p(n.left)
                return " * ".join([b] * n.right.value)
            op = {ast.Add: '+', ast.Sub: '-', ast.Mult: '*', ast.Div: '/'}[type(n.op)]
            if op in '+-':
                l = self.e(n.left)
                r = self.e(n.right)
                if isinstance(n.right, ast.BinOp) and isinstance(n.right.op, (ast.Add, ast.Sub)):
                    r = f"({r})"
                return f"{l} {op} {r}"
            l = self.e(n.left)
            if isinstance(n.left, ast.BinOp) and isinstance(n.left.op, (ast.Add, ast.Sub)):
                l = f"({l})"
            r = self.p(n.right)
            return f"{l} {op} {r}"
        raise ValueError(ast.dump(n))

    def p(self, n):
        s = self.e(n)
        if isinstance(n, ast.BinOp):
            return f"({s})"
        return s


def wrap(s, width=116, indent='  '):
    out, line = [], indent
    for tok in s.split(' '):
        if len(line) + len(tok) + 1 > width:
            out.append(line.rstrip())
            line = indent + '  '
        line += tok + ' '
    out.append(line.rstrip())
    return '\n'.join(out)


def functions(path):
    src = open(path).read()
    mod = ast.parse(src)
    fns = {n.name: n for n in mod.body if isinstance(n, ast.FunctionDef)}
    consts = []
    for n in mod.body:
        if isinstance(n, ast.Assign) and isinstance(n.targets[0], ast.Name):
            t = ast.get_source_segment(src, n.value).replace(' ', '')
            consts.append((n.targets[0].id, t, n.lineno))
    return src, fns, consts
