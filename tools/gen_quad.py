"""Generate lean/Verif/Quad/Tables.lean from the source text of the quadrature tables."""
import ast, sys
SRC = '/repo/sfepy/discrete/quadratures.py'
src = open(SRC).read()
t = ast.parse(src)
tab = None
for n in t.body:
    if isinstance(n, ast.Assign) and getattr(n.targets[0], 'id', '') == 'quadrature_tables':
        tab = n.value

def dec(s):
    s = s.lower()
    if 'e' in s:
        m, e = s.split('e'); e = int(e)
    else:
        m, e = s, 0
    a, b = m.split('.') if '.' in m else (m, '')
    k = len(b) - e
    v = int(a + b)
    while k > 0 and v % 10 == 0:
        v //= 10; k -= 1
    if k < 0:
        v *= 10 ** (-k); k = 0
    return v, k

def ev(n):
    if isinstance(n, ast.Constant):
        v, k = dec(ast.get_source_segment(src, n))
        return f'dc {v} {k}'
    if isinstance(n, ast.UnaryOp):
        return f'.neg ({ev(n.operand)})'
    if isinstance(n, ast.BinOp):
        o = {ast.Add: 'add', ast.Sub: 'sub', ast.Mult: 'mul', ast.Div: 'div'}[type(n.op)]
        return f'.{o} ({ev(n.left)}) ({ev(n.right)})'
    if isinstance(n, ast.Call) and ast.unparse(n.func) == 'nm.sqrt':
        a = n.args[0]
        if isinstance(a, ast.BinOp):
            assert isinstance(a.op, ast.Div)
            p, k1 = dec(ast.get_source_segment(src, a.left))
            q, k2 = dec(ast.get_source_segment(src, a.right))
        else:
            p, k1 = dec(ast.get_source_segment(src, a)); q, k2 = 1, 0
        assert k1 == k2 == 0
        return f'.sqrt {p} {q}'
    raise KeyError(ast.unparse(n))

out = ['''/-
GENERATED by tools/gen_quad.py from the text of sfepy/discrete/quadratures.py: the tables of quadrature
points.  `dc m k` is the decimal number `m / 10 ^ k` of the source.
-/
import Verif.Quad.Model

namespace Quad

/-- A decimal number. -/
abbrev dc (m k : ℕ) : Ex := .dec m k
''']
names = {}
for k, v in zip(tab.keys, tab.values):
    g = k.value.replace('_', '')
    lst = []
    for kk, vv in zip(v.keys, v.values):
        o = kk.value
        kw = {x.arg: x.value for x in vv.keywords}
        assert set(kw) <= {'bounds', 'tp_fix', 'weight_fix', 'symmetric'}
        if 'bounds' in kw:
            assert ast.unparse(kw['bounds']) == '(-1.0, 1.0)'
        sym = 'symmetric' in kw and kw['symmetric'].value
        rows = [[ev(x) for x in r.elts] for r in vv.args[0].elts]
        nm = f't{g}o{o}'
        lst.append(nm)
        out.append(f'''/-- The entry of order {o} of the geometry `{k.value}`,
sfepy/discrete/quadratures.py:{vv.lineno}-{vv.end_lineno}. -/
def {nm} : Entry where
  order := {o}
  rows := [
''' + ',\n'.join('    ([' + ', '.join(r[:-1]) + '], ' + r[-1] + ')' for r in rows) + f''']
  bounds := {'true' if 'bounds' in kw else 'false'}
  tpFix := {ev(kw['tp_fix']) if 'tp_fix' in kw else 'dc 1 0'}
  weightFix := {ev(kw['weight_fix']) if 'weight_fix' in kw else 'dc 1 0'}
  symmetric := {'true' if sym else 'false'}
''')
    names[g] = (lst, k.lineno, v.end_lineno)
out.append('/-- `quadrature_tables`, sfepy/discrete/quadratures.py:240-851. -/\ndef tables : Geom → List Entry')
for g, (lst, a, b) in names.items():
    out.append(f'  | .g{g} => [' + ', '.join(lst) + ']')
out.append('\n/-- `QuadraturePoints.from_table`, sfepy/discrete/quadratures.py:128-189, with the tables of the module. -/\nnoncomputable def fromTable (g : Geom) (order : ℕ) (full : Bool) : Option (Rule ℝ × ℕ) :=\n  fromTableOf tables g order full\n\nend Quad')
open(sys.argv[1], 'w').write('\n'.join(out) + '\n')
