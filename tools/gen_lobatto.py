#!/usr/bin/env python3
"""Generates lean/Verif/Poly/LobTables.lean from sfepy/discrete/fem/extmods/lobatto1d.c."""
import re, ast
src = open('/repo/sfepy/discrete/fem/extmods/lobatto1d.c').read()
lines = src.split('\n')
fs = {}
for i, l in enumerate(lines):
    m = re.match(r'float64 (d_)?(lobatto|kernel|legendre)_(\d+)\(', l)
    if m:
        r = re.match(r'\s*return\((.*)\);', lines[i + 2])
        fs[((m.group(1) or '') + m.group(2), int(m.group(3)))] = (r.group(1), i + 1, i + 4)
def pr(n, p=0):
    """print an expression; p: precedence of the context"""
    if isinstance(n, ast.BinOp):
        if isinstance(n.op, ast.Div):
            if isinstance(n.left, ast.Constant) and isinstance(n.right, ast.Constant):
                return '(q %d %d)' % (n.left.value, n.right.value)
            return '(dv (%s) %d)' % (pr(n.left), n.right.value)
        op, q = {ast.Add: ('+', 1), ast.Sub: ('-', 1), ast.Mult: ('*', 2)}[type(n.op)]
        s = '%s %s %s' % (pr(n.left, q), op, pr(n.right, q + 1))
        return '(' + s + ')' if p > q else s
    if isinstance(n, ast.UnaryOp):
        return '(-%s)' % pr(n.operand, 3)
    if isinstance(n, ast.Call):
        if n.func.id == 'pow':
            return '%s ^ %d' % (pr(n.args[0], 4), n.args[1].value)
        return 'r'
    if isinstance(n, ast.Name):
        return n.id
    return '%d' % n.value
out = ['''/-
The tables of sfepy/discrete/fem/extmods/lobatto1d.c, generated from the source by tools/gen_lobatto.py: the Lobatto
functions, their kernels, the Legendre functions and the derivatives as expressions in `x`; `r` stands for the only
square root in the expression of a function, the lists `..Rad` are the numbers under it (1 if there is none).
-/
import Verif.Poly.Expr

namespace Verif.Poly

namespace Lob

local instance : Add PE := ⟨PE.add⟩
local instance : Sub PE := ⟨PE.sub⟩
local instance : Mul PE := ⟨PE.mul⟩
local instance : Neg PE := ⟨fun a => PE.sub (PE.c 0) a⟩
local instance : Pow PE ℕ := ⟨PE.pow⟩
local instance (n : ℕ) : OfNat PE n := ⟨PE.c n⟩

local notation "x" => PE.v 0
local notation "r" => PE.v 3

/-- Division of an expression by a number. -/
def dv (a : PE) (n : ℕ) : PE := PE.mul a (PE.c (1 / n))

/-- A quotient of two numbers. -/
def q (m n : ℕ) : PE := PE.c (m / n)
''']
nm = {'lobatto': 'lobatto', 'd_lobatto': 'dLobatto', 'kernel': 'kernel', 'd_kernel': 'dKernel', 'legendre': 'legendre', 'd_legendre': 'dLegendre'}
for t in nm:
    lo = 2 if 'kernel' in t else 0
    items, rads = [], []
    for k in range(lo, 11):
        e, a, b = fs[(t, k)]
        rd = set(re.findall(r'sqrt\((\d+)\)', e))
        assert len(rd) <= 1
        rads.append(int(rd.pop()) if rd else 1)
        items.append(pr(ast.parse(e, mode='eval').body))
    a, b = fs[(t, lo)][1], fs[(t, 10)][2]
    out.append('/-- `%s[]` (sfepy/discrete/fem/extmods/lobatto1d.c:%d-%d). -/\ndef %sTab : List PE := [\n  %s]\n' % (t, a, b, nm[t], ',\n  '.join(items)))
    if 'legendre' not in t:
        out.append('/-- The numbers under the square roots of `%s[]` (sfepy/discrete/fem/extmods/lobatto1d.c:%d-%d). -/\ndef %sRad : List ℕ := %s\n' % (t, a, b, nm[t], rads))
out.append('end Lob\n\nend Verif.Poly\n')
open('/verif/lean/Verif/Poly/LobTables.lean', 'w').write('\n'.join(out))
