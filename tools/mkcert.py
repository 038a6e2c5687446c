#!/usr/bin/env python3
"""Generate the certificates of the large bundled circuits (lean/Verif/Proofs/{Mult64,Udiv64,Div64}Cert.lean): which lines of the
circuit file form which cell. The certificates are hints; the kernel checks them. With --check, compare with the files present."""
import sys, os
from collections import defaultdict
SRC = '/repo/src/circuits/'
DST = os.path.join(os.path.dirname(os.path.abspath(__file__)), '../lean/Verif/Proofs/')


class Circuit:
    def __init__(self, path):
        ls = open(SRC + path).read().split('\n')
        self.gates = []
        for l in ls[4:4 + int(ls[0].split()[0])]:
            t = l.split()
            n = int(t[0])
            self.gates.append((t[-1], tuple(map(int, t[2:2 + n])), int(t[2 + n])))
        self.defn = {o: (op, a) for op, a, o in self.gates}
        self.pos = {o: i for i, (op, a, o) in enumerate(self.gates)}
        self.use = defaultdict(list)
        for op, a, o in self.gates:
            for x in a:
                self.use[x].append(o)

    def find(self, op, a, b):
        for o in self.use[a]:
            if self.defn[o] in ((op, (a, b)), (op, (b, a))):
                return o

    def at(self, *ws):
        return [self.pos[w] for w in ws]


def enc(r):
    v = 0
    for k, f in enumerate(r):
        v |= f << (16 * k)
    return '0x%x' % v


def mult64():
    c = Circuit('arithmetic/mult2_64.txt')
    find = c.find
    pw = {}
    for op, a, o in c.gates:
        if op == 'AND' and all(x < 128 for x in a):
            i, j = sorted(a)
            pw[(i, j - 64)] = o
    rows = [c.at(*[pw[(i, 0)] for i in range(64)])]
    xs = [pw[(i, 0)] for i in range(1, 64)] + [None]
    for j in range(1, 64):
        ys = [pw[(i, j)] for i in range(64)]
        r = c.at(*ys)
        ss, z = [], None
        for x, y in zip(xs, ys):
            ins = [w for w in (x, y, z) if w is not None]
            if len(ins) == 2:
                s, o = find('XOR', *ins), find('AND', *ins)
                L = [s, o, o, o, o, o]
            else:
                L = None
                for u, v, t in ((x, y, z), (x, z, y), (y, z, x)):
                    t1, t2 = find('XOR', u, t), find('XOR', v, t)
                    g = find('AND', t1, t2) if t1 and t2 else None
                    o = find('XOR', g, t) if g else None
                    if not o:
                        continue
                    uv = find('XOR', u, v)
                    for m1, m2 in ((uv, t), (t1, v), (t2, u)):
                        s = find('XOR', m1, m2) if m1 else None
                        if s:
                            L = [t1, t2, g, o, s, s] if m1 in (t1, t2) else [t1, t2, g, o, m1, s]
                            break
                    if L:
                        break
            r += [s, o] + c.at(*L)
            ss.append(s)
            z = o
        xs = ss[1:] + [z]
        rows.append(r)
    return '''import Verif.Proofs.Cert

/-!
# Certificate for `mult2_64.txt`

Where the lines of the partial products and of the adders are, one number per row (generated by `tools/mkcert.py`).
-/

namespace CC.Bundled

def mult64Cert : List Nat := [
''' + ',\n'.join('  ' + enc(r) for r in rows) + ']\n\nend CC.Bundled\n'


def udiv64():
    c = Circuit('arithmetic/udivide64.txt')
    find, at = c.find, c.at
    chain, H = [], {63: 127}
    for j in range(62, 0, -1):
        x, y = H[j + 1], 64 + j
        g, e = find('AND', x, y), find('XOR', x, y)
        H[j] = o = find('XOR', e, g)
        chain += [o] + at(g, e, o)
    rows, R = [], []
    for k in range(64):
        xs = [63 - k] + R
        r, z, ds = [], None, []
        for i, x in enumerate(xs):
            b = 64 + i
            if z is None:
                d = find('XOR', x, b)
                o = find('AND', d, b)
                L = [d, o, o, o, o]
            else:
                d1, e = find('XOR', x, b), find('XOR', z, b)
                d, g = find('XOR', d1, z), find('AND', d1, e)
                o = find('XOR', z, g)
                L = [d1, e, d, g, o]
            r += [d, o] + at(*L)
            z = o
            ds.append(d)
        if k < 63:
            h = H[k + 1]
            g, e = find('AND', z, h), find('XOR', z, h)
            nb = find('XOR', e, g)
            r += [nb] + at(g, e, nb)
        else:
            nb = z
        R = []
        for x, d in zip(xs, ds):
            f = find('XOR', x, d)
            g = find('AND', nb, f)
            o = find('XOR', g, d)
            r += [o] + at(f, g, o)
            R.append(o)
        q = [o for o in c.use[nb] if c.defn[o][0] == 'INV'][0]
        out = find('XOR', 17015, q)
        r += [q] + at(q) + [out] + at(17015, out)
        rows.append(r)
    return '''import Verif.Proofs.Cert

/-!
# Certificate for `udivide64.txt`

Where the lines of the divider are (generated by `tools/mkcert.py`).
-/

namespace CC.Bundled

/-- lines that combine the upper bits of the divisor -/
def udiv64Highs : Nat := %s

/-- one number per row -/
def udiv64Cert : List Nat := [
''' % enc(chain) + ',\n'.join('  ' + enc(r) for r in rows) + ']\n\nend CC.Bundled\n'


def div64():
    c = Circuit('arithmetic/divide64.txt')
    find, at = c.find, c.at

    def inv(x):
        return [o for o in c.use[x] if c.defn[o][0] == 'INV'][0]

    def xor(*ws):
        """wires of an XOR of the given wires, in some order of association"""
        ws = list(ws)
        if len(ws) == 2:
            o = find('XOR', *ws)
            return o and [o]
        for i in range(3):
            u = find('XOR', *(ws[:i] + ws[i + 1:]))
            o = find('XOR', u, ws[i]) if u else None
            if o:
                return [u, o]

    def invs(xs):
        r = []
        for x in xs:
            r += [inv(x)] + at(inv(x))
        return r, [inv(x) for x in xs]

    def condneg(s, ns, xs, nxs):
        """two's complement of xs if s is set"""
        r, outs, z = [], [], None
        for i, (x, nx) in enumerate(zip(xs, nxs)):
            L = []
            if i == 0:
                t, cr = x, nx
            else:
                y = find('XOR', x, z)
                t = inv(y)
                L = [y, t]
                if i < 63:
                    e = find('XOR', nx, z)
                    g = find('AND', e, z)
                    cr = find('XOR', g, z)
                    L += [e, g, cr]
            p, q = find('AND', t, s), find('AND', x, ns)
            o = find('XOR', p, q)
            L += [p, q, o]
            outs.append(o)
            r += ([o, cr] if 0 < i < 63 else [o]) + at(*L)
            z = cr
        return r, outs

    ra, nas = invs(range(64))
    r, a = condneg(63, nas[63], list(range(64)), nas)
    ra += r
    rb, nbs = invs(range(64, 128))
    r, b = condneg(127, nbs[63], list(range(64, 128)), nbs)
    rb += r
    # negation of b
    neg, R, z = [], [b[0]], b[0]
    for i in range(1, 63):
        d, n = find('XOR', b[i], z), inv(z)
        g = find('AND', n, d)
        o = find('XOR', g, z)
        neg += [d, o] + at(d, n, g, o)
        R.append(d)
        z = o
    sg = find('XOR', b[63], z)
    neg += [sg] + at(sg)
    s = inv(sg)
    neg += [s] + at(s)
    # rows
    rows, signs = [], []
    for k in range(63, -1, -1):
        xs, r, z, R = [a[k]] + R, [], None, []
        for i, x in enumerate(xs):
            if i == 0:
                y, res = find('XOR', x, s), [find('XOR', x, b[0])]
                cr = find('AND', y, b[0])
                L = [y, cr]
            else:
                res = xor(x, b[i], z)
                if i < 63:
                    y = find('XOR', x, s)
                    e, f = find('XOR', y, z), find('XOR', b[i], z)
                    g = find('AND', e, f)
                    cr = find('XOR', g, z)
                    L = [y, e, f, g, cr]
            if i == 63:
                r += [res[-1]] + at(*res)
                sg = res[-1]
            elif k == 0:
                r += [cr] + at(*L)
            else:
                r += [res[-1], cr] + at(*(res + L))
                R.append(res[-1])
            z = cr
        s = inv(sg)
        r += [s] + at(s)
        signs.insert(0, sg)
        rows.append(r)
    sg = find('XOR', 63, 127)
    r, out = condneg(sg, inv(sg), [inv(x) for x in signs], signs)
    fin = [sg] + at(sg) + [inv(sg)] + at(inv(sg)) + r
    assert out == list(range(29990, 30054))
    return '''import Verif.Proofs.Cert

/-!
# Certificate for `divide64.txt`

Where the lines of the divider are (generated by `tools/mkcert.py`).
-/

namespace CC.Bundled

/-- absolute value of the dividend -/
def div64AbsA : Nat := %s

/-- absolute value of the divisor -/
def div64AbsB : Nat := %s

/-- its negation -/
def div64Neg : Nat := %s

/-- one number per row -/
def div64Rows : List Nat := [
%s]

/-- sign of the quotient -/
def div64Sign : Nat := %s

end CC.Bundled
''' % (enc(ra), enc(rb), enc(neg), ',\n'.join('  ' + enc(r) for r in rows), enc(fin))


FILES = {'Div64Cert': div64, 'Mult64Cert': mult64, 'Udiv64Cert': udiv64}

if __name__ == '__main__':
    for name, f in FILES.items():
        s, p = f(), DST + name + '.lean'
        if '--check' in sys.argv:
            print(name, 'same' if open(p).read() == s else 'DIFFERENT')
        else:
            open(p, 'w').write(s)
