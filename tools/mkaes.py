#!/usr/bin/env python3
"""Generate the certificate of the AES circuit (lean/Verif/Proofs/Aes128Cert.lean): which lines form which substitution box, and
which lines are between the rounds. The boxes are found by simulation. The certificate is a hint; the kernel checks it. With --check,
compare with the file present."""
import random
import sys
from mkcert import Circuit, enc, DST


def xt(a):
    a <<= 1
    return a ^ 0x11b if a & 0x100 else a


def mul(a, b):
    r = 0
    while b:
        if b & 1:
            r ^= a
        a, b = xt(a), b >> 1
    return r


def sbox(a):
    b = 1
    for _ in range(254):
        b = mul(b, a)
    r = 0x63
    for k in range(5):
        r ^= ((b << k) | (b >> (8 - k))) & 0xff
    return r


S = [sbox(a) for a in range(256)]
FULL = (1 << 256) - 1
BASE = [sum(1 << x for x in range(256) if x >> j & 1) for j in range(8)]
SUB = [sum(1 << x for x in range(256) if S[x] >> j & 1) for j in range(8)]


def shift(s):
    return [s[(i + 4 * (i % 4)) % 16] for i in range(16)]


def mix(s, add, dbl):
    o = []
    for c in range(0, 16, 4):
        a = s[c:c + 4]
        for i in range(4):
            x = add(dbl(a[i]), add(dbl(a[(i + 1) % 4]), a[(i + 1) % 4]))
            o.append(add(add(x, a[(i + 2) % 4]), a[(i + 3) % 4]))
    return o


def next_key(k, t, rc, add):
    t = [add(t[0], rc)] + t[1:]
    out = []
    for i in range(4):
        t = [add(x, y) for x, y in zip(k[4 * i:4 * i + 4], t)]
        out += t
    return out


ROT = (13, 14, 15, 12)


def trace(key, pt):
    """the inputs of the 20 boxes of each round"""
    xor = lambda x, y: x ^ y
    s, k, rc, T = [x ^ y for x, y in zip(pt, key)], key, 1, []
    for r in range(10):
        w = [k[i] for i in ROT]
        T.append(s + w)
        k = next_key(k, [S[x] for x in w], rc, xor)
        rc = xt(rc)
        s = shift([S[x] for x in s])
        if r < 9:
            s = mix(s, xor, xt)
        s = [x ^ y for x, y in zip(s, k)]
    return T, s


def solve(target, basis):
    """the subset of the basis with the given sum"""
    piv = {}
    for i, b in enumerate(basis):
        m = 1 << i
        while b:
            h = b.bit_length()
            if h not in piv:
                piv[h] = (b, m)
                break
            b, m = b ^ piv[h][0], m ^ piv[h][1]
    m = 0
    while target:
        p = piv.get(target.bit_length())
        if p is None:
            return None
        target, m = target ^ p[0], m ^ p[1]
    return m


def build():
    sys.setrecursionlimit(100000)
    c = Circuit('cryptography/AES-non-expanded.txt')
    N = 4096
    rnd = random.Random(1)
    pts = [[rnd.randrange(256) for _ in range(16)] for _ in range(N)]
    ks = [[rnd.randrange(256) for _ in range(16)] for _ in range(N)]
    bit = lambda rows, i: sum(((rows[n][i // 8] >> (7 - i % 8)) & 1) << n for n in range(N))
    v = {i: bit(pts, i) for i in range(128)}
    v.update({128 + i: bit(ks, i) for i in range(128)})
    ones = (1 << N) - 1
    form = {i: 1 << (1 + i) for i in range(256)}
    ands = []
    for op, a, o in c.gates:
        if op == 'XOR':
            v[o], form[o] = v[a[0]] ^ v[a[1]], form[a[0]] ^ form[a[1]]
        elif op == 'INV':
            v[o], form[o] = v[a[0]] ^ ones, form[a[0]] ^ 1
        else:
            v[o], form[o] = v[a[0]] & v[a[1]], 1 << (257 + len(ands))
            ands.append(o)
    T = [trace(k, p)[0] for k, p in zip(ks, pts)]
    order = [(r, b) for r in range(10) for b in range(20)]
    groups = {}
    for r, b in order:
        g = [0] * 256
        for n in range(N):
            g[T[n][r][b]] |= 1 << n
        groups[r, b] = g
    isfun = lambda x, g: all(x & m in (0, m) for m in g)
    tt = lambda x, g: sum(1 << i for i, m in enumerate(g) if x & m)
    owner, of = {}, {k: [] for k in order}
    for z in ands:
        owner[z] = next(k for k in order if isfun(v[z], groups[k]))
        of[owner[z]].append(z)
    boxes, pats = {}, []
    for k in order:
        g, inner, inp, seen = groups[k], [], [], set()

        def visit(w):
            if w in seen:
                return
            seen.add(w)
            if w in c.defn and all(isfun(v[x], g) for x in c.defn[w][1]):
                for x in c.defn[w][1]:
                    visit(x)
                inner.append(w)
            else:
                inp.append((w, solve(tt(v[w], g), [FULL] + BASE[::-1])))
        for z in of[k]:
            visit(z)
        assert len(inp) == 8 and len(of[k]) == 34
        t, z = zip(*sorted((tt(v[z], g), z) for z in of[k]))
        y = tuple(solve(s, [FULL] + list(t)) for s in SUB)
        if y not in pats:
            pats.append(y)
        boxes[k] = (z, inner, inp, pats.index(y))
    # sums of the bits of the states and round keys, in terms of inputs and AND gates
    add = lambda x, y: [p ^ q for p, q in zip(x, y)]
    dbl = lambda b: [b[1], b[2], b[3], b[4] ^ b[0], b[5] ^ b[0], b[6], b[7] ^ b[0], b[0]]

    def out(k):
        z, _, _, p = boxes[k]
        r = []
        for j in range(7, -1, -1):
            y = pats[p][j]
            f = y & 1
            for i in range(34):
                if y >> (i + 1) & 1:
                    f ^= form[z[i]]
            r.append(f)
        return r
    key = [[form[128 + 8 * i + j] for j in range(8)] for i in range(16)]
    st = [[form[8 * i + j] ^ key[i][j] for j in range(8)] for i in range(16)]
    levels, rc = [(st, key)], 1
    for r in range(10):
        y = [out((r, b)) for b in range(20)]
        key = next_key(key, y[16:], [rc >> (7 - j) & 1 for j in range(8)], add)
        rc = xt(rc)
        st = shift(y[:16])
        if r < 9:
            st = mix(st, add, dbl)
        st = [add(x, k) for x, k in zip(st, key)]
        levels.append((st, key))
    first = len(c.gates) + 256 - 128
    assert [form[first + i] for i in range(128)] == [f for b in levels[10][0] for f in b]
    mask = [0] * 10
    for z in ands:
        mask[owner[z][0]] |= form[z]
    carry, lines = {10: {}}, {}
    for r in range(10, -1, -1):
        want = list(range(first, first + 128)) if r == 10 else [w for b in range(20) for w, _ in boxes[r, b][2]]
        want += [carry[r][i][0] for i in sorted(carry[r])]
        seq, seen, car = [], set(), {}

        def visit(w):
            if w in seen:
                return
            seen.add(w)
            if (w < 256) if r == 0 else (w in owner and owner[w][0] == r - 1):
                return
            if r > 0 and not form[w] & mask[r - 1]:
                J = solve(form[w], [1] + [f for b in levels[r - 1][1] for f in b])
                i = (J >> 1).bit_length() - 1
                assert J >> 1 == 1 << i and i not in car
                car[i] = (w, J & 1)
                return
            for x in c.defn[w][1]:
                visit(x)
            seq.append(w)
        for w in want:
            visit(w)
        lines[r] = c.at(*seq)
        if r > 0:
            assert len(car) == 128
            carry[r - 1] = car
    chunks = lambda l: '[\n' + ',\n'.join('    ' + enc([p + 1 for p in l[i:i + 64]]) for i in range(0, len(l), 64)) + ']'
    out = ['''import Verif.Proofs.AesCheck

/-!
# Certificate for `AES-non-expanded.txt`

Where the lines of the circuit are (generated by `tools/mkaes.py`).
-/

namespace CC.Aes

/-- which AND gates of a substitution box are added to obtain its output; there are %d patterns -/
def aesPatterns : Nat → B Nat''' % len(pats)]
    for i, y in enumerate(pats):
        out.append('  | %s => ⟨%s⟩' % ('_' if i == len(pats) - 1 else i, ', '.join('0x%x' % y[j] for j in range(7, -1, -1))))
    out.append('\n/-- the lines before the first round -/\ndef aesStart : List Nat := ' + chunks(lines[0]) + '\n')
    for r in range(10):
        flat = lambda d, l: [x for i in l for x in d[i]]
        kc = enc(flat(carry[r], range(128)))
        ac = enc([z for b in range(20) for z in boxes[r, b][0]])
        bc = '[\n' + ',\n'.join('    ' + enc([boxes[r, b][3], len(boxes[r, b][1])] + flat(boxes[r, b][2], range(8)) +
                                c.at(*boxes[r, b][1])) for b in range(20)) + ']'
        out.append('def aesRound%d : RoundCert where\n  key := %s\n  ands := %s\n  boxes := %s\n  lines := %s\n' % (
            r, kc, ac, bc, chunks(lines[r + 1])))
    out.append('def aesRounds : Nat → RoundCert\n%s\n\nend CC.Aes' % '\n'.join(
        '  | %s => aesRound%d' % (r if r < 9 else '_', r) for r in range(10)))
    return '\n'.join(out) + '\n'


if __name__ == '__main__':
    s, p = build(), DST + 'Aes128Cert.lean'
    if '--check' in sys.argv:
        print('Aes128Cert', 'same' if open(p).read() == s else 'DIFFERENT')
    else:
        open(p, 'w').write(s)
