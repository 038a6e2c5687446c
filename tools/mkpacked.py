#!/usr/bin/env python3
"""Generate the model files of the large bundled circuits (lean/Verif/Model/{Mult64,Udiv64,Div64,Aes128}.lean) from the
circuit files of the repository. With --check, compare with the files present."""
import sys, os
SRC = '/repo/src/circuits/'
DST = os.path.join(os.path.dirname(os.path.abspath(__file__)), '../lean/Verif/Model/')
FILES = [('arithmetic/mult2_64.txt', 'Mult64', 'mult64', 'build_mult2_64', 'arithmetic/mod.rs:13'),
         ('arithmetic/udivide64.txt', 'Udiv64', 'udiv64', 'build_divide_unsigned_64', 'arithmetic/mod.rs:15'),
         ('arithmetic/divide64.txt', 'Div64', 'div64', 'build_divide_signed_64', 'arithmetic/mod.rs:14'),
         ('cryptography/AES-non-expanded.txt', 'Aes128', 'aes128', 'build_aes128', 'cryptography/mod.rs:16')]

def pack(l):
    t = l.split(' ')
    if t[-1] == 'INV':
        assert l == '1 1 %d %d INV' % (int(t[2]), int(t[3])); op, a, b, o = 2, int(t[2]), 0, int(t[3])
    else:
        op = {'XOR': 0, 'AND': 1}[t[-1]]; a, b, o = map(int, t[2:5]); assert l == '2 1 %d %d %d %s' % (a, b, o, t[-1])
    assert max(a, b, o) < 1 << 20
    return '%x%05x%05x%05x' % (op, a, b, o)

def main():
    for path, mod, name, fn, where in FILES:
        s = open(SRC + path, newline='').read()
        assert '\r' not in s and '"' not in s and '\\' not in s and '\t' not in s
        end = s.endswith('\n')
        ls = (s[:-1] if end else s).split('\n')
        n = int(ls[0].split()[0])
        gates, tail = ls[4:4 + n], ls[4 + n:]
        assert all(l == '' for l in tail) and all(gates)
        blank = lambda l: 'List.replicate %d \' \'' % len(l) if l and not l.strip() else 'chars! "%s"' % l
        out = ['import Verif.Model.Packed\n\n/-!\n# `src/circuits/%s`: `%s`\n\nThe text is that of `src/circuits/%s` (generated by `tools/mkpacked.py`).\n-/\n\nnamespace CC.Bundled\nopen CC.Bristol\n\n'
               % (where.split(':')[0], fn, path)]
        out.append('/-- the %d gate lines of src/circuits/%s, 256 lines per number -/\ndef %sData : List Nat := [\n' % (n, path, name))
        bl = []
        for i in range(0, n, 256):
            bl.append('  0x' + ''.join(reversed([pack(l) for l in gates[i:i + 256]])))
        out.append(',\n'.join(bl) + ']\n\n')
        body = 'ofLines (%s ++\n  (packed %d %sData).map lineText%s)' % (
            '[' + ', '.join(blank(l) for l in ls[:4]) + ']', n, name, ' ++ [' + ', '.join('[]' for _ in tail) + ']' if tail else '')
        if not end: body = '(%s).dropLast' % body
        out.append('/-- src/circuits/%s -/\ndef %sText : List Char := %s\n\n' % (path, name, body))
        cap = name[0].upper() + name[1:]
        out.append('/-- `%s` — src/circuits/%s. -/\ndef build%s : Ref → M Unit := build %sText\n\nend CC.Bundled\n' % (fn, where, cap, name))
        txt = ''.join(out)
        if '--check' in sys.argv: print(mod, 'same' if open(DST + mod + '.lean').read() == txt else 'DIFFERENT')
        else: open(DST + mod + '.lean', 'w').write(txt)
main()
