#!/usr/bin/env python3
"""Generate lean/Verif/Model/Bundled.lean from the circuit files of the repository (adder64, sub64, neg64).
With --check, compare the generated file with the one present."""
import sys, os
SRC = '/repo/src/circuits/arithmetic/'
DST = os.path.join(os.path.dirname(os.path.abspath(__file__)), '../lean/Verif/Model/Bundled.lean')

out = ['''import Verif.Model.Bristol
import Verif.Model.Chars

/-!
# `src/circuits/arithmetic/mod.rs`: bundled circuits

The texts are those of `adder64.txt`, `sub64.txt` and `neg64.txt` in `src/circuits/arithmetic`, line by line (generated by
`tools/mktext.py`). Every line of these files ends with `\\n`. The large files are in
`Model/Mult64`, `Model/Udiv64`, `Model/Div64` and `Model/Aes128`.
-/

namespace CC.Bundled
open CC.Bristol

/-- the text consisting of these lines -/
def ofLines (ls : List (List Char)) : List Char := ls.flatMap fun l => l ++ ['\\n']

/-- `build_circuit_from_bristol!` — src/circuits/mod.rs:20-32: a new reader reads the text into the given circuit. -/
def build (text : List Char) (r : Ref) : M Unit := do
  let _ ← read r Map.empty text
  pure ()
''']
for name, line in (('adder64', 10), ('sub64', 11), ('neg64', 12)):
    s = open(SRC + name + '.txt', newline='').read()
    assert s.endswith('\n') and '\r' not in s and '"' not in s and '\\' not in s and '\t' not in s
    ls = s[:-1].split('\n')
    out.append('\n/-- src/circuits/arithmetic/%s.txt -/\ndef %sText : List Char := ofLines [\n' % (name, name))
    out.append(',\n'.join('  chars! "%s"' % l for l in ls) + ']\n')
    out.append('\n/-- `build_%s` — src/circuits/arithmetic/mod.rs:%d. -/\ndef build%s : Ref → M Unit := build %sText\n'
               % (name, line, name.capitalize(), name))
out.append('\nend CC.Bundled\n')
txt = ''.join(out)
if '--check' in sys.argv:
    print('same' if open(DST).read() == txt else 'DIFFERENT')
else:
    open(DST, 'w').write(txt)
