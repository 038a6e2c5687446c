#!/usr/bin/env python3
"""Generate lean/Verif/Proofs/BundledFiles.lean: the contents of the bundled circuit files as Lean data. That these are the
contents of the texts in Model/Bundled.lean is proved in Lean."""
import os
SRC = '/repo/src/circuits/arithmetic/'
DST = os.path.join(os.path.dirname(os.path.abspath(__file__)), '../lean/Verif/Proofs/BundledFiles.lean')
out = ['''import Verif.Spec.Bristol

/-!
# Contents of the bundled circuit files

Generated by `tools/mkfiles.py`. That the texts in `Model/Bundled.lean` have these contents is proved in `Props/Bundled.lean`.
-/

namespace CC.Bundled
open CC.Spec.Bristol
''']
for name in ('adder64', 'sub64', 'neg64'):
    ls = open(SRC + name + '.txt').read().split('\n')
    ng, nw = map(int, ls[0].split())
    nums = lambda l: [int(x) for x in l.split()][1:]
    gs = []
    for l in ls[4:]:
        if not l: break
        t = l.split(); k = int(t[0])
        gs.append('⟨.%s, %s, %s⟩' % (t[-1].lower(), [int(x) for x in t[2:2 + k]], t[2 + k]))
    rows = [', '.join(gs[i:i + 5]) for i in range(0, len(gs), 5)]
    out.append('\ndef %sFile : File := { numGate := %d, numWire := %d, ins := %s, outs := %s, gates := [\n  %s] }\n'
               % (name, ng, nw, nums(ls[1]), nums(ls[2]), ',\n  '.join(rows)))
out.append('\nend CC.Bundled\n')
open(DST, 'w').write(''.join(out))
