#!/usr/bin/env python3
"""Print, for each large bundled circuit, whether the text of the model equals the file in the repository (needs a built project)."""
import subprocess
FILES = [('mult64Text', 'arithmetic/mult2_64.txt'), ('udiv64Text', 'arithmetic/udivide64.txt'),
         ('div64Text', 'arithmetic/divide64.txt'), ('aes128Text', 'cryptography/AES-non-expanded.txt')]
src = 'import Verif\nopen CC.Bundled\n'
for t, f in FILES:
    src += '#eval do IO.println s!"%s {(← IO.FS.readFile "/repo/src/circuits/%s").toList == %s}"\n' % (f, f, t)
open('/tmp/cmptext.lean', 'w').write(src)
subprocess.run(['lake', 'env', 'lean', '/tmp/cmptext.lean'], cwd='/verif/lean')
