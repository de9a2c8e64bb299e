"""imp.py MOD... — import modules in Verif.lean (names without the Verif. prefix)."""
import sys
p='/verif/lean/Verif.lean'
s=open(p).read()
for m in sys.argv[1:]:
    if f'import Verif.{m}\n' not in s: s=s.rstrip('\n')+f'\nimport Verif.{m}\n'
open(p,'w').write(s)
