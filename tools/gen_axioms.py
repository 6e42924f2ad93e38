#!/usr/bin/env python3
"""Write ../AXIOMS.md: the axioms every theorem of MANIFEST.json depends on, as `#print axioms` reports them.
Run after `lake build`."""
import json, os, re, subprocess, tempfile
here = os.path.dirname(os.path.abspath(__file__))
claims = json.load(open(f'{here}/../MANIFEST.json'))['claims']
names = [t for c in claims for t in c['theorems']]
with tempfile.NamedTemporaryFile('w', suffix='.lean', delete=False) as f:
    f.write('import Verif\n' + ''.join(f'#print axioms {t}\n' for t in dict.fromkeys(names)))
r = subprocess.run(['lake', 'env', 'lean', f.name], cwd=f'{here}/../lean', capture_output=True, text=True)
assert r.returncode == 0, r.stdout + r.stderr
os.unlink(f.name)
ax = {}
for m in re.finditer(r"'([^']+)' (does not depend on any axioms|depends on axioms: \[([^\]]*)\])", r.stdout):
    ax[m.group(1)] = ', '.join(f'`{a.strip()}`' for a in m.group(3).split(',')) if m.group(3) else 'none'
out = ['# Axioms of each theorem', '',
       'Written by `tools/gen_axioms.py` from `#print axioms`. All are axioms of Lean itself.', '',
       '| property | theorem | axioms |', '|---|---|---|']
for c in claims:
    for t in c['theorems']:
        out.append(f"| {c['property']} | `{t}` | {ax[t]} |")
open(f'{here}/../AXIOMS.md', 'w').write('\n'.join(out) + '\n')
print(len(names), 'theorems;', sorted(set(ax.values())))
