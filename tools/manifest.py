#!/usr/bin/env python3
"""Writes MANIFEST.json and lean/Verif/Audit.lean from tools/claims.json (property -> status, theorems, note)."""
import json, os
root = os.path.dirname(os.path.dirname(os.path.abspath(__file__)))
claims = json.load(open(os.path.join(root, 'tools', 'claims.json')))
out = [dict(property=k, **v) for k, v in sorted(claims.items())]
json.dump({'claims': out}, open(os.path.join(root, 'MANIFEST.json'), 'w'), indent=1, ensure_ascii=False)
mods = sorted(f[:-5] for f in os.listdir(os.path.join(root, 'lean/Verif/Props')) if f.endswith('.lean'))
with open(os.path.join(root, 'lean/Verif/Audit.lean'), 'w') as f:
    for m in mods:
        f.write(f'import Verif.Props.{m}\n')
    f.write('\n/-! # Axioms each property theorem depends on (generated by tools/manifest.py) -/\n\n')
    for c in out:
        for t in c['theorems']:
            f.write(f'#print axioms {t}\n')
# lean/Verif.lean imports every module
with open(os.path.join(root, 'lean/Verif.lean'), 'w') as f:
    for d in ['Model', 'Spec', 'Lemmas', 'Props', 'Tests']:
        for m in sorted(os.listdir(os.path.join(root, 'lean/Verif', d))):
            if m.endswith('.lean'):
                f.write(f'import Verif.{d}.{m[:-5]}\n')
    f.write('import Verif.Audit\n')
