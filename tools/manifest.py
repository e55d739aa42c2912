#!/usr/bin/env python3
"""Regenerates lean/Verif.lean (imports) and MANIFEST.json from the theorem names in lean/Verif/Props."""
import json, os, re, glob
root = os.path.dirname(os.path.dirname(os.path.abspath(__file__)))
lean = os.path.join(root, 'lean')
mods = sorted(glob.glob(os.path.join(lean, 'Verif', '**', '*.lean'), recursive=True))
with open(os.path.join(lean, 'Verif.lean'), 'w') as f:
    for m in mods:
        f.write('import ' + os.path.relpath(m, lean)[:-5].replace('/', '.') + '\n')
props = [json.loads(l) for l in open(os.path.join(root, 'properties.jsonl'))]
names = {}
for m in sorted(glob.glob(os.path.join(lean, 'Verif', 'Props', '**', '*.lean'), recursive=True)):
    ns = []
    for line in re.sub(r'/-.*?-/', '', open(m).read(), flags=re.S).split('\n'):
        a = re.match(r'namespace\s+(\S+)', line)
        if a: ns.append(a.group(1)); continue
        a = re.match(r'section\b', line)
        if a: ns.append(None); continue
        a = re.match(r'end\b\s*(\S*)', line)
        if a and ns: ns.pop(); continue
        a = re.match(r'(?:private\s+)?theorem\s+(\S+)', line)
        if a:
            full = '.'.join([n for n in ns if n] + [a.group(1)])
            c = re.search(r'(?:^|\.)(C\d+)_', full)
            if c: names.setdefault(c.group(1), []).append(full)
notes = json.load(open(os.path.join(root, 'tools', 'notes.json')))
claims = []
for p in props:
    i = p['id']
    th = names.get(i, [])
    if not th: continue
    st = 'partial' if any(t.endswith('_partial') or t.endswith('_violated') for t in th) else 'proved'
    claims.append({'property': i, 'status': notes.get(i, {}).get('status', st), 'theorems': th, 'note': notes.get(i, {}).get('note', p['title'])})
json.dump({'claims': claims}, open(os.path.join(root, 'MANIFEST.json'), 'w'), indent=1, ensure_ascii=False)
print(len(claims), 'claims;', 'missing:', [p['id'] for p in props if p['id'] not in names])
unknown = [c for c in names if c not in {p['id'] for p in props}]
if unknown: print('UNKNOWN', unknown)
