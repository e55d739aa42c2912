#!/usr/bin/env python3
"""Write /verif/AXIOMS.md: the axioms every theorem of MANIFEST.json depends on, as printed by `#print axioms`."""
import json, re, subprocess, collections
M = json.load(open("/verif/MANIFEST.json"))
names = [(c["property"], t) for c in M["claims"] for t in c["theorems"]]
src = "import Verif\nset_option maxRecDepth 100000\n" + "".join(f"#print axioms {t}\n" for _, t in names)
open("/tmp/Axioms.lean", "w").write(src)
r = subprocess.run(["lake", "env", "lean", "/tmp/Axioms.lean"], cwd="/verif/lean", capture_output=True, text=True)
out = re.sub(r"\s+", " ", r.stdout)
ax = {}
for m in re.finditer(r"'([^']+(?:'[^' ]*)*)' (?:depends on axioms: \[([^\]]*)\]|does not depend on any axioms)", out):
    ax[m.group(1)] = m.group(2) or ""
groups = collections.OrderedDict()
miss = []
for p, t in names:
    if t not in ax: miss.append(t); continue
    groups.setdefault(tuple(sorted(x.strip() for x in ax[t].split(",") if x.strip())), []).append(t)
allowed = {"propext", "Classical.choice", "Quot.sound"}
with open("/verif/AXIOMS.md", "w") as f:
    f.write("# Axioms per theorem\n\nGenerated by `tools/axioms.py` from `#print axioms` on every theorem named in `MANIFEST.json`.\n")
    for g, ts in sorted(groups.items(), key=lambda x: len(x[0])):
        f.write(f"\n## {', '.join(g) or 'no axioms'} ({len(ts)} theorems)\n\n")
        f.write(", ".join(f"`{t.replace('Avf.','',1)}`" for t in ts) + "\n")
print("missing:", miss, "bad:", [g for g in groups if not set(g) <= allowed], {g: len(t) for g, t in groups.items()})
if r.returncode: print(r.stdout[-500:], r.stderr[-500:])
