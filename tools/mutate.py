#!/usr/bin/env python3
"""Run seeded bugs: mutate.py FILE.json [id...].  Each entry: {id, file, def, old, new, claim, expect}.
The edit is made in a scratch copy (/tmp/mut/lean), the copy is rebuilt, and the property theorems that no longer have a
proof are listed: those with an error of their own and those that use a declaration with an error. SCRATCH: another copy;
TARGETS: build these modules only."""
import json, re, subprocess, sys, os, pathlib
R = pathlib.Path(os.environ.get("SCRATCH", "/tmp/mut/lean"))
deps = {}
for l in open(os.environ.get("DEPS", "/tmp/mut/deps.txt")):
    p = l.split()
    deps[p[0].replace("Avf.", "", 1)] = set(x.replace("Avf.", "", 1) for x in p)
DECL = re.compile(r"^(?:@\[[^\]]*\]\s*)?(?:private |protected |noncomputable )*(theorem|def|instance|example|structure|inductive|abbrev)\b\s*([^\s:({\[]*)")

def decl_at(path, line):
    ns, name = [], None
    for i, l in enumerate(open(path), 1):
        if i > line: break
        m = re.match(r"namespace (\S+)", l)
        if m: ns.append(m.group(1))
        m = re.match(r"end (\S+)", l)
        if m and ns and ns[-1] == m.group(1): ns.pop()
        m = DECL.match(l)
        if m:
            n = m.group(2)
            name = ".".join([x for x in ns if x != "Avf"] + [n]) if n else f"{m.group(1)}@{path.name}:{i}"
    return name

def names(out):
    bad = []
    for p, line, _ in re.findall(r"error: (Verif/\S+?\.lean):(\d+):(\d+)", out):
        d = decl_at(R / p, int(line))
        if d not in bad: bad.append(d)
    return bad

def build():
    r = subprocess.run(["lake", "build"] + os.environ.get("TARGETS", "").split(), cwd=R, capture_output=True, text=True, timeout=1800)
    return r.returncode, r.stdout + r.stderr

def missing(mu, failed):
    return [c for c in mu["expect"] if not any(t.split(".")[-1].startswith(c + "_") for t in failed)]

def run(mu):
    f = R / "Verif" / mu["file"]
    src = f.read_text()
    assert src.count(mu["old"]) == 1, (mu["id"], src.count(mu["old"]))
    f.write_text(src.replace(mu["old"], mu["new"]))
    touched = {}
    try:
        code, out = build()
        bad = names(out)
        def failing(): return sorted(t for t, ds in deps.items() if any(b in ds or b == t for b in bad))
        # A module with errors keeps its dependents from being built: if the theorem that ought to fail was not reached,
        # switch the proofs of the failing lemma files off (scratch copy only) and build on.
        last = out
        for _ in range(8):
            if not missing(mu, failing()): break
            mods = [m for m in dict.fromkeys(re.findall(r"error: (Verif/\S+?\.lean):", last)) if m not in touched]
            if not mods: break
            for m in mods:
                q = R / m
                touched[m] = q.read_text()
                t = touched[m]
                i = t.index("\nnamespace Avf")
                # keep line numbers: put the option on the namespace line
                q.write_text(t[:i] + t[i:].replace("namespace Avf", "set_option debug.byAsSorry true namespace Avf", 1))
            _, last = build()
            bad += [x for x in names(last) if x not in bad]
    finally:
        for m, t in touched.items(): (R / m).write_text(t)
        f.write_text(src)
    return code, bad, failing(), out

if __name__ == "__main__":
    muts = json.load(open(sys.argv[1]))
    only = set(sys.argv[2:])
    done = set()
    log = pathlib.Path("/verif/seeded/LOG.jsonl")
    for mu in muts:
        if only and mu["id"] not in only: continue
        code, bad, failed, out = run(mu)
        missed = missing(mu, failed)
        print(mu["id"], "rc", code, "bad decls:", bad[:6], "| claims:", sorted(set(t.split(".")[-1].split("_")[0] for t in failed)), "| MISSED" if missed else "| ok", missed, flush=True)
        if code != 0 and not bad:
            print(out[-1500:])
            continue
        rec = {"id": mu["id"], "definition": f'{mu["def"]} (lean/Verif/{mu["file"]})', "edit": f'{mu["old"].strip()}  ==>  {mu["new"].strip()}',
               "claim": mu["claim"], "first_broken": bad, "failed": failed, "missed": missed, "tightened": mu.get("tightened", [])}
        with open(log, "a") as g: g.write(json.dumps(rec, ensure_ascii=False) + "\n")
