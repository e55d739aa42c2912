#!/usr/bin/env python3
"""Systematic edits of the model: automutate.py list | run [file-regex].
Every operator, number, flag, field update and rebinding in the body of every definition of lean/Verif/Model is changed,
one at a time, in the scratch copy /tmp/mut/lean, and the copy is rebuilt.  Results go to /tmp/mut/auto.jsonl:
verdict "theorem" (a lemma or theorem no longer has a proof), "example" (only examples fail), "survived" (all builds),
"ill-formed" (the model itself does not compile)."""
import json, re, subprocess, sys, os, pathlib, signal, time, random
sys.path.insert(0, os.path.dirname(__file__))
R = pathlib.Path(os.environ.get("SCRATCH", "/tmp/mut/lean"))
SRC = pathlib.Path(os.environ.get("SOURCE", "/verif/lean")) / "Verif"
OUT = pathlib.Path("/tmp/mut/auto.jsonl")
TOP = re.compile(r"^(@\[|private |protected |noncomputable |theorem|lemma|def|instance|example|structure|inductive|abbrev|namespace|end|section|variable|open|/-|deriving|set_option|universe|mutual)")
BIN = {" < ": [" ≤ "], " ≤ ": [" < "], " > ": [" ≥ "], " ≥ ": [" > "], " = ": [" ≠ "], " ≠ ": [" = "], " == ": [" != "],
       " ∧ ": [" ∨ "], " ∨ ": [" ∧ "], " && ": [" || "], " || ": [" && "], " + ": [" - "], " - ": [" + "], " * ": [" + "],
       " / ": [" * "], " % ": [" / "], " &&& ": [" ||| "], " ||| ": [" &&& "], " <<< ": [" >>> "], " >>> ": [" <<< "],
       "¬ ": [""], "true": ["false"], "false": ["true"]}

def blocks(text):
    """(name, start, end) of the bodies of definitions, as offsets"""
    lines = text.splitlines(keepends=True)
    off, cur, res = 0, None, []
    incomment = False
    for l in lines:
        if cur and (TOP.match(l)):
            res.append((cur[0], cur[1], off)); cur = None
        m = re.match(r"(?:private |protected |noncomputable )*(?:def|abbrev)\s+(\S+)", l)
        if m and not incomment: cur = (m.group(1), off)
        if cur and re.match(r"\s*(termination_by|decreasing_by)", l):
            res.append((cur[0], cur[1], off)); cur = None
        if "/-" in l and "-/" not in l: incomment = True
        if "-/" in l: incomment = False
        off += len(l)
    if cur: res.append((cur[0], cur[1], off))
    out = []
    for n, a, b in res:
        body = text[a:b]
        m = re.search(r":=|\n  \| ", body)
        if m: out.append((n, a + m.end(), b))
    return out

def sites(text):
    for name, a, b in blocks(text):
        body = text[a:b]
        # mask comments
        masked = re.sub(r"--[^\n]*", lambda m: " " * len(m.group()), body)
        masked = re.sub(r'"[^"\n]*"', lambda m: "_" * len(m.group()), masked)
        for op, news in BIN.items():
            pat = r"\b%s\b" % op if op.isalpha() else re.escape(op)
            for m in re.finditer(pat, masked):
                if op == " = " and re.search(r"\blet\b[^=\n]*$", masked[masked.rfind("\n", 0, m.start()) + 1:m.start()]): continue
                for new in news: yield name, a + m.start(), a + m.end(), new
        for m in re.finditer(r"(?<![\w.])(0x[0-9a-fA-F]+|\d+)(?![\w])", masked):
            v = int(m.group(), 0)
            yield name, a + m.start(), a + m.end(), str(v + 1)
            if v > 0: yield name, a + m.start(), a + m.end(), str(v - 1)
        # field updates
        for m in re.finditer(r"\{ ?\w[\w.]* with", masked):
            i, depth, start = m.end(), 0, m.end()
            fields = []
            while i < len(masked):
                c = masked[i]
                if c in "([{⟨": depth += 1
                elif c in ")]}⟩":
                    if depth == 0: fields.append((start, i)); break
                    depth -= 1
                elif c in ",\n" and depth == 0:
                    fields.append((start, i)); start = i + 1
                i += 1
            fields = [f for f in fields if masked[f[0]:f[1]].strip()]
            if len(fields) == 1:
                base = re.match(r"\{ ?(\w[\w.]*) with", masked[m.start():]).group(1)
                yield name, a + m.start(), a + fields[0][1] + 1, base
            else:
                for s, e in fields:
                    if ":=" not in masked[s:e]: continue
                    # remove the field together with one separator
                    if masked[e] in ",\n": yield name, a + s, a + e + (1 if masked[e] == "," else 0), ""
                    else: yield name, a + s - 1, a + e, " "
        # rebindings
        for m in re.finditer(r"\n +let (\(?)([\w', ]+)\)? (:=|←) ([^\n]*)(?=\n)", masked):
            vs = [v.strip() for v in m.group(2).split(",")]
            if any(re.search(r"\b%s\b" % re.escape(v), m.group(4)) for v in vs if v != "_"):
                yield name, a + m.start(), a + m.end(), ""
        # conditions
        for m in re.finditer(r"\bif (?!h\b|_h\w* :|h :|let )", masked):
            yield name, a + m.end(), a + m.end(), "¬ "

def all_sites():
    n = 0
    for f in sorted(SRC.glob("Model/*.lean")):
        t = f.read_text()
        for name, s, e, new in sites(t):
            if t[s:e] == new: continue
            n += 1
            yield f"A{n:04d}", f, name, s, e, new, t

from mutate import decl_at
def run(f, s, e, new, t):
    q = R / "Verif/Model" / f.name
    q.write_text(t[:s] + new + t[e:])
    t0 = time.time()
    bad, verdict = [], None
    try:
        p = subprocess.Popen(["lake", "build"], cwd=R, stdout=subprocess.PIPE, stderr=subprocess.STDOUT, text=True, start_new_session=True)
        try:
            for l in p.stdout:
                m = re.search(r"error: (Verif/\S+?\.lean):(\d+):(\d+)", l)
                if m:
                    d = decl_at(R / m.group(1), int(m.group(2)))
                    if d not in bad: bad.append(d)
                    if "/Model/" in m.group(1): verdict = "ill-formed"; break
                    if "example" not in d: verdict = "theorem"; break
                if time.time() - t0 > 1500: verdict = "timeout"; break
        finally:
            try: os.killpg(p.pid, signal.SIGKILL)
            except ProcessLookupError: pass
            p.wait()
        if verdict is None:
            verdict = "example" if bad else ("survived" if p.returncode == 0 else "unknown")
    finally:
        q.write_text(t)
    return verdict, bad, time.time() - t0

if __name__ == "__main__":
    if sys.argv[1] == "list":
        from collections import Counter
        c = Counter(f.name for _, f, *_ in all_sites()); print(c, sum(c.values()))
    else:
        done = set()
        if OUT.exists(): done = {(r["file"], r["def"], r["edit"], r["pos"]) for r in map(json.loads, open(OUT))}
        todo = list(all_sites())
        random.Random(1).shuffle(todo)
        # definitions with the fewest results first
        from collections import Counter
        cnt = Counter((x[0], x[1]) for x in done)
        rank = []
        for x in todo:
            cnt[(x[1].name, x[2])] += 1
            rank.append(cnt[(x[1].name, x[2])])
        todo = [x for _, x in sorted(zip(rank, todo), key=lambda y: y[0])]
        k, n = map(int, os.environ.get("SHARE", "0/1").split("/"))
        for i, f, name, s, e, new, t in todo:
            if int(i[1:]) % n != k: continue
            if len(sys.argv) > 2 and not re.search(sys.argv[2], f.name): continue
            ls, le = t.rfind("\n", 0, s) + 1, t.find("\n", e)
            edit = t[ls:le].strip() + "  ==>  " + (t[ls:s] + new + t[e:le]).strip()
            pos = s - t.rfind("def ", 0, s)
            if (f.name, name, edit, pos) in done: continue
            v, bad, dt = run(f, s, e, new, t)
            with open(OUT, "a") as g:
                g.write(json.dumps({"id": i, "file": f.name, "def": name, "edit": edit, "pos": pos, "verdict": v, "broken": bad, "sec": round(dt)}, ensure_ascii=False) + "\n")
