#!/usr/bin/env python3
"""Run seeded-bug experiments: mutate.py spec.py
Each entry of SPEC: (file under lean/Verif, definition, old text, new text, claim broken, [targets], tightened).
Works in a scratch copy (/tmp/mut, or $MUT) and appends one line per experiment to seeded/LOG.jsonl."""
import json, os, re, subprocess, sys
ROOT = os.path.dirname(os.path.dirname(os.path.abspath(__file__)))
MUT = os.environ.get("MUT", "/tmp/mut")
SPEC = []
def m(file, definition, old, new, claim, targets, tightened=()):
    SPEC.append((file, definition, old, new, claim, targets, list(tightened)))
exec(open(sys.argv[1]).read())
os.makedirs(MUT, exist_ok=True)
subprocess.run(["rm", "-rf", MUT + "/lean"], check=True)
subprocess.run(["cp", "-a", ROOT + "/lean", MUT + "/lean"], check=True)
def enclosing(path, line):
    name = "?"
    for i, l in enumerate(open(path)):
        if i + 1 > line: break
        g = re.match(r"\s*(?:private |protected |noncomputable )*(theorem|lemma|def|example|instance|abbrev|structure)\s*([^\s:({\[]*)", l)
        if g: name = g.group(2) or "example@%d" % (i + 1)
    return name
for file, definition, old, new, claim, targets, tightened in SPEC:
    p = MUT + "/lean/Verif/" + file
    orig = open(p).read()
    if orig.count(old) != 1:
        print("BAD PATTERN", file, definition, orig.count(old)); continue
    open(p, "w").write(orig.replace(old, new))
    r = subprocess.run(["lake", "build"] + targets, cwd=MUT + "/lean", capture_output=True, text=True)
    failed = []
    for f, ln in re.findall(r"^error: (Verif/[\w/]+\.lean):(\d+):", r.stdout + r.stderr, re.M):
        n = f.split("/")[-1][:-5] + ": " + enclosing(MUT + "/lean/" + f, int(ln))
        if n not in failed: failed.append(n)
    ok = r.returncode == 0
    print(("SURVIVED " if ok else "killed   "), definition, "|", new[:60].replace("\n", " "), "|", failed[:6])
    if not (ok and "--log-survivors" not in sys.argv):
        with open(ROOT + "/seeded/LOG.jsonl", "a") as o:
            o.write(json.dumps({"definition": definition, "file": "lean/Verif/" + file, "edit": old + "  ==>  " + new,
                "claim_broken": claim, "theorems_failed": failed, "theorems_tightened": tightened},
                ensure_ascii=False) + "\n")
    open(p, "w").write(orig)
