#!/usr/bin/env python3
"""Write MANIFEST.json from the claim list below and check that every named theorem exists and depends
only on Lean's standard axioms (run from anywhere; needs a built lean/ project for the axiom check)."""
import json, os, re, subprocess, sys
ROOT = os.path.dirname(os.path.dirname(os.path.abspath(__file__)))
CLAIMS = []
def c(prop, status, theorems, note=""):
    CLAIMS.append({"property": prop, "status": status, "theorems": theorems, "note": note})

exec(open(os.path.join(ROOT, "scripts", "claims.py")).read())

names = [t for x in CLAIMS for t in x["theorems"]]
assert len({x["property"] for x in CLAIMS}) == len(CLAIMS), "duplicate property"
json.dump({"claims": CLAIMS}, open(os.path.join(ROOT, "MANIFEST.json"), "w"), indent=1, ensure_ascii=False)
props = [json.loads(l)["id"] for l in open(os.path.join(ROOT, "properties.jsonl"))]
missing = [p for p in props if p not in {x["property"] for x in CLAIMS}]
print("claims", len(CLAIMS), "theorems", len(names), "properties without claim:", missing)
if "--axioms" in sys.argv:
    src = "import Verif\n" + "\n".join(f"#print axioms {n}" for n in names)
    open("/tmp/ax.lean", "w").write(src)
    out = subprocess.run(["lake", "env", "lean", "/tmp/ax.lean"], cwd=os.path.join(ROOT, "lean"),
                         capture_output=True, text=True)
    txt = out.stdout + out.stderr
    axs = set(re.findall(r"[\w.]+", " ".join(re.findall(r"depends on axioms: \[([^\]]*)\]", txt))))
    print("axioms used:", axs)
    for l in txt.split("\n"):
        if "error" in l: print(l)
    assert axs <= {"propext", "Classical.choice", "Quot.sound"}
