#!/usr/bin/env python3
"""Write /verif/AXIOMS.md: the axioms every theorem named in MANIFEST.json depends on.

Run after `lake build`; checks the theorems with `#print axioms`.
"""
import json, os, re, subprocess, sys, tempfile

ROOT = os.path.dirname(os.path.dirname(os.path.abspath(__file__)))
claims = json.load(open(os.path.join(ROOT, "MANIFEST.json")))["claims"]
names = [t for c in claims for t in c["theorems"]]
with tempfile.NamedTemporaryFile("w", suffix=".lean", delete=False) as f:
    f.write("import Verif\n" + "".join(f"#print axioms {n}\n" for n in names))
out = subprocess.run(["lake", "env", "lean", f.name], cwd=os.path.join(ROOT, "lean"),
                     capture_output=True, text=True).stdout
os.unlink(f.name)
dep = {}
for m in re.finditer(r"'([^']+)' (does not depend on any axioms|depends on axioms: \[([^\]]*)\])", out):
    dep[m.group(1)] = sorted(x.strip() for x in (m.group(3) or "").split(",") if x.strip())
missing = [n for n in names if n not in dep]
if missing:
    sys.exit("no answer for " + ", ".join(missing) + "\n" + out[:2000])
with open(os.path.join(ROOT, "AXIOMS.md"), "w") as f:
    f.write("# Axioms per theorem\n\nWritten by tools/axioms.py from `#print axioms`. "
            "`p` is propext, `c` is Classical.choice, `q` is Quot.sound.\n\n")
    short = {"propext": "p", "Classical.choice": "c", "Quot.sound": "q"}
    for c in claims:
        f.write(f"* {c['property']}: " + ", ".join(
            f"`{t.removeprefix('Drone.')}` ({''.join(short.get(a, a) for a in dep[t]) or 'none'})"
            for t in c["theorems"]) + "\n")
print(sorted({a for d in dep.values() for a in d}))
