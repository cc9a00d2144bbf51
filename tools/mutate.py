"""Seeded-bug runner.

usage: python3 tools/mutate.py mutations.json results.jsonl

Works in a scratch copy (/tmp/mut/lean), never in /verif.  Each mutation is an object
{"id", "file", "old", "new", "claim"}; "old" must occur exactly once in the file.  The edited
copy is rebuilt and the theorems whose proofs fail are recorded.
"""
import json, re, subprocess, sys, os

SRC, DST = "/tmp/mut/src/lean", "/tmp/mut/lean"  # SRC: a checkout of the committed state

# The property modules tried first, stage by stage; everything is built only if all survive.
FIRST = {
    "ParseRaw": [["Parse", "Signer"]], "Signer": [["Signer"]], "Cond": [["Cond"]], "Lint": [["Lint"]],
    "Image": [["Image"]], "Dind": [["Image"]], "Rand": [["Rand"]], "Matrix": [["Matrix"]], "Path": [["Path"]],
    "Script": [["Script"], ["Shell"], ["Power"]], "Transform": [["Transform"], ["TransformOrder"]],
    "Pretty": [["Pretty", "Quote", "PrettyOrder"], ["PrettyNil"], ["Settle"], ["ReadBack"]],
    "Compile": [["Rename", "Script", "Transform"], ["Exact", "Effect"]], "Engine": [["Compile"]],
    "Legacy": [["Legacy", "LegacySteps", "LegacyOrder", "Trigger", "LegacyPlace"], ["MatrixTree"]], "Convert": [["Convert", "Foreign", "ConvertRun"]],
    "Cli": [["Cli"]], "Decode": [["Decode"], ["YamlForm"], ["Units"], ["ReadBack"]], "Node": [["Decode", "DecodeConvert"]],
    "DecodeConvert": [["DecodeConvert"], ["ForeignForm", "ForeignKeys"]], "Encode": [["Encode"]], "Glob": [["Glob"]], "Units": [["Units"]],
    "Float64": [["Attr", "Units"]], "Marshal": [["Stored"]], "ManifestJson": [["ManifestJson"], ["JsonShape"]],
    "MatrixTree": [["MatrixTree"]], "Scanner": [["Scanner"]], "PathMatch": [["PathMatch"]], "SignTree": [["Resign"]],
}

def copy():
    for root, _, files in os.walk(SRC):
        if ".lake" in root: continue
        for f in files:
            s = os.path.join(root, f); d = os.path.join(DST, os.path.relpath(s, SRC))
            os.makedirs(os.path.dirname(d), exist_ok=True)
            a = open(s, "rb").read()
            if not os.path.exists(d) or open(d, "rb").read() != a:
                open(d, "wb").write(a)

def decl_at(path, line):
    lines = open(path).read().split("\n")
    for i in range(min(line, len(lines)) - 1, -1, -1):
        m = re.match(r"\s*(?:@\[[^\]]*\]\s*)?(?:private |protected )?(theorem|def|example|lemma|instance|structure|inductive)\b\s*(\S*)", lines[i])
        if m and not lines[i].startswith("  "):
            name = m.group(2)
            if m.group(1) == "example": return f"example@{os.path.basename(path)}:{i+1}"
            return name
    return "?"

def run(mut, out):
    copy()
    p = os.path.join(DST, mut["file"])
    s = open(p).read()
    n = s.count(mut["old"])
    if n != 1:
        print(mut["id"], "SKIP: occurrences", n, flush=True); return
    open(p, "w").write(s.replace(mut["old"], mut["new"]))
    try:
        first = FIRST.get(os.path.basename(mut["file"])[:-5], [])
        for targets in [["Verif.Props." + t for t in stage] for stage in first] + [[]]:
            r = subprocess.run(["lake", "build"] + targets, cwd=DST, capture_output=True, text=True, timeout=3600)
            txt = r.stdout + r.stderr
            if r.returncode != 0: break
    finally:
        open(p, "w").write(s)
    failed, bad = [], []
    open(p, "w").write(s.replace(mut["old"], mut["new"]))
    for m in re.finditer(r"^error: (Verif/\S+\.lean):(\d+):\d+:", txt, re.M):
        d = decl_at(os.path.join(DST, m.group(1)), int(m.group(2)))
        q = f"{d}"
        if q not in failed: failed.append(q)
    open(p, "w").write(s)
    mods = re.findall(r"^- (Verif\S*)", txt, re.M)
    model_broken = any(m.startswith("Verif.Model") for m in mods)
    res = dict(mut, failed=failed, modules=mods, rc=r.returncode, model_broken=model_broken)
    with open(out, "a") as f: f.write(json.dumps(res, ensure_ascii=False) + "\n")
    print(mut["id"], "SURVIVED" if r.returncode == 0 else ("MODEL BROKEN" if model_broken else "killed"), len(failed), failed[:4], flush=True)

muts = json.load(open(sys.argv[1]))
done = set()
if os.path.exists(sys.argv[2]):
    done = {json.loads(l)["id"] for l in open(sys.argv[2])}
for m in muts:
    if m["id"] not in done: run(m, sys.argv[2])
copy()
