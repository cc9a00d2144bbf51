"""Append the results of tools/mutate.py to seeded/LOG.jsonl.

usage: python3 tools/log_mutations.py results.jsonl [tightened.json]

tightened.json maps a mutation id to {"tightened": [...], "note": "..."}.
"""
import json, os, re, sys

here = os.path.dirname(os.path.dirname(os.path.abspath(__file__)))
log = os.path.join(here, "seeded", "LOG.jsonl")
extra = json.load(open(sys.argv[2])) if len(sys.argv) > 2 else {}
done = {json.loads(l)["id"] for l in open(log)} if os.path.exists(log) else set()

def definition(file, old):
    s = open("/tmp/mut/src/lean/" + file).read()
    i = s.find(old)
    name = "?"
    for m in re.finditer(r"^(?:@\[.*\]\s*)?(?:def|abbrev|structure|inductive) (\S+)", s, re.M):
        if m.start() > i + old.find("def ") + 4 and m.start() > i: break
        name = m.group(1)
    return name

with open(log, "a") as f:
    for l in open(sys.argv[1]):
        r = json.loads(l)
        if r["id"] in done: continue
        if r["model_broken"]: continue
        x = extra.get(r["id"], {})
        f.write(json.dumps({"id": r["id"], "file": r["file"], "definition": definition(r["file"], r["old"]),
            "edit": {"from": r["old"], "to": r["new"]}, "breaks": r["claim"],
            "result": "survived" if r["rc"] == 0 else "killed", "failed": r["failed"],
            "tightened": x.get("tightened", []), **({"note": x["note"]} if "note" in x else {})},
            ensure_ascii=False) + "\n")
