#!/usr/bin/env python3
"""Add or replace one claim in MANIFEST.json.

usage: claim.py C01 proved "note" Drone.thm1 Drone.thm2 ...
"""
import json, os, sys
p = os.path.join(os.path.dirname(os.path.abspath(__file__)), "..", "MANIFEST.json")
m = json.load(open(p)) if os.path.exists(p) else {"claims": []}
pid, status, note, *thms = sys.argv[1:]
assert status in ("proved", "partial", "not_applicable")
m["claims"] = [c for c in m["claims"] if c["property"] != pid]
m["claims"].append({"property": pid, "status": status, "theorems": thms, "note": note})
m["claims"].sort(key=lambda c: int(c["property"][1:]))
json.dump(m, open(p, "w"), indent=1, ensure_ascii=False)
open(p, "a").write("\n")
