#!/usr/bin/env python3
"""Regenerates /verif/MANIFEST.json and lean/Verif.lean from the sources.

Every theorem named Cxx_... under lean/Verif/Props is listed under property Cxx.
A property is 'partial' when a theorem ends in _partial or _refuted, unless tools/notes.json
says otherwise; notes come from tools/notes.json."""
import json, re, glob, os
root = os.path.dirname(os.path.dirname(os.path.abspath(__file__)))
notes = json.load(open(root + "/tools/notes.json"))
thms = {}
for f in sorted(glob.glob(root + "/lean/Verif/**/*.lean", recursive=True)):
    ns = "Verif"
    for line in open(f):
        m = re.match(r"\s*(?:private\s+)?theorem\s+(C(\d+)_\S+)", line)
        if m:
            thms.setdefault("C" + m.group(2), []).append(ns + "." + m.group(1))
claims = []
for line in open(root + "/properties.jsonl"):
    i = json.loads(line)["id"]
    t = thms.pop(i, [])
    n = notes.get(i, {})
    if not t and n.get("status") != "not_applicable":
        continue
    st = n.get("status") or ("partial" if any(x.endswith(("_partial", "_refuted")) for x in t) else "proved")
    claims.append({"property": i, "status": st, "theorems": t, "note": n.get("note", "")})
assert not thms, thms
json.dump({"claims": claims}, open(root + "/MANIFEST.json", "w"), indent=1)
mods = sorted(f[len(root) + 6:-5].replace("/", ".") for f in glob.glob(root + "/lean/Verif/**/*.lean", recursive=True))
open(root + "/lean/Verif.lean", "w").write("".join("import %s\n" % m for m in mods))
from collections import Counter
print(Counter(c["status"] for c in claims), sum(len(c["theorems"]) for c in claims), "theorems")
