#!/usr/bin/env python3
"""tighten.py DEFINITION EDIT-SUBSTRING theorem...: records in seeded/LOG.jsonl the theorems added
or strengthened because a seeded bug had survived."""
import json, sys
p = "/verif/seeded/LOG.jsonl"
lines = [json.loads(l) for l in open(p)]
n = 0
for d in lines:
    if d["definition"] == sys.argv[1] and sys.argv[2] in d["edit"] and d.get("note", "").startswith("survived"):
        d["tightened"] = sys.argv[3:]; d["note"] = "survived; theorems added afterwards"; n += 1
open(p, "w").write("".join(json.dumps(d, ensure_ascii=False) + "\n" for d in lines))
print(n, "updated")
