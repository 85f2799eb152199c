#!/usr/bin/env python3
"""Writes MANIFEST.json from the table below (run from /verif)."""
import json
C = {}
def claim(p, status, theorems, note=""):
    C[p] = dict(property=p, status=status, theorems=["Vulture.%s.%s" % (p, t) if "." not in t else "Vulture." + t for t in theorems], note=note)

exec(open("tools/claims.py").read())
json.dump({"claims": [C[k] for k in sorted(C, key=lambda c: int(c[1:]))]}, open("MANIFEST.json", "w"), indent=1, ensure_ascii=False)
