"""Append a property: python3 tools/addprop.py file.json  (keys of properties.jsonl plus design, status, theorems, note, imports)."""
import json, sys
d = json.load(open(sys.argv[1]))
p = {k: d[k] for k in ["id", "title", "statement", "quantifier", "why_tests_cant", "anchors"]}
open('properties.jsonl', 'a').write(json.dumps(p) + "\n")
s = open('DESIGN.md').read().split("\n")
prev = "| C%02d |" % (int(d["id"][1:]) - 1)
i = [n for n, l in enumerate(s) if l.startswith(prev)][0]
s.insert(i + 1, "| %s | %s | %s |" % (d["id"], d["design"][0], d["design"][1]))
open('DESIGN.md', 'w').write("\n".join(s))
open('tools/claims.py', 'a').write('claim(%s,%s,%s,\n %s)\n' % tuple(json.dumps(x, ensure_ascii=False) for x in [d["id"], d["status"], d["theorems"], d["note"]]))
open('lean/Verif.lean', 'a').write("".join("import Verif.%s\n" % m for m in d["imports"]))
