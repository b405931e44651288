#!/usr/bin/env python3
"""Rewrites the section of DESIGN.md between the markers from MANIFEST.json, properties.jsonl and the imports of the Lean modules."""
import json, os, re
root = os.path.join(os.path.dirname(os.path.abspath(__file__)), "..")
lean = os.path.join(root, "lean")
def imports(mod, seen):
    p = os.path.join(lean, mod.replace(".", "/") + ".lean")
    if mod in seen or not os.path.exists(p): return seen
    seen.add(mod)
    for l in open(p):
        m = re.match(r"import (Verif\S*)", l)
        if m: imports(m.group(1), seen)
    return seen
home = {}
props = os.path.join(lean, "Verif/Props")
for f in sorted(os.listdir(props)):
    for m in re.finditer(r"^(?:protected )?theorem (C\d\d+_\w+)", open(os.path.join(props, f)).read(), re.M): home[m.group(1)] = f[:-5]
titles = {}
for l in open(os.path.join(root, "properties.jsonl")):
    o = json.loads(l); titles[o["id"]] = o["title"]
out = []
for c in json.load(open(os.path.join(root, "MANIFEST.json")))["claims"]:
    files = sorted(set(home[t.split(".")[-1]] for t in c["theorems"]))
    models = sorted(set(x.split(".")[-1] for f in files for x in imports("Verif.Props." + f, set()) if x.startswith("Verif.Model.")))
    out.append("**%s %s** (%s). Model: %s. Proofs: %s. Theorems: %s. %s" % (c["property"], titles[c["property"]], c["status"], ", ".join(models), ", ".join("`Props/%s`" % f for f in files),
        ", ".join("`%s`" % t.split(".")[-1] for t in c["theorems"]), c["note"]))
p = os.path.join(root, "DESIGN.md")
s = open(p).read()
a, b = "<!-- results begin -->\n", "<!-- results end -->"
i, j = s.index(a) + len(a), s.index(b)
open(p, "w").write(s[:i] + "\n" + "\n\n".join(out) + "\n\n" + s[j:])
