#!/usr/bin/env python3
"""Writes /verif/MANIFEST.json from the theorem names in lean/Verif/Props and the notes below.

A property is "partial" if it is listed in PARTIAL or all of its theorems end in _partial."""
import glob, json, os, re
from manifest_notes import NOTES, PARTIAL, NOT_APPLICABLE
root = os.path.join(os.path.dirname(os.path.abspath(__file__)), "..")
ids = [json.loads(l)["id"] for l in open(os.path.join(root, "properties.jsonl"))]
thms = {i: [] for i in ids}
for f in sorted(glob.glob(os.path.join(root, "lean/Verif/Props/*.lean"))):
    ns = []
    for line in open(f):
        m = re.match(r"namespace (\S+)", line)
        if m: ns.append(m.group(1))
        m = re.match(r"end (\S+)", line)
        if m and ns and ns[-1] == m.group(1): ns.pop()
        m = re.match(r"(?:protected )?theorem (C\d\d+)(_\w+)", line)
        if m and m.group(1) in thms:
            thms[m.group(1)].append(".".join(ns + [m.group(1) + m.group(2)]))
claims = []
for i in ids:
    if i in NOT_APPLICABLE:
        claims.append(dict(property=i, status="not_applicable", theorems=[], note=NOT_APPLICABLE[i])); continue
    if not thms[i]: continue
    st = "partial" if (i in PARTIAL or all(t.endswith("_partial") for t in thms[i])) else "proved"
    claims.append(dict(property=i, status=st, theorems=thms[i], note=PARTIAL.get(i, NOTES.get(i, ""))))
json.dump(dict(claims=claims), open(os.path.join(root, "MANIFEST.json"), "w"), indent=1, ensure_ascii=False)
open(os.path.join(root, "MANIFEST.json"), "a").write("\n")
print(len(claims), "claims", sum(len(c["theorems"]) for c in claims), "theorems; missing:", [i for i in ids if not thms[i] and i not in NOT_APPLICABLE])
