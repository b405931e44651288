#!/usr/bin/env python3
"""Mutation experiments by search: search.py spec.py [id...]

Like mutate.py, but instead of looking which proofs break, the statements of the theorems are evaluated on random histories of the edited model
(seeded/search/*.lean.txt): a theorem is listed as failed if its statement is false on some history found. So a theorem is only counted if it really is false of
the wrong program. One line is appended to seeded/LOG.jsonl for every mutation caught."""
import importlib.util, json, os, re, subprocess, sys
root = os.path.abspath(os.path.join(os.path.dirname(os.path.abspath(__file__)), ".."))
lean = os.path.join(root, "lean")
spec = importlib.util.spec_from_file_location("spec", sys.argv[1]); mod = importlib.util.module_from_spec(spec); spec.loader.exec_module(mod)
log = os.path.join(root, "seeded/LOG.jsonl")
done = set(json.loads(l).get("id") for l in open(log))
src = open(os.path.join(lean, mod.FILE)).read()
driver = open(os.path.join(root, "seeded/search", mod.SEARCH)).read()
for mu in mod.MUTATIONS:
    if (len(sys.argv) > 2 and mu["id"] not in sys.argv[2:]) or (mu["id"] in done and len(sys.argv) == 2): continue
    n = src.count(mu["old"])
    if n != 1: print(mu["id"], "ERROR old text occurs", n, "times"); continue
    f = "/tmp/search_%s.lean" % mu["id"]
    open(f, "w").write("\n".join(l for l in src.split("\n") if l.startswith("import ")) + "\n" + "\n".join(l for l in src.replace(mu["old"], mu["new"]).split("\n") if not l.startswith("import ")) + "\n" + driver)
    r = subprocess.run(["lake", "env", "lean", "--run", f, "400", "250"], cwd=lean, capture_output=True, text=True)
    m = re.search(r"violated: \[(.*)\]", r.stdout)
    os.remove(f)
    if not m: print(mu["id"], "ERROR", (r.stdout + r.stderr)[-400:]); continue
    bad = re.findall(r"\((\w+), \d+\)", m.group(1))
    missing = [e for e in mu["expect"] if e not in bad]
    print(mu["id"], "MISSED " + str(missing) if missing else "ok", m.group(1), flush=True)
    if not missing and mu["id"] not in done:
        with open(log, "a") as fh:
            fh.write(json.dumps(dict(id=mu["id"], definition=mu["definition"], edit=mu["edit"], claim=mu["claim"], failed=sorted(bad), tightened=mu.get("tightened", []), how="statements false on histories found by search"), ensure_ascii=False) + "\n")
