#!/usr/bin/env python3
"""Mutation experiments: mutate.py spec.py [name...]

A spec file defines MUTATIONS, a list of dicts: id, file (under lean/), definition, old, new, edit (words), claim (words),
expect (ids of properties whose theorems should fail), props (Props modules to check).  For every mutation the modules the
Props modules depend on are joined into one scratch file outside of /verif, with the edit applied; a theorem whose proof breaks is
replaced by Lean with sorryAx, so the property theorems that depend on it are found with #print axioms.  One line is appended to
seeded/LOG.jsonl for every mutation not yet there (matched by id)."""
import importlib.util, json, os, re, subprocess, sys
root = os.path.abspath(os.path.join(os.path.dirname(os.path.abspath(__file__)), ".."))
lean = os.path.join(root, "lean")
scratch = "/tmp/mutate"
os.makedirs(scratch, exist_ok=True)

def path(mod): return os.path.join(lean, mod.replace(".", "/") + ".lean")

def closure(mods):
    order, seen, ext = [], set(), []
    def go(m):
        if m in seen: return
        seen.add(m)
        for l in open(path(m)):
            x = re.match(r"import (\S+)", l)
            if x:
                if x.group(1).startswith("Verif."): go(x.group(1))
                elif x.group(1) not in ext: ext.append(x.group(1))
        order.append(m)
    for m in mods: go(m)
    return order, ext

base = {}
def baseline(props):
    """theorems that the joined, unedited file doesn't prove (should be none)"""
    k = tuple(props)
    if k not in base: base[k] = run(dict(props=props, file=None))[1]
    return base[k]

def run(mu):
    order, ext = closure(["Verif.Props." + p for p in mu["props"]])
    out, thms, ok = ["import " + e for e in ext], [], False
    for m in order:
        s = open(path(m)).read()
        if m == mu["file"]:
            if s.count(mu["old"]) != 1:
                return None, ["old text occurs %d times" % s.count(mu["old"])]
            s = s.replace(mu["old"], mu["new"]); ok = True
        s = "\n".join(l for l in s.split("\n") if not l.startswith("import "))
        # examples say nothing about the theorems, and evaluating them on a wrong model can take all the memory
        s = re.sub(r"^(?:set_option [^\n]* in\n|-- [^\n]*\n)*(/--(?:(?!-/).)*-/\n)?(?:set_option [^\n]* in\n)*example\b.*?(?=^\S)", "", s, flags=re.M | re.S)
        # the same goes for witnesses computed by evaluation
        for t in mu.get("skip", []): s = re.sub(r"^(/--(?:(?!-/).)*-/\n)?theorem " + t + r"\b.*?(?=^\S)", "", s, flags=re.M | re.S)
        if ".Props." in m: thms += re.findall(r"^(?:protected )?theorem (C\d\d+_\w+)", s, re.M)
        out.append("section\n" + s + "\nend\n")
    if not ok and mu["file"]: return None, ["file not in closure"]
    out.append("\n".join("#print axioms Rtmfp." + t for t in thms))
    f = os.path.join(scratch, "M.lean")
    open(f, "w").write("\n".join(out))
    r = subprocess.run(["lake", "env", "lean", "-M", "9000", f], cwd=lean, capture_output=True, text=True, timeout=3000)
    txt = r.stdout + r.stderr
    bad = set()
    if "'Rtmfp." not in txt: return None, ["lean stopped early (%d): %s" % (r.returncode, txt[-300:])]
    for t in thms:
        m = re.search(r"'Rtmfp\." + t + r"' (does not depend on any axioms|depends on axioms:\s*\[([^\]]*)\])", txt)
        std = {"propext", "Classical.choice", "Quot.sound"}
        if not m or (m.group(2) and set(x.strip() for x in m.group(2).split(",")) - std): bad.add(t)
    return thms, sorted(bad)

if __name__ == "__main__":
    spec = importlib.util.spec_from_file_location("spec", sys.argv[1]); mod = importlib.util.module_from_spec(spec); spec.loader.exec_module(mod)
    log = os.path.join(root, "seeded/LOG.jsonl")
    done = set(json.loads(l).get("id") for l in open(log)) if os.path.exists(log) else set()
    for mu in mod.MUTATIONS:
        if (len(sys.argv) > 2 and mu["id"] not in sys.argv[2:]) or (mu["id"] in done and len(sys.argv) == 2): continue
        pre = baseline(mu["props"])  # joining can make names ambiguous: those theorems are left out
        thms, bad = run(mu)
        if thms is not None: bad = [b for b in bad if b not in pre]
        if thms is None: print(mu["id"], "ERROR", bad); continue
        missing = [e for e in mu["expect"] if not any(b == e or b.startswith(e if e.endswith("_") else e + "_") for b in bad)]
        print(mu["id"], "MISSED " + str(missing) if missing else "ok", len(bad), "of", len(thms), "failed:", ", ".join(bad)[:600], flush=True)
        if not missing and mu["id"] not in done:
            with open(log, "a") as fh:
                fh.write(json.dumps(dict(id=mu["id"], definition=mu["definition"], edit=mu["edit"], claim=mu["claim"], failed=bad,
                                         tightened=mu.get("tightened", [])), ensure_ascii=False) + "\n")
