#!/usr/bin/env python3
"""Seeded-bug runner.  Usage: seed.py mutants.json
Each mutant: {"file": "Model/X.lean", "def": name, "old": str, "new": str, "occ": k (default 0),
              "claim": str, "note": str}.
Works in /tmp/scratch (a copy of /verif/lean), appends one line per mutant to
/verif/seeded/LOG.jsonl."""
import json, os, re, shutil, subprocess, sys
S = "/tmp/scratch"
LOG = "/verif/seeded/LOG.jsonl"
SRC = "/tmp/seed_src"  # snapshot of /verif/lean taken at start
shutil.rmtree(SRC, ignore_errors=True)
os.makedirs(SRC)
shutil.copytree("/verif/lean/Verif", SRC + "/Verif")
shutil.copy2("/verif/lean/Verif.lean", SRC + "/Verif.lean")

def sync():
    shutil.rmtree(S + "/Verif", ignore_errors=True)
    shutil.copytree(SRC + "/Verif", S + "/Verif")
    shutil.copy2(SRC + "/Verif.lean", S + "/Verif.lean")

def enclosing(path, line):
    name = None
    with open(path) as f:
        for n, l in enumerate(f, 1):
            if n > line: break
            m = re.match(r"(?:private |protected |noncomputable )*(theorem|lemma|def|instance|example)\s*([^\s:({\[]*)", l)
            if m: name = m.group(2) or ("example@%d" % n)
    return name

def build():
    r = subprocess.run(["lake", "build", "Verif"], cwd=S, capture_output=True, text=True)
    return r.returncode, r.stdout + r.stderr

def nth(s, old, k):
    i = -1
    for _ in range(k + 1):
        i = s.find(old, i + 1)
        if i < 0: return -1
    return i

def main():
    muts = json.load(open(sys.argv[1]))
    for mu in muts:
        sync()
        p = os.path.join(S, "Verif", mu["file"])
        s = open(p).read()
        d = mu["def"].split(" ")[0]
        start = 0
        mm = re.search(r"(?m)^(?:noncomputable )?(?:def|inductive|structure) " + re.escape(d) + r"\b", s)
        if mm: start = mm.start()
        k = nth(s[start:], mu["old"], mu.get("occ", 0))
        if k < 0:
            print("NOT FOUND", mu["def"], mu["old"][:60], flush=True); continue
        k += start
        s2 = s[:k] + mu["new"] + s[k + len(mu["old"]):]
        open(p, "w").write(s2)
        rc, out = build()
        failed = []
        modelerr = False
        for m in re.finditer(r"(?m)^error: (\S*?Verif/\S+\.lean):(\d+):\d+", out):
            f = os.path.join(S, m.group(1)) if not m.group(1).startswith("/") else m.group(1)
            nm = enclosing(f, int(m.group(2)))
            mod = re.sub(r".*/Verif/", "", f)
            if "Model/" in mod and nm: modelerr = True
            t = "%s (%s)" % (nm, mod)
            if t not in failed: failed.append(t)
        res = {"definition": mu["def"] + " (" + mu["file"] + ")",
               "edit": mu["old"] + "  ==>  " + mu["new"],
               "claim_broken": mu["claim"],
               "theorems_failed": failed,
               "theorems_tightened": mu.get("tightened", [])}
        if mu.get("note"): res["note"] = mu["note"]
        tag = "MODELERR" if modelerr else ("SURVIVED" if rc == 0 else "killed")
        print(tag, mu["def"], "|", mu["new"][:50].replace("\n", " "), "|", failed[:3], flush=True)
        if modelerr:
            print(out[-1500:], flush=True); continue
        if rc == 0: res["note"] = (res.get("note", "") + " SURVIVED: every theorem still proves").strip()
        with open(LOG, "a") as f: f.write(json.dumps(res) + "\n")
    sync()
main()
