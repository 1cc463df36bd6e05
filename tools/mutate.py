#!/usr/bin/env python3
"""Apply one edit to a scratch copy of lean/, rebuild, list the theorems that no longer prove and
append the result to seeded/LOG.jsonl.  Usage: mutate.py FILE.json ..., each a list of
{"file","definition","old","new","edit","claim"}; needs a built lean/.lake."""
import json, os, re, shutil, subprocess, sys
SC = os.environ.get("SCRATCH", "/tmp/scratch")
ROOT = os.path.dirname(os.path.dirname(os.path.abspath(__file__)))

def theorem_at(path, line):
    name = None; ns = ""
    for i, l in enumerate(open(path), 1):
        m = re.match(r"\s*namespace\s+(\S+)", l)
        if m: ns = m.group(1) + "."
        m = re.match(r"\s*(?:@\[[^\]]*\]\s*)?(?:private\s+|protected\s+)?(theorem|lemma|def|example|instance|abbrev)\s*([^\s:({\[]*)", l)
        if m: name = (ns + m.group(2)) if m.group(2) else "example after " + str(name)
        if i >= line: break
    return name

def run(mut, log=True):
    shutil.rmtree(SC, ignore_errors=True)
    subprocess.run(["cp", "-a", os.environ.get("LEAN_SRC", ROOT + "/lean"), SC], check=True)
    p = SC + "/" + mut["file"]
    s = open(p).read()
    assert s.count(mut["old"]) >= 1, ("not found", mut["old"])
    n = mut.get("nth", 0)
    parts = s.split(mut["old"])
    s = mut["old"].join(parts[:n + 1]) + mut["new"] + mut["old"].join(parts[n + 1:])
    open(p, "w").write(s)
    r = subprocess.run(["lake", "build"], cwd=SC, capture_output=True, text=True, timeout=3000)
    out = r.stdout + r.stderr
    failed = []
    for m in re.finditer(r"^error: (Verif/\S+\.lean):(\d+):", out, re.M):
        t = theorem_at(SC + "/" + m.group(1), int(m.group(2)))
        if t not in failed: failed.append(t)
    # property theorems of the broken claim in modules that fail or import a failing one
    imps = {}
    for d, _, fs in os.walk(SC + "/Verif"):
        for f in fs:
            q = os.path.join(d, f)
            imps[os.path.relpath(q, SC)] = ["Verif/" + m.replace(".", "/") + ".lean"
                for m in re.findall(r"^import Verif\.(\S+)", open(q).read(), re.M)]
    bad = set(re.findall(r"^error: (Verif/\S+\.lean):", out, re.M))
    while True:
        more = {f for f, i in imps.items() if f not in bad and bad & set(i)}
        if not more: break
        bad |= more
    text = {f: open(SC + "/" + f).read() for f in bad}
    for c in json.load(open(ROOT + "/MANIFEST.json"))["claims"]:
        if c["property"] in mut["claim"]:
            for t in c["theorems"]:
                if any(re.search(r"theorem " + re.escape(t.split(".")[-1]) + r"\b", x) for x in text.values()) and t not in failed:
                    failed.append(t + " (through the above)")
    entry = {"definition": mut["definition"], "edit": mut["edit"], "claim_broken": mut["claim"],
             "theorems_failed": failed, "theorems_tightened": mut.get("tightened", [])}
    if mut.get("note"): entry["note"] = mut["note"]
    print(json.dumps(entry))
    if r.returncode == 0: print("   *** SURVIVED ***")
    if log:
        with open(ROOT + "/seeded/LOG.jsonl", "a") as f: f.write(json.dumps(entry) + "\n")
    return r.returncode

if __name__ == "__main__":
    args = sys.argv[1:]; log = True
    if args and args[0] == "-n": log = False; args = args[1:]
    for a in args:
        for mut in json.load(open(a)):
            run(mut, log)
