#!/usr/bin/env python3
"""Write AXIOMS.md: the axioms each theorem named in MANIFEST.json depends on.  Needs a built lean/."""
import json, os, re, subprocess
ROOT = os.path.dirname(os.path.dirname(os.path.abspath(__file__)))
ts = list(dict.fromkeys(t for c in json.load(open(ROOT + "/MANIFEST.json"))["claims"] for t in c["theorems"]))
open("/tmp/axioms.lean", "w").write("import Verif\n" + "".join("#print axioms %s\n" % t for t in ts))
out = subprocess.run(["lake", "env", "lean", "/tmp/axioms.lean"], cwd=ROOT + "/lean", capture_output=True, text=True).stdout
out = re.sub(r"\s+", " ", out)
res = dict(re.findall(r"'(\S+)' (depends on axioms: \[[^\]]*\]|does not depend on any axioms)", out))
missing = [t for t in ts if t not in res]
assert not missing, missing
groups = {}
for t in ts:
    groups.setdefault(res[t].replace("depends on axioms: [", "").rstrip("]").replace("does not depend on any axioms", "none"), []).append(t)
with open(ROOT + "/AXIOMS.md", "w") as f:
    f.write("# Axioms each property theorem depends on\n\nMade by `tools/gen_axioms.py` from `#print axioms`.\n")
    for a in sorted(groups):
        f.write("\n## %s\n\n" % a + "".join("* `%s`\n" % t for t in sorted(groups[a])))
print({a: len(g) for a, g in groups.items()})
