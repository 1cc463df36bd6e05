#!/usr/bin/env python3
"""Lines of /repo cited by definitions under lean/Verif/Model, per file: prints what is cited by which
module and, with -u, the lines with code that no definition cites."""
import re, sys, glob, os, collections
ROOT = os.path.dirname(os.path.dirname(os.path.abspath(__file__)))
cov = collections.defaultdict(set); mods = collections.defaultdict(set)
for f in glob.glob(ROOT + "/lean/Verif/Model/*.lean"):
    for doc in re.findall(r"/--.*?-/", open(f).read(), re.S):
        doc = re.sub(r"\s+", " ", doc)
        cur = None
        # a file name, then line numbers up to the end of the parenthesis or the next file
        for t in re.finditer(r"(lube/[\w.-]+\.(?:cpp|h)):|(?<![\w.^])(\d+)(?:-(\d+))?(?![\w^])|([()])", doc):
            if t.group(1): cur = t.group(1)
            elif t.group(4) == ")" : cur = None
            elif t.group(2) and cur:
                a = int(t.group(2)); b = int(t.group(3) or a)
                if b - a < 400:
                    cov[cur] |= set(range(a, b + 1)); mods[cur].add(os.path.basename(f)[:-5])
def ranges(s):
    s = sorted(s); out = []
    for x in s:
        if out and x == out[-1][1] + 1: out[-1][1] = x
        else: out.append([x, x])
    return ", ".join(f"{a}-{b}" if a != b else str(a) for a, b in out)
for f in sorted(glob.glob("/repo/lube/*.cpp") + glob.glob("/repo/lube/*.h")):
    n = "lube/" + os.path.basename(f)
    lines = open(f, errors="replace").read().split("\n")
    code = {i for i, l in enumerate(lines, 1) if re.search(r"[;({}]|return", l) and not re.match(r"\s*(//|\*|/\*|#include)", l) and not re.match(r"^\s*[{}]*;?\s*$", l)}
    c = code & cov[n]
    print(f"{n}: {len(c)}/{len(code)} lines with code; {', '.join(sorted(mods[n])) or '-'}")
    if "-u" in sys.argv: print("    not cited:", ranges(code - cov[n]))
