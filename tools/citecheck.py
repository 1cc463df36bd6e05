#!/usr/bin/env python3
"""Lists citations in the model whose lines do not contain the name cited.

A citation is a name in backquotes followed by (file:lines); the last identifier of the name is
looked for in these lines of /repo."""
import glob, re, sys

cache = {}


def lines(f):
    if f not in cache:
        try:
            cache[f] = open("/repo/" + f, errors="replace").read().split("\n")
        except OSError:
            cache[f] = None
    return cache[f]


n = bad = 0
for path in sorted(glob.glob("/verif/lean/Verif/Model/*.lean")):
    text = open(path).read()
    for doc in re.finditer(r"/--.*?-/", text, re.S):
        d = re.sub(r"\s+", " ", doc.group(0))
        for m in re.finditer(r"`([^`]+)`([^`(]{0,40})\(([a-zA-Z/_-]+\.[a-z]+):([0-9]+(?:-[0-9]+)?(?:, [0-9]+(?:-[0-9]+)?)*)", d):
            name, _, f, rs = m.groups()
            ids = re.findall(r"[A-Za-z_]\w*|operator *[^\w\s(]+", name)
            src = lines(f)
            n += 1
            if src is None:
                print(path, f, "missing"); bad += 1; continue
            got = ""
            for r in rs.split(", "):
                a, *b = map(int, r.split("-"))
                b = b[0] if b else a
                if b > len(src) or b < a:
                    print(path, name, f, r, "outside"); bad += 1
                got += "\n".join(src[a - 1:b])
            if not any(i.replace(" ", "") in got.replace(" ", "") for i in ids[-1:] or [""]):
                print(f"{path[24:]}: `{name}` {f}:{rs}\n      {got.strip()[:100]!r}"); bad += 1
print(n, "citations", bad, "doubtful")
