#!/usr/bin/env python3
"""tools/cites.py: checks that every `name` (file:lines) citation in the Lean comments exists and that the
cited lines contain the name (heuristic; prints suspects)."""
import os, re, sys, glob
root = os.path.join(os.path.dirname(os.path.abspath(__file__)), "..", "lean", "Verif")
repo = "/repo"
files = {}
for d, ds, fs in os.walk(repo):
    if "/tests" in d or "/.git" in d: continue
    for f in fs:
        if f.endswith((".rs", ".toml", ".md")):
            files.setdefault(f, []).append(os.path.relpath(os.path.join(d, f), repo))
def resolve(p):
    c = [f for f in files.get(os.path.basename(p), []) if ("/" + f).endswith("/" + p)]
    return c
n = bad = 0
for lf in sorted(glob.glob(root + "/**/*.lean", recursive=True)):
    s = open(lf).read()
    for m in re.finditer(r"/--.*?-/", s, re.S):
        doc = m.group(0)
        line = s.count("\n", 0, m.start()) + 1
        last = None
        for c in re.finditer(r"`([^`]+)`|([\w/.-]+\.rs):(\d+)(?:-(\d+))?(?:((?:, \d+(?:-\d+)?)*))", doc):
            if c.group(1):
                last = (c.group(1), c.end()); continue
            n += 1
            cands = resolve(c.group(2))
            a, b = int(c.group(3)), int(c.group(4) or c.group(3))
            where = f"{os.path.relpath(lf, root)}:{line}"
            if len(cands) != 1:
                print(where, "file", c.group(2), cands); bad += 1; continue
            src = open(os.path.join(repo, cands[0])).read().split("\n")
            if b > len(src) or a > b:
                print(where, "range", c.group(0)); bad += 1; continue
            if last and c.start() - last[1] < 40:
                ident = re.findall(r"\w+", last[0])
                if ident and not any(re.search(r"\b" + re.escape(i) + r"\b", "\n".join(src[a-1:b])) for i in ident[-1:]):
                    hits = [i + 1 for i, l in enumerate(src) if re.search(r"fn " + re.escape(ident[-1]) + r"\b", l)]
                    print(where, last[0], c.group(0), "fn at", hits); bad += 1
                elif ident and len(ident) < 4:
                    i = ident[-1]
                    fn = [k + 1 for k, l in enumerate(src) if re.search(r"\bfn " + re.escape(i) + r"\b", l)]
                    if fn and not any(a <= k <= b for k in fn): print(where, "note", last[0], c.group(0), "fn at", fn)
                    if fn and a in fn:
                        # end of function: next line equal to closing brace at same indent
                        ind = len(src[a-1]) - len(src[a-1].lstrip())
                        e = next((k + 1 for k in range(a - 1, len(src)) if src[k].rstrip() == " " * ind + "}"), None)
                        if e and e != b and b > a: print(where, "end", last[0], c.group(0), "ends", e)
print(n, "citations,", bad, "bad")
