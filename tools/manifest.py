#!/usr/bin/env python3
"""Writes MANIFEST.json and checks that every theorem it names exists with standard axioms only.

Usage: tools/manifest.py [--check]
"""
import json, os, subprocess, sys, tempfile

ROOT = os.path.dirname(os.path.dirname(os.path.abspath(__file__)))
CLAIMS = json.load(open(os.path.join(ROOT, "tools", "claims.json")))

out = {"claims": []}
for pid, (status, theorems, note) in CLAIMS.items():
    out["claims"].append({"property": pid, "status": status,
                          "theorems": ["Verif." + t for t in theorems], "note": note})
json.dump(out, open(os.path.join(ROOT, "MANIFEST.json"), "w"), indent=1, ensure_ascii=False)

if "--check" in sys.argv:
    lean = os.path.join(ROOT, "lean")
    names = [t for c in out["claims"] for t in c["theorems"]]
    src = "import Verif\n" + "".join(f"#print axioms {n}\n" for n in names)
    with tempfile.NamedTemporaryFile("w", suffix=".lean", delete=False) as f:
        f.write(src)
    r = subprocess.run(["lake", "env", "lean", f.name], cwd=lean, capture_output=True, text=True)
    ok = {"propext", "Classical.choice", "Quot.sound"}
    bad = []
    text = (r.stdout + r.stderr).replace("\n  ", " ").replace("\n ", " ")
    for line in text.splitlines():
        if "does not depend on any axioms" in line:
            continue
        if "depends on axioms" in line:
            axs = {a.strip() for a in line.split("[", 1)[1].rstrip("]").split(",")}
            if axs <= ok:
                continue
        bad.append(line)
    print("\n".join(bad) or f"OK: {len(names)} theorems")
