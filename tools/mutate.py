#!/usr/bin/env python3
"""Tries wrong versions of the model in a scratch copy and logs which theorems fail.

Usage: tools/mutate.py SPEC.json   (list of {def, file, old, new, edit, claim, tightened?})
The scratch copy lives in /tmp/mut/lean.
"""
import json, os, re, subprocess, sys

ROOT = os.path.dirname(os.path.dirname(os.path.abspath(__file__)))
SCRATCH = "/tmp/mut/lean"
LOG = os.path.join(ROOT, "seeded", "LOG.jsonl")
HEAD = re.compile(r"^\s*(?:@\[[^\]]*\]\s*)?(?:private |protected |noncomputable )*"
                  r"(theorem|lemma|def|example|instance|abbrev|inductive|structure|macro)\b\s*(\S*)")


def sync():
    os.makedirs(SCRATCH, exist_ok=True)
    subprocess.run(["rm", "-rf", os.path.join(SCRATCH, "Verif")], check=True)
    subprocess.run(["cp", "-a", "-u", os.path.join(ROOT, "lean") + "/.", SCRATCH + "/"], check=True)


def enclosing(path, line):
    lines = open(path).read().split("\n")
    for i in range(min(line, len(lines)) - 1, -1, -1):
        m = HEAD.match(lines[i])
        if m:
            return m.group(1), m.group(2)
    return "?", "?"


def run(spec):
    path = os.path.join(SCRATCH, "Verif", spec["file"])
    src = open(path).read()
    if src.count(spec["old"]) != 1:
        return None, f"pattern occurs {src.count(spec['old'])} times"
    open(path, "w").write(src.replace(spec["old"], spec["new"]))
    try:
        r = subprocess.run(["lake", "build"], cwd=SCRATCH, capture_output=True, text=True, timeout=3000)
        failed, other = [], []
        for m in re.finditer(r"^error: (Verif/\S+?\.lean):(\d+):\d+", r.stdout + r.stderr, re.M):
            kind, name = enclosing(os.path.join(SCRATCH, m.group(1)), int(m.group(2)))
            mod = m.group(1)[6:-5].replace("/", ".")
            item = f"{mod}: {name}" if kind in ("theorem", "lemma") else f"{mod}: {kind} {name}"
            dest = failed if kind in ("theorem", "lemma") else other
            if item not in dest:
                dest.append(item)
        return failed, other
    finally:
        open(path, "w").write(src)


def main():
    specs = json.load(open(sys.argv[1]))
    sync()
    for s in specs:
        failed, other = run(s)
        if failed is None:
            print("SKIP", s["def"], other)
            continue
        rec = {"definition": s["def"], "edit": s["edit"], "claim": s["claim"], "failed": failed,
               "tightened": s.get("tightened", [])}
        if s.get("note"):
            rec["note"] = s["note"]
        print("KILLED" if failed else "SURVIVED", s["def"], "|", s["edit"], "|", failed, other, flush=True)
        if "--dry" not in sys.argv:
            open(LOG, "a").write(json.dumps(rec, ensure_ascii=False) + "\n")


main()
