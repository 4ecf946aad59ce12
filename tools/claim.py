#!/usr/bin/env python3
"""tools/claim.py ID STATUS NOTE THEOREM... : sets one entry of claims.json (one line per property)."""
import json, os, sys
f = os.path.join(os.path.dirname(os.path.abspath(__file__)), "claims.json")
c = json.load(open(f))
pid, status, note, *thms = sys.argv[1:]
c[pid] = [status, thms, note]
items = sorted(c.items())
open(f, "w").write("{\n" + ",\n".join(json.dumps(k) + ": " + json.dumps(v, ensure_ascii=False) for k, v in items) + "\n}\n")
