#!/bin/sh
# build and print errors only
cd "${1:-/verif/lean}" && lake build 2>&1 | python3 -c "
import sys,re
out=sys.stdin.read()
blocks=re.split(r'(?m)^(?=(?:warning|error|info|trace|[✔✖⚠ℹ]))',out)
keep=[b for b in blocks if b.startswith('error') or (b.startswith('warning') and 'declaration uses' in b) or b.startswith('info')]
print(''.join(keep)[:int(${2:-6000})] or 'OK')
"
