#!/bin/sh
# tools/ms.sh "message": manifest, commit, vcheck
cd /verif && python3 tools/props.py && python3 tools/manifest.py --check && git add -A && git commit -qm "$1" && vcheck 2>&1 | tail -3
