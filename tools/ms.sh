#!/bin/bash
# milestone: build, manifest, commit, vcheck
cd /verif/lean && lake build 2>&1 | grep -E "error|warning: declaration|Build" | tail -5
cd /verif && python3 tools/mk_manifest.py | tail -1 && git add -A && git commit -qm "$1" && vcheck | tail -1
