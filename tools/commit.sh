#!/bin/bash
# regenerate lists, build, commit
cd "$(dirname "$0")/.." && python3 tools/props.py && python3 tools/manifest.py && python3 tools/design.py && python3 tools/coverage.py && (cd lean && lake build 2>&1 | grep -v "^⚠\|^✔\|warning\|linter" | tail -5) && git add -A && git commit -qm "$1" && git log --oneline | head -1
