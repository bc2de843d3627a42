#!/bin/sh
# milestone: ms.sh "message"
cd /verif && (cd lean && lake build > /tmp/ms_build.log 2>&1) && python3 tools/manifest.py && python3 tools/design.py && git add -A && git commit -qm "$1" && vcheck | tail -1
