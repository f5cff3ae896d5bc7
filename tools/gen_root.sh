#!/bin/sh
# Rewrites lean/Verif.lean to import every module under lean/Verif.
cd /verif/lean && find Verif -name '*.lean' | LC_ALL=C sort | sed 's|/|.|g; s|\.lean$||; s|^|import |' > Verif.lean
