#!/bin/sh
# build and show at most $1 characters of diagnostics (default 3500)
cd /verif/lean && lake build $2 2>&1 | grep -v "^✔\|^ℹ\|^⚠ \|^trace" | grep -A25 -E "error|warning|Build completed" | cut -c1-260 | head -c ${1:-3500}
