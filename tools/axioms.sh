#!/bin/bash
# prints the axioms each property theorem depends on
cd "$(dirname "$0")/../lean"
(cat Verif.lean; echo; grep -ho "theorem c[0-9][0-9]*_[A-Za-z0-9_']*" Verif/Props/*.lean | awk '{print "#print axioms Verif.Props." $2}' | sort) > /tmp/ax.lean
lake env lean /tmp/ax.lean
