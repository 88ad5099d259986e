#!/bin/bash
# Prints every property theorem whose axioms go beyond propext, Classical.choice, Quot.sound.
cd "$(dirname "$0")/../lean" || exit 1
f=$(mktemp --suffix=.lean)
{ echo "import Verif"; python3 ../tools/gen_manifest.py --names | sed 's/^/#print axioms /'; } > "$f"
lake env lean "$f" | tr '\n' ' ' | sed "s/'Shpool/\n'Shpool/g" | grep -v '^ *$' > /tmp/axioms.txt
echo "theorems checked: $(grep -c Shpool /tmp/axioms.txt)"
grep -v 'does not depend on any axioms' /tmp/axioms.txt | sed 's/.*\[\(.*\)\].*/\1/' | sort | uniq -c
rm -f "$f"
