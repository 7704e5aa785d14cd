#!/bin/bash
# names declared in more than one module of the project
cd "$(dirname "$0")/../lean"
grep -rhoP "^(noncomputable )?(def|theorem|abbrev|inductive|structure) \K\S+" Verif | sort | uniq -d
