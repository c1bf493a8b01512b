#!/bin/bash
# check one file, print only the first part of the errors
cd /verif/lean && timeout 1200 lake env lean "$1" 2>&1 | grep -v -E "linter|^$|Hint: Omit|\[apply\]" | head -c ${2:-4000}
