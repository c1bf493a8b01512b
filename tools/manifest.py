#!/usr/bin/env python3
"""Generates /verif/MANIFEST.json from the table below."""
import json
claims = {}
def c(pid, status, theorems, note=""):
    claims[pid] = {"property": pid, "status": status, "theorems": theorems, "note": note}
V = "Verif."
exec(open('/verif/tools/claims.txt').read())
json.dump({"claims": [claims[k] for k in sorted(claims)]}, open('/verif/MANIFEST.json', 'w'), indent=1)
