#!/usr/bin/env python3
"""Writes MANIFEST.json. Properties without an entry are left out until they are done."""
import json, os
HERE = os.path.dirname(os.path.abspath(__file__))
M = []
def m(i, status, theorems, note=""):
    M.append(dict(property=i, status=status, theorems=["DK." + t for t in theorems.split()], note=note))
exec(open(os.path.join(HERE, "claims.txt")).read())
json.dump({"claims": M}, open(os.path.join(HERE, "..", "MANIFEST.json"), "w"), indent=1)
print(len(M))
