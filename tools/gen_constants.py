#!/usr/bin/env python3
"""Transcribes the name tables of /repo/specfile/constants.py (read as text) to Lean."""
import re
src = open("/repo/specfile/constants.py").read().splitlines()
out = ['import Verif.Py.Str', '/-', 'Tables of /repo/specfile/constants.py, transcribed by tools/gen_constants.py.', '-/',
       'namespace Specfile.Constants', 'open Py', '']
i = 0
while i < len(src):
    m = re.match(r"^([A-Z_]+) = \{$", src[i])
    if m:
        name, start = m.group(1), i + 1
        items = []
        i += 1
        while src[i] != "}":
            items.append(src[i].strip().rstrip(","))
            i += 1
        camel = "".join(w.capitalize() if k else w.lower() for k, w in enumerate(name.split("_")))
        if all(re.match(r'^"[^"]*"$', x) for x in items):
            out.append(f"/-- constants.py:{start}-{i+1}, `{name}` (a set; iteration order is unspecified) -/")
            out.append(f"def {camel} : List Str := [")
            out.append(",\n".join("  s% " + x for x in items) + "]\n")
        else:
            out.append(f"/-- constants.py:{start}-{i+1}, the literal part of `{name}` -/")
            out.append(f"def {camel}Base : List (Str × Str) := [")
            ps = [re.match(r'^("[^"]*"): ("[^"]*")$', x).groups() for x in items]
            out.append(",\n".join(f"  (s% {a}, s% {b})" for a, b in ps) + "]\n")
    i += 1
out += ['end Specfile.Constants', '']
open("/verif/lean/Verif/Model/Constants.lean", "w").write("\n".join(out))
