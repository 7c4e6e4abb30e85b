#!/usr/bin/env python3
"""Regenerate MANIFEST.json, lean/Verif.lean and lean/Verif/Audit.lean from the sources."""
import json
import re
from pathlib import Path

ROOT = Path(__file__).resolve().parent.parent
LEAN = ROOT / "lean"
NOTES = json.loads((ROOT / "tools" / "notes.json").read_text())

ids = [json.loads(l)["id"] for l in (ROOT / "properties.jsonl").read_text().splitlines() if l]
theorems = {i: [] for i in ids}
for path in sorted((LEAN / "Verif" / "Props").glob("*.lean")):
    for m in re.finditer(r"^theorem ((C\d+)_\w*)", path.read_text(), re.M):
        name = m.group(1)
        theorems[m.group(2)].append("Specfile.Props." + name)

claims = []
for i in ids:
    ts = theorems[i]
    note = NOTES.get(i, "")
    if not ts:
        status = "not_applicable" if note.startswith("NA:") else None
        if status is None:
            pass #print("no theorem yet:", i)
            continue
    else:
        status = "partial" if any(t.endswith("_partial") for t in ts) else "proved"
    claims.append({"property": i, "status": status, "theorems": ts, "note": note})
(ROOT / "MANIFEST.json").write_text(json.dumps({"claims": claims}, indent=1) + "\n")

mods = sorted(
    ".".join(p.relative_to(LEAN).with_suffix("").parts)
    for p in (LEAN / "Verif").rglob("*.lean")
)
(LEAN / "Verif.lean").write_text("".join(f"import {m}\n" for m in mods))

props = [m for m in mods if m.startswith("Verif.Props.")]
audit = "".join(f"import {m}\n" for m in props)
audit += "/-\nGenerated by tools/gen_manifest.py: the axioms behind every property theorem.\n-/\n"
for c in claims:
    for t in c["theorems"]:
        audit += f"#print axioms {t}\n"
(LEAN / "Verif" / "Audit.lean").write_text(audit)
n = {"proved": 0, "partial": 0, "not_applicable": 0}
for c in claims:
    n[c["status"]] += 1
print(n, sum(len(c["theorems"]) for c in claims), "theorems")
