#!/usr/bin/env python3
"""Add the results of automutate.py (directory /tmp/am) to seeded/LOG.jsonl.

usage: log_automutate.py NOTES.json    (notes for survivors: {"definition:line": {"verdict": ..., "tightened": [...]}})
The claims of an edit are the properties proved about the edited file, or else those that stand on the first
module that fails.
"""
import collections
import json
import re
import sys
from pathlib import Path

ROOT = Path(__file__).resolve().parent.parent
LEAN = ROOT / "lean" / "Verif"
AM = Path("/tmp/am")


def modules():
    imports = {}
    for path in LEAN.rglob("*.lean"):
        name = ".".join(path.relative_to(LEAN).with_suffix("").parts)
        imports[name] = re.findall(r"^import Verif\.(\S+)", path.read_text(), re.M)
    users = collections.defaultdict(set)
    for m, deps in imports.items():
        for d in deps:
            users[d].add(m)
    return users


def claims(users, module, file):
    if (LEAN / "Props" / f"{file}.lean").exists():
        users = {m: {f"Props.{file}"} for m in [module]} | {f"Props.{file}": set()}
    level, seen = {module}, {module}
    while level:
        props = [m for m in level if m.startswith("Props.") and (m == f"Props.{file}" or len(users) > 2)]
        if props:
            ids = set()
            for m in props:
                text = (LEAN / (m.replace(".", "/") + ".lean")).read_text()
                ids |= set(re.findall(r"^theorem (C\d+)_", text, re.M))
            return sorted(ids)
        level = {u for m in level for u in users[m]} - seen
        seen |= level
    return []


def main():
    notes = json.loads(Path(sys.argv[1]).read_text()) if len(sys.argv) > 1 else {}
    users = modules()
    log = (ROOT / "seeded" / "LOG.jsonl").open("a")
    for line in (AM / "killed.jsonl").read_text().splitlines():
        r = json.loads(line)
        ids = claims(users, r["failed"].split(":")[0], r["file"])
        log.write(json.dumps({"definition": f"{r['file']}.{r['definition']}", "edit": f"{r['old']} → {r['new']}",
                              "claim": " ".join(ids), "failed": [r["failed"]], "tightened": [], "survived": False,
                              "only": "general theorems, first failure"}, ensure_ascii=False) + "\n")
    for line in (AM / "survivors.jsonl").read_text().splitlines():
        r = json.loads(line)
        n = notes.get(f"{r['definition']}:{r['line']}", {})
        log.write(json.dumps({"definition": f"{r['file']}.{r['definition']}", "edit": f"{r['old']} → {r['new']}",
                              "claim": n.get("verdict", "equivalent"), "failed": [], "tightened": n.get("tightened", []),
                              "survived": True, "only": "general theorems"}, ensure_ascii=False) + "\n")


main()
