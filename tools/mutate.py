#!/usr/bin/env python3
"""Apply realistic bugs to the model in a scratch copy and record which theorems stop proving.

usage: mutate.py [--theorems] MUTANTS.json   (list of {file, definition, old, new, edit, claim})
With --theorems, examples and violations are removed first, so that only general theorems count.
Appends one line per mutant to seeded/LOG.jsonl and prints survivors.
"""
import json
import re
import shutil
import subprocess
import sys
from pathlib import Path

ROOT = Path(__file__).resolve().parent.parent
SCRATCH = Path("/tmp/scratch/lean")


def sync():
    SCRATCH.mkdir(parents=True, exist_ok=True)
    subprocess.run(["rsync", "-a", "--delete", str(ROOT / "lean") + "/", str(SCRATCH) + "/"], check=True) \
        if shutil.which("rsync") else (shutil.rmtree(SCRATCH), shutil.copytree(ROOT / "lean", SCRATCH, symlinks=True))


TOP = re.compile(r"(theorem|def|example|end\b|section|namespace|/-|@\[|attribute|open|instance|abbrev|structure|inductive"
                 r"|variable|macro|set_option|import|private|local|#)")


def strip(path):
    """remove examples and theorems about violations"""
    blocks, cur = [], []
    for line in path.read_text().split("\n"):
        comment = cur and cur[0].startswith("/-") and "-/" not in "".join(cur)
        if line and TOP.match(line) and not comment:
            blocks.append(cur)
            cur = []
        cur.append(line)
    blocks.append(cur)
    kept = []
    for b in blocks:
        if b and re.match(r"example|theorem \w*violation", b[0]):
            if kept and kept[-1] and kept[-1][0].startswith("/--"):
                kept.pop()
        else:
            kept.append(b)
    path.write_text("\n".join("\n".join(b) for b in kept))


def theorem_at(path, line):
    name = None
    for i, l in enumerate(path.read_text().splitlines(), 1):
        m = re.match(r"(?:@\[[^\]]*\]\s*)?(?:private\s+)?(?:theorem|def|example|instance)\s*([\w.'«»]*)", l)
        if m:
            if i > line:
                break
            name = m.group(1) or "example"
    return name


def run(mut):
    path = SCRATCH / mut["file"]
    orig = path.read_text()
    if orig.count(mut["old"]) != 1:
        return None, f"pattern occurs {orig.count(mut['old'])} times: {mut['old']!r}"
    path.write_text(orig.replace(mut["old"], mut["new"]))
    try:
        out = subprocess.run(["lake", "build"], cwd=SCRATCH, capture_output=True, text=True, timeout=3000)
    finally:
        path.write_text(orig)
    txt = out.stdout + out.stderr
    failed = []
    for m in re.finditer(r"^error: (Verif/[\w/]+\.lean):(\d+):\d+:", txt, re.M):
        n = f"{m.group(1)[6:-5].replace('/', '.')}:{theorem_at(SCRATCH / m.group(1), int(m.group(2)))}"
        if n not in failed:
            failed.append(n)
    mods = re.findall(r"^- (Verif[\w.]*)", txt, re.M)
    return (out.returncode, failed, mods, txt), None


def main():
    muts = json.loads(Path(sys.argv[-1]).read_text())
    sync()
    theorems = sys.argv[1] == "--theorems"
    if theorems:
        for p in SCRATCH.glob("Verif/Props/*.lean"):
            strip(p)
        audit = SCRATCH / "Verif" / "Audit.lean"
        audit.write_text("\n".join(l for l in audit.read_text().split("\n") if "violation" not in l))
    # which property theorems live in which module, and what they import
    deps = {}
    for p in SCRATCH.glob("Verif/**/*.lean"):
        mod = "Verif." + ".".join(p.relative_to(SCRATCH / "Verif").with_suffix("").parts)
        deps[mod] = set(re.findall(r"^import (Verif[\w.]*)", p.read_text(), re.M))

    def closure(m, seen=None):
        seen = seen if seen is not None else set()
        for d in deps.get(m, ()):
            if d not in seen:
                seen.add(d)
                closure(d, seen)
        return seen

    survivors = []
    with open(ROOT / "seeded" / "LOG.jsonl", "a") as log:
        for k, mut in enumerate(muts):
            res, err = run(mut)
            if err:
                print(k, "SKIPPED", err)
                continue
            rc, failed, mods, txt = res
            broken = {m for m in mods}
            props = sorted(m for m in deps if m.startswith("Verif.Props.") and (m in broken or closure(m) & broken))
            if rc == 0:
                survivors.append(k)
                print(k, "SURVIVED", mut["definition"], mut["edit"])
            else:
                print(k, "killed", mut["definition"], failed[:4], props)
            log.write(json.dumps({
                "definition": mut["definition"], "edit": mut["edit"], "claim": mut["claim"],
                "failed": failed, "property_modules_not_building": props,
                "tightened": mut.get("tightened", []),
                "survived": rc == 0,
                **({"only": "general theorems"} if theorems else {}),
            }) + "\n")
            log.flush()
    print("survivors:", survivors)


main()
