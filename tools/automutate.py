#!/usr/bin/env python3
"""Generate small edits of the model and report those that no general theorem notices.

usage: automutate.py COUNT SEED [FILE ...]
Works in a scratch copy without examples, sample sections and violations. Building stops at the first proof that
fails. Survivors are printed and appended to /tmp/am/survivors.jsonl, killed edits to /tmp/am/killed.jsonl.
"""
import json
import os
import random
import re
import shutil
import signal
import subprocess
import sys
from pathlib import Path

ROOT = Path(__file__).resolve().parent.parent
SCRATCH = Path(os.environ.get("AM_SCRATCH", "/tmp/am/lean"))
OUT = SCRATCH.parent

OPS = [
    (r"&&", ["||"]), (r"\|\|(?!\|)", ["&&"]), (r"∧", ["∨"]), (r"∨", ["∧"]),
    (r"\btrue\b", ["false"]), (r"\bfalse\b", ["true"]),
    (r" \+ 1\b", ["", " + 2"]), (r" - 1\b", [""]),
    (r"==", ["!="]), (r"!=", ["=="]), (r"≠", ["="]), (r" ≤ ", [" < "]), (r" < ", [" ≤ "]), (r" > ", [" ≥ "]), (r" ≥ ", [" > "]),
    (r"(?<=if )(?=[a-z(])", ["¬ "]), (r"!(?=[a-zA-Z(])", [""]), (r"¬ ?", [""]),
    (r"\.dropLast\b", [""]), (r"\.reverse\b", [""]), (r"\.tail\b", [""]), (r"\.isEmpty\b", [".isEmpty.not"]),
    (r"\blstrip\b", ["id", "strip"]), (r"\brstrip\b", ["id", "strip"]), (r"\bstrip\b", ["id"]),
    (r"\btake\b", ["drop"]), (r"\bdrop\b", ["take"]), (r"\.takeWhile\b", [".dropWhile"]), (r"\.dropWhile\b", [".takeWhile"]),
    (r"\.all\b", [".any"]), (r"\.any\b", [".all"]), (r"\bstar\b", ["plus"]), (r"\bplus\b", ["star"]), (r"\bopt\b", ["id"]),
    (r"\bstarL\b", ["star"]), (r"\bplusL\b", ["plus"]), (r"\bstartsWith\b", ["endsWith"]), (r"\bendsWith\b", ["startsWith"]),
    (r"[\w.]+ \+\+ ", [""]), (r" \+\+ [\w.]+(?= |$|\))", [""]), (r" \+\+ \[[^\[\]]*\]", [""]),
    (r"\.valueError\b", [".typeError"]), (r"\.indexError\b", [".valueError"]), (r"\.typeError\b", [".valueError"]),
    (r"\.keyError\b", [".indexError"]), (r"\.attributeError\b", [".keyError"]),
    (r"s% \"([^\"\\]+)\"", ["s% \"\"", "s% \"~\""]), (r"'([a-z:#%{}()-])'", ["'~'"]),
    (r"Uni\.lower ", [""]), (r"Uni\.capitalize ", [""]), (r"\.map some\b", [""]),
    (r"\bisSpace\b", ["isWord"]), (r"\.eraseIdx\b", [".insertIdx"]),
    (r"\b0\b", ["1"]), (r"\b1\b", ["0", "2"]), (r"\.ok r\b", [".error .valueError"]),
]


def prepare():
    if SCRATCH.exists():
        shutil.rmtree(SCRATCH)
    shutil.copytree(ROOT / "lean", SCRATCH, symlinks=True)
    mutate = {"__file__": str(ROOT / "tools" / "mutate.py"), "__name__": "mutate"}
    exec((ROOT / "tools" / "mutate.py").read_text().replace("\nmain()\n", "\n"), mutate)
    for p in SCRATCH.glob("Verif/Props/*.lean"):
        out, cur = [], None
        for line in p.read_text().split("\n"):
            if cur is None and line.strip() == "section":
                cur = [line]
            elif cur is not None:
                cur.append(line)
                if line.strip() == "end":
                    if not any("attribute [local instance] asciiUni" in x for x in cur):
                        out += cur
                    cur = None
            else:
                out.append(line)
        p.write_text("\n".join(out))
        mutate["strip"](p)
    return mutate["theorem_at"]


def sites(path):
    """(line number, definition, old line, new line) of every possible edit"""
    found, definition, comment = [], None, False
    for n, line in enumerate(path.read_text().split("\n")):
        if line.lstrip().startswith("/-"):
            comment = True
        if comment:
            if "-/" in line:
                comment = False
            continue
        m = re.match(r"(?:def|abbrev|structure|inductive|instance) ?(\S*)", line)
        if m:
            definition = m.group(1) if line.startswith("def") else None
        if definition is None:
            continue
        start = 0
        if line.startswith("def") and ":=" not in line:
            continue
        if ":=" in line and line.startswith("def"):
            start = line.index(":=") + 2
        for pat, news in OPS:
            for m in re.finditer(pat, line):
                if m.start() < start:
                    continue
                for new in news:
                    new_line = line[:m.start()] + new + line[m.end():]
                    if new_line != line:
                        found.append((n, definition, line, new_line))
    return found


def build():
    """the first error, or None"""
    mods = ["Verif.Props." + p.stem for p in SCRATCH.glob("Verif/Props/*.lean")]
    proc = subprocess.Popen(["lake", "build"] + mods, cwd=SCRATCH, stdout=subprocess.PIPE, stderr=subprocess.STDOUT,
                            text=True, start_new_session=True)
    try:
        for line in proc.stdout:
            m = re.match(r"error: (Verif/[\w/]+\.lean):(\d+):\d+:", line)
            if m:
                return m.group(1), int(m.group(2))
            if line.startswith("error: "):
                return "Verif/Model/?", 0
        proc.wait()
        return None
    finally:
        try:
            os.killpg(proc.pid, signal.SIGKILL)
        except ProcessLookupError:
            pass
        proc.wait()


def main():
    count, seed = int(sys.argv[1]), int(sys.argv[2])
    theorem_at = prepare()
    error = build()
    assert error is None, error
    files = sys.argv[3:] or [p.stem for p in (SCRATCH / "Verif" / "Model").glob("*.lean") if p.stem != "Constants"]
    everything = [(f, s) for f in files for s in sites(SCRATCH / "Verif" / "Model" / f"{f}.lean")]
    print(len(everything), "possible edits", flush=True)
    rnd = random.Random(seed)
    rnd.shuffle(everything)
    done = 0
    for f, (n, definition, old, new) in everything:
        if done >= count:
            break
        path = SCRATCH / "Verif" / "Model" / f"{f}.lean"
        orig = path.read_text()
        lines = orig.split("\n")
        assert lines[n] == old
        lines[n] = new
        path.write_text("\n".join(lines))
        error = build()
        entry = {"file": f, "line": n + 1, "definition": definition, "old": old.strip(), "new": new.strip()}
        if error and error[0].startswith("Verif/Model/"):
            path.write_text(orig)
            continue
        done += 1
        if error:
            entry["failed"] = error[0][6:-5].replace("/", ".") + ":" + str(theorem_at(SCRATCH / error[0], error[1]))
            with open(OUT / "killed.jsonl", "a") as out:
                out.write(json.dumps(entry, ensure_ascii=False) + "\n")
        else:
            print("SURVIVED", json.dumps(entry, ensure_ascii=False), flush=True)
            with open(OUT / "survivors.jsonl", "a") as out:
                out.write(json.dumps(entry, ensure_ascii=False) + "\n")
        path.write_text(orig)
    print("done", done, flush=True)


main()
