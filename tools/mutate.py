#!/usr/bin/env python3
"""Build the project with one definition changed at a time and report what stops proving.

usage: mutate.py mutants.json scratch-dir log.jsonl

Each mutant: {"file", "def", "old", "new", "claim", "why"}, and optionally "more", further edits
{"file", "old", "new"} made at the same time. `scratch-dir` is a copy of lean/ that
is modified and restored; nothing under /verif is touched except the log. deps.json in the scratch
directory maps every property theorem to the declarations it uses (tools/deps.lean).
"""
import json
import os
import re
import subprocess
import sys

mutants, scratch, log = sys.argv[1:4]
deps_file = os.path.join(scratch, "deps.json")
deps = json.load(open(deps_file)) if os.path.exists(deps_file) else {}


def decl_at(path, line):
    name = None
    with open(path) as f:
        for i, text in enumerate(f, 1):
            if i > line:
                break
            m = re.match(r"(?:@\[[^\]]*\] )?(?:private |noncomputable |instance )*"
                         r"(theorem|def|example|instance|structure|inductive|abbrev)\b ?([^\s:({\[]*)", text)
            if m:
                name = m.group(2) if m.group(1) != "example" else "example at line %d" % i
    return name


def build():
    p = subprocess.run(["lake", "build"], cwd=scratch, capture_output=True, text=True)
    out = p.stdout + p.stderr
    failed, seen = [], set()
    for m in re.finditer(r"^error: (Verif/\S+\.lean):(\d+):\d+:", out, re.M):
        d = decl_at(os.path.join(scratch, m.group(1)), int(m.group(2)))
        key = (m.group(1), d)
        if key not in seen:
            seen.add(key)
            failed.append("%s: %s" % (m.group(1), d))
    return p.returncode, failed, out


done = set()
if os.path.exists(log):
    done = {(e["file"], e["edit"]) for e in map(json.loads, open(log))}

for mu in json.load(open(mutants)):
    if (mu["file"], "%s  ->  %s" % (mu["old"], mu["new"])) in done:
        continue
    path = os.path.join(scratch, mu["file"])
    src = open(path).read()
    if src.count(mu["old"]) != 1:
        print("SKIP (%d matches): %s %r" % (src.count(mu["old"]), mu["file"], mu["old"]))
        continue
    saved = {path: src}
    edits = [(path, mu["old"], mu["new"])]
    edits += [(os.path.join(scratch, e["file"]), e["old"], e["new"]) for e in mu.get("more", [])]
    try:
        for file, old, new in edits:
            text = open(file).read()
            saved.setdefault(file, text)
            assert text.count(old) == 1, (file, old)
            open(file, "w").write(text.replace(old, new))
        code, failed, out = build()
        everything = list(failed)
        # Only examples failed: remove them, so that the modules after them are built as well.
        while code != 0 and failed and all(": example at line " in f for f in failed):
            for f in failed:
                file = os.path.join(scratch, f.split(": ")[0])
                text = open(file).read()
                saved.setdefault(file, text)
                lines = text.split("\n")
                start = int(f.split(" ")[-1]) - 1
                end = start
                while lines[end].strip() and end + 1 < len(lines):
                    end += 1
                for i in range(start, end):
                    lines[i] = "--"
                while start > 0 and lines[start - 1].strip() and not lines[start - 1].startswith("--"):
                    start -= 1
                    lines[start] = "--"
                open(file, "w").write("\n".join(lines))
            code, failed, out = build()
            everything += [f for f in failed if f not in everything]
        if code == 0 and everything:
            print("ONLY EXAMPLES", mu["def"])
        failed = everything
    finally:
        for file, text in saved.items():
            open(file, "w").write(text)
    names = {f.split(": ")[1] for f in failed}
    hit = sorted(t for t, ds in deps.items() if re.search(r"\.c\d\d+_", t)
                 and any(d.split(".")[-1] == n.split(".")[-1] and d.endswith(n) for n in names for d in ds + [t]))
    code = 0 if not failed and code == 0 else 1
    print("SURVIVED" if code == 0 else "killed", "|", mu["def"], "|", mu["why"], "|", failed[:6], "|", len(hit))
    sys.stdout.flush()
    entry = {"definition": mu["def"], "file": mu["file"], "edit": "%s  ->  %s" % (mu["old"], mu["new"]),
             **({"more": mu["more"]} if "more" in mu else {}),
             "claim": mu["claim"], "breaks": mu["why"], "failed": failed,
             "property_theorems_failed": hit, "tightened": mu.get("tightened", [])}
    if code == 0:
        entry["failed"] = []
        entry["note"] = mu.get("note", "SURVIVED")
    with open(log, "a") as f:
        f.write(json.dumps(entry) + "\n")
