#!/usr/bin/env python3
"""List the Go functions of /repo (tests excluded) with the model files that cite them."""
import os, re, glob
REPO, MODEL = "/repo", os.path.join(os.path.dirname(__file__), "..", "lean", "Verif", "Model")
cites = {}
for path in glob.glob(MODEL + "/**/*.lean", recursive=True):
    name = None
    head = re.search(r"/-!(.*?)-/", open(path).read(), re.S)
    for line in open(path):
        for m in re.finditer(r"((?:[\w/]+/)?\w+\.go)?:(\d+)(?:-(\d+))?", line):
            if m.group(1):
                name = m.group(1)
            if name:
                a = int(m.group(2)); b = int(m.group(3) or a)
                cites.setdefault(os.path.basename(name), []).append((a, b, os.path.relpath(path, MODEL)))
total = missing = 0
for path in sorted(glob.glob(REPO + "/**/*.go", recursive=True)):
    if path.endswith("_test.go"):
        continue
    lines = open(path).read().split("\n")
    for i, line in enumerate(lines, 1):
        m = re.match(r"func (?:\([^)]*\) )?(\w+)", line)
        if not m:
            continue
        end = i if line.rstrip().endswith("}") else next(j for j in range(i + 1, len(lines) + 1) if lines[j - 1].startswith("}"))
        total += 1
        by = sorted({f for a, b, f in cites.get(os.path.basename(path), []) if a <= end and b >= i})
        if not by:
            missing += 1
        print(f"{os.path.relpath(path, REPO)}:{i}-{end} {m.group(1)}: {', '.join(by) or '-'}")
print(f"{total} functions, {missing} not cited")
