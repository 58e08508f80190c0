#!/usr/bin/env python3
"""Mutate the model automatically and report which changes no theorem notices.

usage: automut.py scratch-dir log.jsonl per-definition seed [explicit.json]

Every definition of lean/Verif/Model gets up to `per-definition` small changes, chosen at random among:
a number plus one, a comparison, a connective, an arithmetic operation, a Boolean, a text, take/drop. The
mutants of explicit.json (format of mutate.py) come first. A build is stopped at its first error; if that is in
an example, the example is removed and the build goes on. `scratch-dir` is a copy of lean/ with deps.json
(tools/deps.lean.txt).
"""
import glob
import json
import os
import random
import re
import signal
import subprocess
import sys
import time

scratch, log, per_def, seed = sys.argv[1], sys.argv[2], int(sys.argv[3]), int(sys.argv[4])
explicit = json.load(open(sys.argv[5])) if len(sys.argv) > 5 else []
deps = json.load(open(os.path.join(scratch, "deps.json")))
HEAD = re.compile(r"(?:@\[[^\]]*\] )?(?:private |noncomputable |instance )*"
                  r"(theorem|def|example|instance|structure|inductive|abbrev)\b ?([^\s:({\[]*)")
SWAPS = [("<", "≤"), ("≤", "<"), (">", "≥"), ("≥", ">"), ("=", "≠"), ("≠", "="), ("∧", "∨"), ("∨", "∧"), ("+", "-"),
         ("-", "+"), ("*", "+"), ("/", "*"), ("%", "/"), ("&&", "||"), ("||", "&&"), ("==", "!="), ("!=", "=="),
         ("&&&", "|||"), ("|||", "&&&")]
WORDS = {"true": "false", "false": "true", "take": "drop", "drop": "take", "some": "none", "takeWhile": "dropWhile",
         "dropWhile": "takeWhile", "isSome": "isNone", "isNone": "isSome", "reverse": "id", "any": "all", "all": "any"}


def decl_at(path, line):
    name = None
    with open(path) as f:
        for i, text in enumerate(f, 1):
            if i > line:
                break
            m = HEAD.match(text)
            if m:
                name = m.group(2) if m.group(1) != "example" else "example at line %d" % i
    return name


def definitions(path):
    """(name, start, end) of the body of each definition; comments are blanked."""
    text = open(path).read()
    plain = re.sub(r"/-.*?-/", lambda m: re.sub(r"[^\n]", " ", m.group(0)), text, flags=re.S)
    plain = re.sub(r"--[^\n]*", lambda m: " " * len(m.group(0)), plain)
    heads = [m for m in re.finditer(r"^(?:@\[[^\]]*\] )?(?:private |noncomputable )*"
                                    r"(def|abbrev|structure|inductive|instance|theorem|namespace|end|open|deriving)\b"
                                    r" ?([^\s:({\[]*)", plain, re.M)]
    for m, n in zip(heads, heads[1:] + [None]):
        if m.group(1) in ("def", "abbrev"):
            end = n.start() if n else len(plain)
            body = re.search(r":=|\n\s*\|", plain[m.end():end])
            if body:
                yield m.group(2), plain, m.end() + body.start() + (2 if body.group(0) == ":=" else 0), end


def changes(plain, start, end):
    body = plain[start:end]
    out = []
    strings = [(m.start(), m.end()) for m in re.finditer(r'"(?:[^"\\]|\\.)*"', body)]
    for a, b in strings:
        if b - a > 2:
            out.append((start + b - 2, start + b - 1, "x" if body[b - 2] != "x" else "y"))
    inside = lambda i: any(a <= i < b for a, b in strings)
    for m in re.finditer(r"(?<![\w.'₀-₉#])(0x[0-9A-Fa-f]+|0b[01]+|\d+)(?![\w'])", body):
        if not inside(m.start()):
            out.append((start + m.start(), start + m.end(), str(int(m.group(1), 0) + 1)))
    for old, new in SWAPS:
        for m in re.finditer(r"(?<=\s)" + re.escape(old) + r"(?=\s)", body):
            if not inside(m.start()):
                out.append((start + m.start(), start + m.end(), new))
    for m in re.finditer(r"(?<![\w'])([a-zA-Z]+)(?![\w'])", body):
        if m.group(1) in WORDS and not inside(m.start()):
            out.append((start + m.start(), start + m.end(), WORDS[m.group(1)]))
    # members of a list dropped, parts of a concatenation dropped
    for m in re.finditer(r"(?<=[\[,])\s*[^\[\],]+,", body):
        if not inside(m.start()):
            out.append((start + m.start(), start + m.end(), " "))
    for m in re.finditer(r"[^\s()]+ \+\+ ", body):
        if not inside(m.start()):
            out.append((start + m.start(), start + m.end(), ""))
    return out


def build():
    """First error as (file, decl), or None."""
    p = subprocess.Popen(["lake", "build"], cwd=scratch, stdout=subprocess.PIPE, stderr=subprocess.STDOUT, text=True,
                         start_new_session=True)
    found = None
    bad = False
    for line in p.stdout:
        m = re.match(r"error: (Verif/\S+\.lean):(\d+):\d+:", line)
        if m:
            found = (m.group(1), decl_at(os.path.join(scratch, m.group(1)), int(m.group(2))))
            os.killpg(p.pid, signal.SIGKILL)
            break
        if line.startswith("error:") or "build failed" in line:
            bad = True
    p.wait()
    if found is None and (bad or p.returncode != 0):
        return ("?", "build failed without message")
    return found


def remove_example(file, start, saved):
    text = open(file).read()
    saved.setdefault(file, text)
    lines = text.split("\n")
    end = start
    while end < len(lines) and lines[end].strip():
        lines[end] = "--"
        end += 1
    while start > 0 and lines[start - 1].strip():
        start -= 1
        lines[start] = "--"
    open(file, "w").write("\n".join(lines))


def attempt(definition, edits, edit, claim, why, more=None):
    saved, failed = {}, []
    try:
        for file, change in edits:
            text = open(file).read()
            saved.setdefault(file, text)
            open(file, "w").write(change(text))
        while True:
            error = build()
            if error is None:
                break
            failed.append("%s: %s" % error)
            if not str(error[1]).startswith("example at line "):
                break
            remove_example(os.path.join(scratch, error[0]), int(error[1].split(" ")[-1]) - 1, saved)
    finally:
        for file, text in saved.items():
            open(file, "w").write(text)
    if failed and failed[-1].startswith("Verif/Model") or failed and failed[-1].startswith("?"):
        print("invalid |", definition, "|", edit.replace("\n", " "), "|", failed[-1], flush=True)
        return
    names = {f.split(": ")[1] for f in failed}
    hit = sorted(t for t, ds in deps.items() if re.search(r"\.c\d\d+_", t)
                 and any(d.split(".")[-1] == n.split(".")[-1] and d.endswith(n) for n in names for d in ds + [t]))
    survived = error is None
    print("SURVIVED" if survived else "killed", "|", definition, "|", edit.replace("\n", " "), "|", failed, "|", len(hit),
          flush=True)
    entry = {"definition": definition, "file": os.path.relpath(edits[0][0], scratch), "edit": edit, "claim": claim,
             "breaks": why, "failed": failed, "property_theorems_failed": hit, "tightened": []}
    if more:
        entry["more"] = more
    if survived:
        entry["note"] = "SURVIVED" if not failed else "only examples failed"
    with open(log, "a") as f:
        f.write(json.dumps(entry, ensure_ascii=False) + "\n")


done = set()
if os.path.exists(log):
    done = {(e["file"], e["edit"]) for e in map(json.loads, open(log))}


def pause():
    while subprocess.run(["pgrep", "-f", "verdict.py lea[n]"], stdout=subprocess.DEVNULL).returncode == 0:
        time.sleep(10)


for mu in explicit:
    edit = "%s  ->  %s" % (mu["old"], mu["new"])
    if (mu["file"], edit) in done:
        continue
    pause()
    parts = [mu] + mu.get("more", [])
    if any(open(os.path.join(scratch, e["file"])).read().count(e["old"]) != 1 for e in parts):
        print("SKIP", mu["def"], edit, flush=True)
        continue
    attempt(mu["def"], [(os.path.join(scratch, e["file"]), lambda t, e=e: t.replace(e["old"], e["new"])) for e in parts],
            edit, mu["claim"], mu["why"], mu.get("more"))

rng = random.Random(seed)
plan = []
for path in sorted(glob.glob(os.path.join(scratch, "Verif/Model/**/*.lean"), recursive=True)):
    for name, plain, start, end in definitions(path):
        cs = changes(plain, start, end)
        rng.shuffle(cs)
        plan += [(k, path, name, c) for k, c in enumerate(cs[:per_def])]
rng.shuffle(plan)
plan.sort(key=lambda x: x[0])
print("%d automatic mutants" % len(plan), flush=True)
for _, path, name, (a, b, new) in plan:
    text = open(path).read()
    line = text[text.rfind("\n", 0, a) + 1:text.find("\n", b)]
    changed = text[text.rfind("\n", 0, a) + 1:a] + new + text[b:text.find("\n", b)]
    edit = "%s  ->  %s" % (line.strip(), changed.strip())
    if (os.path.relpath(path, scratch), edit) in done:
        continue
    pause()
    attempt(name, [(path, lambda t: t[:a] + new + t[b:])], edit, "", "automatic change")
