#!/usr/bin/env python3
"""Write MANIFEST.json from the theorem names in lean/Verif/Props and the notes below."""
import collections
import glob
import json
import os
import re

ROOT = os.path.dirname(os.path.dirname(os.path.abspath(__file__)))

# property -> (status, note); a property without an entry is "proved" without a note
NOTES = {}
notes_file = os.path.join(ROOT, "tools", "manifest_notes.json")
if os.path.exists(notes_file):
    NOTES = json.load(open(notes_file))

thms = collections.defaultdict(list)
for path in sorted(glob.glob(os.path.join(ROOT, "lean", "Verif", "Props", "*.lean"))):
    ns = None
    for line in open(path):
        m = re.match(r"namespace (\S+)", line)
        if m:
            ns = m.group(1)
        m = re.match(r"theorem (c(\d\d+)_\w+)", line)
        if m:
            thms["C" + m.group(2)].append(ns + "." + m.group(1))

claims = []
for line in open(os.path.join(ROOT, "properties.jsonl")):
    pid = json.loads(line)["id"]
    if pid not in thms:
        continue
    status, note = NOTES.get(pid, ["proved", ""])
    claims.append({"property": pid, "status": status, "theorems": thms[pid], "note": note})
with open(os.path.join(ROOT, "MANIFEST.json"), "w") as f:
    json.dump({"claims": claims}, f, indent=1)
    f.write("\n")
print(len(claims), "claims,", sum(len(c["theorems"]) for c in claims), "theorems")
