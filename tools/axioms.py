#!/usr/bin/env python3
"""Write AXIOMS.txt: the axioms each theorem of MANIFEST.json depends on, as printed by Lean."""
import json, os, re, subprocess, tempfile
ROOT = os.path.join(os.path.dirname(os.path.abspath(__file__)), "..")
names = [t for c in json.load(open(ROOT + "/MANIFEST.json"))["claims"] for t in c["theorems"]]
with tempfile.NamedTemporaryFile("w", suffix=".lean", delete=False) as f:
    f.write("import Verif\n" + "".join(f"#print axioms {n}\n" for n in names))
out = subprocess.run(["lake", "env", "lean", f.name], cwd=ROOT + "/lean", capture_output=True, text=True).stdout
out = out.replace("\n ", " ")
with open(ROOT + "/AXIOMS.txt", "w") as g:
    n = 0
    for line in out.split("\n"):
        m = re.match(r"'(.*?)' (?:depends on axioms: \[(.*)\]|does not depend)", line)
        if m:
            g.write(f"{m.group(1)}: {re.sub(' +', ' ', m.group(2) or '-')}\n")
            n += 1
print(n, "of", len(names))
