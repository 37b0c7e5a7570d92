#!/usr/bin/env python3
"""Write AXIOMS.txt: the axioms each theorem of MANIFEST.json depends on (run after `lake build`)."""
import json, os, re, subprocess, tempfile
root = os.path.dirname(os.path.dirname(os.path.abspath(__file__)))
names = [t for c in json.load(open(f"{root}/MANIFEST.json"))["claims"] for t in c["theorems"]]
with tempfile.NamedTemporaryFile("w", suffix=".lean", delete=False) as f:
    f.write("import Verif\n" + "".join(f"#print axioms {n}\n" for n in names))
out = subprocess.run(["lake", "env", "lean", f.name], cwd=f"{root}/lean",
                     capture_output=True, text=True, check=True).stdout
os.unlink(f.name)
out = re.sub(r"\n\s+", " ", out)
found = dict(re.findall(r"'(\S+)' (?:depends on axioms: )?(\[[^\]]*\]|does not depend on any axioms)", out))
with open(f"{root}/AXIOMS.txt", "w") as f:
    for n in names:
        ax = found[n]
        f.write(f"{n}: {'none' if ax.startswith('does') else ax.strip('[]')}\n")
