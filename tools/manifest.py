#!/usr/bin/env python3
"""Regenerates MANIFEST.json: every theorem `Cxx_...` in lean/Verif/Props is listed under property Cxx.
Properties without a theorem are left out; notes come from tools/notes.json."""
import json, re, pathlib
root = pathlib.Path(__file__).resolve().parent.parent
notes = json.loads((root / "tools/notes.json").read_text())
thms = {}
for f in sorted((root / "lean/Verif/Props").glob("*.lean")):
    ns = []
    for line in f.read_text().splitlines():
        if m := re.match(r"namespace (\S+)", line):
            ns.append(m[1])
        elif m := re.match(r"end (\S+)", line):
            if ns and ns[-1] == m[1]:
                ns.pop()
        elif m := re.match(r"theorem (C\d\d+)(_\S*)", line):
            thms.setdefault(m[1], []).append(".".join(ns + [m[1] + m[2]]))
claims = []
for line in (root / "properties.jsonl").read_text().splitlines():
    if not line.strip():
        continue
    pid = json.loads(line)["id"]
    names = thms.get(pid, [])
    n = notes.get(pid, {})
    status = n.get("status") or ("proved" if names else None)
    if status is None:
        continue
    claims.append({"property": pid, "status": status, "theorems": names, "note": n.get("note", "")})
(root / "MANIFEST.json").write_text(json.dumps({"claims": claims}, indent=1) + "\n")
print({c["property"]: (c["status"], len(c["theorems"])) for c in claims})
