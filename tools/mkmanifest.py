#!/usr/bin/env python3
"""Regenerates MANIFEST.json from the theorem names in lean/Verif/Props and the table below."""
import json, pathlib, re

root = pathlib.Path(__file__).resolve().parent.parent
names = {}
for f in sorted((root / "lean/Verif/Props").glob("*.lean")):
    for m in re.finditer(r"^theorem (C(\d\d)_\w+)", f.read_text(), re.M):
        names.setdefault("C" + m.group(2), []).append("Verif." + m.group(1))

table = json.loads((root / "tools/status.json").read_text())
claims = []
for line in (root / "properties.jsonl").read_text().splitlines():
    pid = json.loads(line)["id"]
    if pid in names:
        status, note = table.get(pid, ["proved", ""])
        claims.append({"property": pid, "status": status, "theorems": names[pid], "note": note})
(root / "MANIFEST.json").write_text(json.dumps({"claims": claims}, indent=1, ensure_ascii=False) + "\n")
missing = [json.loads(l)["id"] for l in (root / "properties.jsonl").read_text().splitlines()
           if json.loads(l)["id"] not in names]
print(len(claims), "claims; no theorem yet for", missing)
