#!/usr/bin/env python3
"""Regenerate MANIFEST.json from the theorem names in lean/Verif/Props and tools/notes.json."""
import json, re, pathlib
root = pathlib.Path(__file__).resolve().parent.parent
notes = json.loads((root / "tools/notes.json").read_text())
thms = {}
for f in sorted((root / "lean/Verif/Props").rglob("*.lean")):
    for m in re.finditer(r"^(?:private )?theorem (C(\d\d+)_\w+)", f.read_text(), re.M):
        thms.setdefault("C" + m.group(2), []).append("Verif.Props." + m.group(1))
claims = []
for line in (root / "properties.jsonl").read_text().splitlines():
    if not line.strip():
        continue
    pid = json.loads(line)["id"]
    n = notes.get(pid, {})
    ts = thms.get(pid, [])
    if not ts and n.get("status") != "not_applicable":
        continue
    status = n.get("status") or ("partial" if any(t.endswith("_partial") for t in ts) else "proved")
    claims.append({"property": pid, "status": status, "theorems": ts, "note": n.get("note", "")})
(root / "MANIFEST.json").write_text(json.dumps({"claims": claims}, indent=1) + "\n")
print({s: sum(c["status"] == s for c in claims) for s in ("proved", "partial", "not_applicable")})
