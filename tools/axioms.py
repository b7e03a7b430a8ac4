#!/usr/bin/env python3
"""Write AXIOMS.md: the axioms each theorem of MANIFEST.json depends on, as printed by Lean."""
import json, pathlib, re, subprocess
root = pathlib.Path(__file__).resolve().parent.parent
claims = json.loads((root / "MANIFEST.json").read_text())["claims"]
names = [(c["property"], t) for c in claims for t in c["theorems"]]
src = pathlib.Path("/tmp/axioms_check.lean")
src.write_text("import Verif\n" + "".join(f"#print axioms {t}\n" for _, t in names))
out = subprocess.run(["lake", "env", "lean", str(src)], cwd=root / "lean", capture_output=True, text=True).stdout
out = re.sub(r"\n\s+", " ", out)
deps = {}
for line in out.splitlines():
    m = re.match(r".*'([\w.]+)' depends on axioms: \[(.*)\]", line)
    if m:
        deps[m.group(1)] = m.group(2)
    m = re.match(r".*'([\w.]+)' does not depend on any axioms", line)
    if m:
        deps[m.group(1)] = "none"
missing = [t for _, t in names if t not in deps]
assert not missing, missing
groups = {}
for p, t in names:
    groups.setdefault(deps[t], []).append(t.replace("Verif.Props.", ""))
text = "# Axioms used by each theorem\n\nGenerated by tools/axioms.py from `#print axioms`.\n"
for d, ts in sorted(groups.items()):
    text += f"\n## {d}\n\n" + ", ".join(ts) + "\n"
(root / "AXIOMS.md").write_text(text)
print({d: len(ts) for d, ts in groups.items()})
