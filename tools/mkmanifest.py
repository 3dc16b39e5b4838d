#!/usr/bin/env python3
"""Rebuild MANIFEST.json from the theorem names in lean/Verif/Props and tools/notes.json."""
import json, re, pathlib
root = pathlib.Path(__file__).resolve().parent.parent
props = [json.loads(l) for l in (root / "properties.jsonl").read_text().splitlines() if l.strip()]
notes = json.loads((root / "tools/notes.json").read_text())
thms = {}
for f in sorted((root / "lean/Verif/Props").rglob("*.lean")):
    for m in re.finditer(r"^(?:private )?theorem\s+(C\d\d+)_([A-Za-z0-9_'₀-₉]+)", f.read_text(), re.M):
        thms.setdefault(m.group(1), []).append(f"Conj.{m.group(1)}_{m.group(2)}")
claims = []
for p in props:
    i = p["id"]
    n = notes.get(i, {})
    t = thms.get(i, [])
    if not t and n.get("status") != "not_applicable":
        continue
    claims.append({"property": i, "status": n.get("status", "proved"), "theorems": t + n.get("extra", []), "note": n.get("note", "")})
(root / "MANIFEST.json").write_text(json.dumps({"claims": claims}, indent=1, ensure_ascii=False) + "\n")
missing = [p["id"] for p in props if p["id"] not in {c["property"] for c in claims}]
print(len(claims), "claims; missing", missing, "; thms", sum(map(len, thms.values())))
(root / "lean/Verif.lean").write_text("".join(
    "import " + ".".join(f.relative_to(root / "lean").with_suffix("").parts) + "\n"
    for f in sorted((root / "lean/Verif").rglob("*.lean"))))
