#!/usr/bin/env python3
"""Write MANIFEST.json from the table in claims.txt and check that every theorem named exists.

claims.txt: one block per property, first line `C01 proved|partial|not_applicable  note`, then indented theorem names
(in namespace Dnssec.Props)."""
import json, re, pathlib
root = pathlib.Path(__file__).parent
defined = set()
for f in (root / "lean/Verif/Props").glob("*.lean"):
    defined |= set(re.findall(r"(?m)^theorem (\S+)", f.read_text()))
claims, used = [], set()
for line in (root / "claims.txt").read_text().splitlines():
    if not line.strip():
        continue
    if line.startswith(" "):
        for t in line.split():
            assert t in defined, t
            used.add(t)
            claims[-1]["theorems"].append("Dnssec.Props." + t)
    else:
        parts = line.split(None, 2)
        claims.append({"property": parts[0], "status": parts[1], "theorems": [], "note": parts[2] if len(parts) > 2 else ""})
ids = [json.loads(l)["id"] for l in (root / "properties.jsonl").read_text().splitlines()]
have = [c["property"] for c in claims]
print("no claim:", [i for i in ids if i not in have], "unknown:", [i for i in have if i not in ids])
print("unlisted theorems:", sorted(t for t in defined - used if re.match(r"C\d\d", t)))
(root / "MANIFEST.json").write_text(json.dumps({"claims": claims}, indent=1) + "\n")
