#!/usr/bin/env python3
"""Write MANIFEST.json and lean/Verif/Audit.lean from the theorems `Cnn_...` found in lean/Verif/Props."""
import glob, json, os, re
root = os.path.dirname(os.path.dirname(os.path.abspath(__file__)))
ids = [json.loads(l)["id"] for l in open(f"{root}/properties.jsonl")]
notes = json.load(open(f"{root}/tools/notes.json"))
found, imports = {}, []
for path in sorted(glob.glob(f"{root}/lean/Verif/Props/**/*.lean", recursive=True)):
    names = re.findall(r"^(?:private |protected )?theorem (C\d\d\w*_\w+)", open(path).read(), re.M)
    if names:
        imports.append(os.path.relpath(path, f"{root}/lean")[:-5].replace("/", "."))
    for n in names:
        m = re.match(r"(C\d+)_", n)
        assert m.group(1) in ids, n
        found.setdefault(m.group(1), []).append("Ink." + n)
claims = []
for i in ids:
    if i not in found:
        continue
    part = any(n.endswith("_partial") or n.endswith("_refuted") for n in found[i]) or notes.get(i, "").startswith("PARTIAL")
    claims.append({"property": i, "status": "partial" if part else "proved", "theorems": found[i],
                   "note": notes.get(i, "").removeprefix("PARTIAL: ")})
json.dump({"claims": claims}, open(f"{root}/MANIFEST.json", "w"), indent=1)
with open(f"{root}/lean/Verif/Audit.lean", "w") as f:
    for m in imports:
        f.write(f"import {m}\n")
    f.write("/-! The axioms used by each property theorem (generated by tools/manifest.py). -/\n")
    for i in ids:
        for n in found.get(i, []):
            f.write(f"#print axioms {n}\n")
print(len(claims), "claims;", "missing:", [i for i in ids if i not in found])
