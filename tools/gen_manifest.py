#!/usr/bin/env python3
"""Write MANIFEST.json from the claims below, with the axioms of every listed theorem in AXIOMS.md.

Run after a successful `lake build` in /verif/lean.
"""
import json
import pathlib
import re
import subprocess
import sys

ROOT = pathlib.Path(__file__).resolve().parent.parent

CLAIMS = []


def c(prop, status, theorems, note=""):
    CLAIMS.append({
        "property": prop,
        "status": status,
        "theorems": ["Verif.Props." + t for t in theorems],
        "note": note,
    })


exec((ROOT / "tools" / "claims.py").read_text())

props = [json.loads(x)["id"] for x in (ROOT / "properties.jsonl").read_text().splitlines() if x.strip()]
ids = [x["property"] for x in CLAIMS]
for i in ids:
    if i not in props:
        sys.exit(f"unknown property {i}")
if len(ids) != len(set(ids)):
    sys.exit("duplicate claim")

(ROOT / "MANIFEST.json").write_text(json.dumps({"claims": CLAIMS}, indent=1) + "\n")

names = sorted({t for x in CLAIMS for t in x["theorems"]})
src = "import Verif\n" + "\n".join(f"#print axioms {n}" for n in names)
tmp = pathlib.Path("/tmp/axioms_check.lean")
tmp.write_text(src)
out = subprocess.run(["lake", "env", "lean", str(tmp)], cwd=ROOT / "lean", capture_output=True, text=True)
text = out.stdout + out.stderr
rows = []
bad = []
for m in re.finditer(r"'([^']+)' (does not depend on any axioms|depends on axioms: \[([^\]]*)\])", text.replace("\n", " ")):
    ax = re.sub(r"\s+", " ", m.group(3) or "").strip()
    rows.append((m.group(1), ax))
    for a in [a.strip() for a in ax.split(",") if a.strip()]:
        if a not in ("propext", "Classical.choice", "Quot.sound"):
            bad.append((m.group(1), a))
found = {r[0] for r in rows}
missing = [n for n in names if n not in found]
if missing or bad:
    print(text[-3000:])
    sys.exit(f"missing {missing} bad {bad}")
byprop = {}
for x in CLAIMS:
    for t in x["theorems"]:
        byprop.setdefault(t, []).append(x["property"])
lines = ["# Axioms", "", "Output of `#print axioms` for every theorem named in MANIFEST.json "
         "(written by `tools/gen_manifest.py`).", "", "| theorem | property | axioms |", "|---|---|---|"]
for n, ax in sorted(rows):
    lines.append(f"| `{n}` | {', '.join(byprop.get(n, []))} | {ax or 'none'} |")
(ROOT / "AXIOMS.md").write_text("\n".join(lines) + "\n")
print(f"{len(CLAIMS)} claims, {len(names)} theorems; unclaimed: {[p for p in props if p not in ids]}")
