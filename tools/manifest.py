#!/usr/bin/env python3
"""Regenerate MANIFEST.json, lean/Verif.lean and the axiom audit input from the sources.

A theorem belongs to property Cnn if its name starts with `Cnn_`.  Status and notes come from
tools/notes.json; the default status is `proved`, or `partial` if a theorem has the suffix
`_partial`."""
import json, re, pathlib
root = pathlib.Path(__file__).resolve().parent.parent
lean = root / "lean"
files = sorted((lean / "Verif").rglob("*.lean"))
mods = [str(f.relative_to(lean))[:-5].replace("/", ".") for f in files]
(lean / "Verif.lean").write_text("".join(f"import {m}\n" for m in mods))
thms = {}
for f in files:
    ns = []
    for line in f.read_text().splitlines():
        m = re.match(r"namespace (\S+)", line)
        if m: ns.append(m.group(1))
        m = re.match(r"end (\S+)", line)
        if m and ns and ns[-1] == m.group(1): ns.pop()
        m = re.match(r"theorem (C(\d\d+)_\S+)", line)
        if m: thms.setdefault("C" + m.group(2), []).append(".".join(ns + [m.group(1)]))
notes = json.loads((root / "tools" / "notes.json").read_text())
claims = []
for l in (root / "properties.jsonl").read_text().splitlines():
    if not l.strip(): continue
    i = json.loads(l)["id"]
    t = thms.get(i, [])
    n = notes.get(i, {})
    if not t and not n: continue
    st = n.get("status") or ("partial" if any(x.endswith("_partial") for x in t) else "proved")
    claims.append({"property": i, "status": st, "theorems": t, "note": n.get("note", "")})
(root / "MANIFEST.json").write_text(json.dumps({"claims": claims}, indent=1) + "\n")
allt = [t for c in claims for t in c["theorems"]]
pathlib.Path("/tmp/audit.lean").write_text("import Verif\n" + "".join(f"#print axioms {t}\n" for t in allt))
print(len(claims), "claims,", len(allt), "theorems; missing:", [json.loads(l)["id"] for l in (root / "properties.jsonl").read_text().splitlines() if json.loads(l)["id"] not in [c["property"] for c in claims]])
