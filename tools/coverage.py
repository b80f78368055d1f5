#!/usr/bin/env python3
"""List the code lines of the headers that no definition of the model cites."""
import re, pathlib, sys
root = pathlib.Path(__file__).resolve().parent.parent / "lean" / "Verif" / "Model"
inc = pathlib.Path("/repo/include/vecmath")
cited = {f.name: set() for f in inc.glob("*.h")}
for f in root.glob("*.lean"):
    txt = f.read_text()
    for m in re.finditer(r"(\w+\.h):((?:\d+(?:-\d+)?(?:, ?| and |; ?)?)+)", txt):
        if m.group(1) not in cited: continue
        for r in re.findall(r"(\d+)(?:-(\d+))?", m.group(2)):
            a = int(r[0]); b = int(r[1]) if r[1] else a
            cited[m.group(1)] |= set(range(a, b + 1))
tot = unc = 0
for name in sorted(cited):
    lines = (inc / name).read_text().splitlines()
    incom = False; out = []
    for i, l in enumerate(lines, 1):
        s = l.strip()
        if incom:
            if "*/" in s: incom = False
            continue
        if s.startswith("/*"):
            if "*/" not in s: incom = True
            continue
        if not s or s.startswith("//") or s.startswith("#") or s in "{}};" or s.startswith("namespace") or s.startswith("} //") or s.startswith("template"): continue
        tot += 1
        if i not in cited[name]: unc += 1; out.append((i, s))
    print("==", name, len(out), "uncited")
    if len(sys.argv) > 1 and name in sys.argv[1:]:
        for i, s in out: print("  ", i, s)
print(tot, "code lines,", unc, "uncited")
