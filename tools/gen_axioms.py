#!/usr/bin/env python3
"""Asks Lean for the axioms of every theorem in MANIFEST.json and rewrites the list at the end of DESIGN.md.
Run after `lake build`."""
import json, re, subprocess, os
names = sorted({t for c in json.load(open("/verif/MANIFEST.json"))["claims"] for t in c["theorems"]})
src = "import Verif\n" + "".join(f"#print axioms {n}\n" for n in names)
open("/tmp/axioms.lean", "w").write(src)
out = subprocess.run(["lake", "env", "lean", "/tmp/axioms.lean"], cwd="/verif/lean", capture_output=True, text=True).stdout
out = re.sub(r"\n\s+", " ", out)
groups = {}
for n in names:
    m = re.search(r"'" + re.escape(n) + r"' (depends on axioms: \[([^\]]*)\]|does not depend on any axioms)", out)
    assert m, n
    groups.setdefault(m.group(2) or "", []).append(n.replace("TsFile.", ""))
lines = ["<!-- axioms:begin (generated by tools/gen_axioms.py) -->"]
for ax in sorted(groups, key=lambda a: -len(groups[a])):
    title = "no axioms" if not ax else ", ".join(f"`{a.strip()}`" for a in sorted(ax.split(",")))
    lines.append(f"* {title} ({len(groups[ax])} theorems): " + ", ".join(f"`{n}`" for n in groups[ax]) + ".")
lines.append("<!-- axioms:end -->")
p = "/verif/DESIGN.md"
s = open(p).read()
s = re.sub(r"<!-- axioms:begin.*?<!-- axioms:end -->", lambda _: "\n".join(lines), s, flags=re.S)
open(p, "w").write(s)
print({k or "none": len(v) for k, v in groups.items()})
