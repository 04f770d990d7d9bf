#!/usr/bin/env python3
"""Write axioms.txt: the axioms every theorem of MANIFEST.json depends on (run `lake build` in lean/ first)."""
import json, re, subprocess, pathlib, tempfile
root = pathlib.Path(__file__).resolve().parent.parent
names = sorted({t for c in json.load(open(root / "MANIFEST.json"))["claims"] for t in c["theorems"]})
with tempfile.TemporaryDirectory() as d:
  f = pathlib.Path(d) / "Axioms.lean"
  f.write_text("import Verif\n" + "".join(f"#print axioms {n}\n" for n in names))
  r = subprocess.run(["lake", "env", "lean", str(f)], cwd=root / "lean", capture_output=True, text=True)
out = re.sub(r"\n\s+", " ", r.stdout)
res = {}
for line in out.splitlines():
  m = re.match(r"'(\S+)' depends on axioms: \[(.*)\]", line)
  if m:
    res[m.group(1)] = m.group(2)
  m = re.match(r"'(\S+)' does not depend on any axioms", line)
  if m:
    res[m.group(1)] = "none"
missing = [n for n in names if n not in res]
(root / "axioms.txt").write_text("".join(f"{n}: {res.get(n, '?')}\n" for n in names))
print(len(names), "theorems;", "missing:", missing, "; axioms used:", sorted({a for v in res.values() for a in v.split(", ")}), r.stderr[:300])
