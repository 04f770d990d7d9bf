"""Regenerate MANIFEST.json from the theorem names in lean/Verif/Props (theorems are named C<NN>_...)."""
import json, re, pathlib
root = pathlib.Path(__file__).resolve().parent.parent
props = [json.loads(l) for l in open(root / "properties.jsonl") if l.strip()]
notes = json.load(open(root / "tools" / "notes.json"))
found = {p["id"]: [] for p in props}
for f in sorted((root / "lean" / "Verif" / "Props").rglob("*.lean")):
    ns = []
    for line in f.read_text().splitlines():
        m = re.match(r"namespace (\S+)", line)
        if m:
            ns.append(m.group(1))
        m = re.match(r"end (\S+)", line)
        if m and ns and ns[-1] == m.group(1):
            ns.pop()
        m = re.match(r"(?:protected )?theorem (C\d{2,3}(?:_C\d{2,3})*_\w+)", line)
        if m:
            for c in re.findall(r"C\d{2,3}", m.group(1).split("_", 1)[0] + "_" + m.group(1)):
                name = ".".join(ns + [m.group(1)])
                if name not in found.setdefault(c, []):
                    found[c].append(name)
claims = []
for p in props:
    c = p["id"]
    n = notes.get(c, {})
    th = found[c]
    if not th:
        status = n.get("status", "not_applicable")
    else:
        status = n.get("status", "partial" if any("_partial" in t or "_fails" in t for t in th) else "proved")
    claims.append({"property": c, "status": status, "theorems": th,
                   "note": n.get("note", "" if th else "Not modelled yet: nothing is proved about this property.")})
json.dump({"claims": claims}, open(root / "MANIFEST.json", "w"), indent=1)
print({s: [c["property"] for c in claims if c["status"] == s] for s in ("proved", "partial", "not_applicable")})
