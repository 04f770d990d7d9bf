#!/usr/bin/env python3
"""Run seeded-bug experiments on a scratch copy of the Lean project.

usage: mutate.py MUTANTS.json
Each entry: {"file": "Model/X.lean", "def": "...", "old": "...", "new": "...", "claim": "..."}.
Edits one definition of the model in /tmp/mut/lean, rebuilds, reports the theorems whose proof fails and
appends a line to /verif/seeded/LOG.jsonl (field "tightened" is filled in by hand when a theorem is changed).
"""
import json, os, re, subprocess, sys
SRC = "/verif/lean"
DST = "/tmp/mut/lean"
os.makedirs(DST, exist_ok=True)
subprocess.run(["rsync", "-a", "--delete", SRC + "/", DST + "/"], check=False) \
    if subprocess.run(["which", "rsync"], capture_output=True).returncode == 0 \
    else subprocess.run(f"rm -rf {DST} && cp -a {SRC} {DST}", shell=True, check=True)


def theorem_at(path, line):
  lines = open(path).read().split("\n")
  ex = None
  for i in range(min(line, len(lines)) - 1, -1, -1):
    if re.match(r"^example\b", lines[i]):
      return f"example@{os.path.basename(path)}"
    m = re.match(r"^(?:private |@\[.*?\] )*(?:theorem|lemma|def|instance)\s+(\S+)", lines[i])
    if m:
      return m.group(1)
  return None


def dropped(path, at):
  """The file with the proofs of the declarations at the given lines left out (scratch copy only)."""
  lines = open(path).read().split("\n")
  starts = [i for i, l in enumerate(lines) if re.match(r"^(?:noncomputable |private |@\[.*?\] )*(?:theorem|lemma|example)\b", l)]
  todo = {max([s for s in starts if s < n], default=None) for n in at} - {None}
  for s in sorted(todo, reverse=True):
    e = s + 1
    while e < len(lines) and (lines[e].startswith(" ") or lines[e] == "" and e + 1 < len(lines) and lines[e + 1].startswith(" ")):
      e += 1
    text = "\n".join(lines[s:e])
    c = re.search(r":= by\b|:=\n|:= (?=[⟨(a-zA-Z])|\n  \| ", text)
    if text.startswith("example"):
      new = ["example : True := trivial"]
    elif c:
      new = [text[:c.start()].rstrip() + " := by sor" + "ry"]
    else:
      continue
    lines[s:e] = new
  return "\n".join(lines)


def dependents(failed):
  """Property theorems whose proofs use a failed lemma (textual dependency, transitively closed)."""
  bodies = {}
  for root, _, files in os.walk(f"{SRC}/Verif"):
    if "/Model" in root:
      continue
    for f in files:
      cur = None
      for ln in open(os.path.join(root, f)):
        m = re.match(r"^(?:private |@\[.*?\] )*(?:theorem|lemma|def|instance)\s+(\S+)", ln)
        if m:
          cur = m.group(1)
          bodies[cur] = set()
        elif re.match(r"^(example|end|namespace)\b", ln):
          cur = None
        if cur:
          bodies[cur] |= set(re.findall(r"[A-Za-z_][A-Za-z0-9_'.]*", ln))
  lost = set(failed)
  while True:
    new = {t for t, b in bodies.items() if t not in lost and any(x in b or any(y.endswith("." + x) for y in b) for x in lost)}
    if not new:
      break
    lost |= new
  return sorted(t for t in lost - set(failed) if re.match(r"C\d\d", t))


for m in json.load(open(sys.argv[1])):
  p = f"{DST}/Verif/{m['file']}"
  orig = open(p).read()
  if orig.count(m["old"]) < 1:
    print("!! pattern not found:", m["def"], "|", m["old"])
    continue
  if "--check" in sys.argv:
    continue
  n = m.get("count", 1)
  open(p, "w").write(orig.replace(m["old"], m["new"], n))
  failed = []
  model_broken = False
  saved = {p: orig}
  for _ in range(12):
    # lake keeps building all modules that do not import one that failed
    r = subprocess.run(["lake", "build", "--no-ansi"], cwd=DST, capture_output=True, text=True)
    errors = [(mm.group(1), int(mm.group(2))) for mm in re.finditer(r"error: (Verif/\S+?\.lean):(\d+):\d+", r.stdout + r.stderr)]
    for path, line in errors:
      t = theorem_at(f"{DST}/{path}", line)
      if path.startswith("Verif/Model"):
        model_broken = True
      if t and t not in failed:
        failed.append(t)
    if not errors or model_broken or any(t.startswith(m["claim"][:3]) for t in failed):
      break
    # see what fails in the modules that were not built: drop the failed proofs in the scratch copy and build again
    for path in {e[0] for e in errors}:
      saved.setdefault(f"{DST}/{path}", open(f"{DST}/{path}").read())
      open(f"{DST}/{path}", "w").write(dropped(f"{DST}/{path}", [e[1] for e in errors if e[0] == path]))
  for q, text in saved.items():
    open(q, "w").write(text)
  entry = {"definition": m["def"], "edit": f"{m['old'].strip()} -> {m['new'].strip()}", "claim": m["claim"],
           "failed": failed,
           "lost": dependents([t for t in failed if not t.startswith("example")]), "tightened": m.get("tightened", [])}
  if model_broken:
    entry["note"] = "the edited model no longer compiles"
  print(json.dumps(entry, ensure_ascii=False)[:400])
  if not failed:
    print("   ^^^ SURVIVED")
  elif not any(t.startswith(m["claim"][:3]) for t in entry["failed"] + entry["lost"]):
    print("   ^^^ no theorem of the claimed property failed")
  sys.stdout.flush()
  if "--dry" not in sys.argv:
    with open("/verif/seeded/LOG.jsonl", "a") as f:
      f.write(json.dumps(entry, ensure_ascii=False) + "\n")
