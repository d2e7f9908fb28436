#!/usr/bin/env python3
"""Rewrite the appendix of DESIGN.md: the theorems of each property, with their axioms, as reported by Lean."""
import json, os, re, subprocess, tempfile
root = os.path.abspath(os.path.join(os.path.dirname(__file__), ".."))
claims = json.load(open(os.path.join(root, "MANIFEST.json")))["claims"]
titles = {d["id"]: d["title"] for d in map(json.loads, open(os.path.join(root, "properties.jsonl")))}
names = [t for c in claims for t in c["theorems"]]
with tempfile.NamedTemporaryFile("w", suffix=".lean", delete=False) as f:
    f.write("import Verif\n" + "".join(f"#print axioms {t}\n" for t in names))
out = subprocess.run(["lake", "env", "lean", f.name], cwd=os.path.join(root, "lean"), capture_output=True, text=True).stdout
os.unlink(f.name)
axioms = {m.group(1): m.group(2) for m in re.finditer(r"'([^']+(?:'[^']*)?)' depends on axioms: \[([^\]]*)\]", out)}
short = {"propext": "P", "Classical.choice": "C", "Quot.sound": "Q"}
def ax(t):
    if t not in axioms:
        return "none"
    return "".join(short.get(a.strip(), a.strip()) for a in axioms[t].split(","))
lines = ["## Appendix: theorems and axioms", "",
         "P = propext, C = Classical.choice, Q = Quot.sound.  Names are in the namespace `Chaff`.", "",
         "| id | property | status | theorems (axioms) |", "|----|----------|--------|-------------------|"]
for c in claims:
    lines.append("| {} | {} | {} | {} |".format(c["property"], titles[c["property"]], c["status"],
        ", ".join("{} ({})".format(t.removeprefix("Chaff."), ax(t)) for t in c["theorems"])))
p = os.path.join(root, "DESIGN.md")
s = open(p).read().split("## Appendix: theorems and axioms")[0].rstrip()
open(p, "w").write(s + "\n\n" + "\n".join(lines) + "\n")
