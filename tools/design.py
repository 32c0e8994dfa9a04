"""Regenerate sections 5 and 6 of DESIGN.md from MANIFEST.json (needs a built project)."""
import json, os, re, subprocess
root = os.path.join(os.path.dirname(os.path.abspath(__file__)), "..")
m = json.load(open(os.path.join(root, "MANIFEST.json")))
d = open(os.path.join(root, "DESIGN.md")).read()
head = d[:d.index("## 5. Places where the code and the property disagree")]
titles = {json.loads(l)["id"]: json.loads(l)["title"] for l in open(os.path.join(root, "properties.jsonl")) if l.strip()}
out = ["## 5. Places where the code and the property disagree", "",
  "Each is proved from a concrete witness (theorems `_fails`), or noted as the reason a claim is partial.", ""]
thms = []
for c in m["claims"]:
    thms += c["theorems"]
    f = [t for t in c["theorems"] if t.endswith("_fails")]
    if f or c["status"] == "partial":
        s = "* **%s %s** (%s) - %s" % (c["property"], titles.get(c["property"], ""), c["status"], c["note"])
        if f: s += " Witnesses: " + ", ".join("`%s`" % t for t in f) + "."
        out.append(s)
names = sorted(set(thms))
tmp = "/tmp/axioms.lean"
open(tmp, "w").write("import Verif\n" + "\n".join("#print axioms " + t for t in names) + "\n")
r = subprocess.run(["lake", "env", "lean", tmp], cwd=os.path.join(root, "lean"), capture_output=True, text=True)
txt = r.stdout
ax = {}
for mm in re.finditer(r"'([^']+)' (?:depends on axioms: \[([^\]]*)\]|does not depend on any axioms)", txt):
    ax[mm.group(1)] = ", ".join(sorted(x.strip() for x in (mm.group(2) or "").split(",") if x.strip())) or "none"
missing = [t for t in names if t not in ax]
assert not missing, missing
groups = {}
for t in names: groups.setdefault(ax[t], []).append(t)
out += ["", "## 6. Axioms per theorem", "",
  "As printed by `#print axioms` for every theorem named in MANIFEST.json.", ""]
for g in sorted(groups):
    out.append("* **%s**: %s" % (g, ", ".join("`%s`" % t for t in groups[g])))
open(os.path.join(root, "DESIGN.md"), "w").write(head + "\n".join(out) + "\n")
print({g: len(v) for g, v in groups.items()})
