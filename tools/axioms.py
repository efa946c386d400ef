#!/usr/bin/env python3
"""Rewrite the appendix of DESIGN.md: the axioms every theorem of MANIFEST.json depends on (run after lake build)."""
import json, os, re, subprocess, tempfile
root = os.path.dirname(os.path.dirname(os.path.abspath(__file__)))
claims = json.load(open(root + "/MANIFEST.json"))["claims"]
names = []
for c in claims:
    for t in c["theorems"]:
        if t not in names:
            names.append(t)
with tempfile.NamedTemporaryFile("w", suffix=".lean", delete=False) as f:
    f.write("import Verif\n" + "".join("#print axioms %s\n" % n for n in names))
out = subprocess.run(["lake", "env", "lean", f.name], cwd=root + "/lean", capture_output=True, text=True).stdout
os.unlink(f.name)
ax = {}
for m in re.finditer(r"'([^']+)' (?:depends on axioms: \[([^\]]*)\]|does not depend on any axioms)", out):
    ax[m.group(1)] = ", ".join(sorted(x.strip() for x in (m.group(2) or "").split(",") if x.strip())) or "none"
missing = [n for n in names if n not in ax]
assert not missing, missing
groups = {}
for n in names:
    groups.setdefault(ax[n], []).append(n.replace("Verif.", ""))
text = "## Appendix: axioms per theorem\n\nOutput of `tools/axioms.py` (`#print axioms` on every theorem of MANIFEST.json; all names are in `Verif`).\n"
for a in sorted(groups, key=lambda a: (len(a), a)):
    text += "\n**%s** (%d theorems): " % (a, len(groups[a])) + ", ".join("`%s`" % n for n in groups[a]) + "\n"
p = root + "/DESIGN.md"
s = open(p).read()
s = s.split("## Appendix: axioms per theorem")[0].rstrip() + "\n\n" + text
open(p, "w").write(s)
print({a: len(g) for a, g in groups.items()})
