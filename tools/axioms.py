"""Write AXIOMS.md: the axioms each theorem of MANIFEST.json depends on, as printed by Lean."""
import json, os, re, subprocess
root = os.path.join(os.path.dirname(os.path.abspath(__file__)), "..")
claims = json.load(open(os.path.join(root, "MANIFEST.json")))["claims"]
names = []
for c in claims:
    for t in c["theorems"]:
        if t not in names:
            names.append(t)
src = "import Verif\n" + "".join(f"#print axioms {t}\n" for t in names)
path = "/tmp/axioms_query.lean"
open(path, "w").write(src)
out = subprocess.run(["lake", "env", "lean", path], cwd=os.path.join(root, "lean"), capture_output=True, text=True).stdout
out = re.sub(r"\s+", " ", out)
found = {}
for n, a in re.findall(r"'([^']+)' depends on axioms: \[([^\]]*)\]", out):
    found[n] = a
for n in re.findall(r"'([^']+)' does not depend on any axioms", out):
    found[n] = "none"
with open(os.path.join(root, "AXIOMS.md"), "w") as f:
    f.write("# Axioms of the property theorems\n\nGenerated by `tools/axioms.py` from the output of `#print axioms`.\n\n")
    f.write("| Property | Theorem | Axioms |\n|---|---|---|\n")
    for c in claims:
        for t in c["theorems"]:
            f.write(f"| {c['property']} | `{t}` | {found[t]} |\n")
print(len(names), sorted(set(found.values())))
