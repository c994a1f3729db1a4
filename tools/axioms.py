"""Writes AXIOMS.txt: the axioms of every theorem in MANIFEST.json, as reported by `#print axioms`. Needs a finished `lake build`."""
import json, os, re, subprocess, tempfile
ROOT = os.path.dirname(os.path.dirname(os.path.abspath(__file__)))
names = [t for c in json.load(open(os.path.join(ROOT, "MANIFEST.json")))["claims"] for t in c["theorems"]]
with tempfile.NamedTemporaryFile("w", suffix=".lean", delete=False) as f:
    f.write("import Verif\n" + "".join("#print axioms %s\n" % n for n in names))
r = subprocess.run(["lake", "env", "lean", f.name], cwd=os.path.join(ROOT, "lean"), capture_output=True, text=True, stdin=subprocess.DEVNULL)
found = dict(re.findall(r"'(\S+)' depends on axioms: \[([^\]]*)\]", r.stdout))
for n in re.findall(r"'(\S+)' does not depend", r.stdout): found[n] = "none"
missing = [n for n in names if n not in found]
assert not missing, missing
with open(os.path.join(ROOT, "AXIOMS.txt"), "w") as f:
    for n in names: f.write("%s: %s\n" % (n, " ".join(found[n].split())))
print(len(names), "theorems;", sorted({a for v in found.values() for a in re.split(r",\s*", v)}))
