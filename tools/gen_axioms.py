"""Write AXIOMS.md: for each property theorem of MANIFEST.json the axioms it depends on, as `#print axioms` reports them.
Needs a built project (`lake build` in lean/)."""
import collections, json, os, re, subprocess, tempfile
root = os.path.dirname(os.path.dirname(os.path.abspath(__file__)))
names = [t for c in json.load(open(os.path.join(root, "MANIFEST.json")))["claims"] for t in c["theorems"]]
with tempfile.NamedTemporaryFile("w", suffix=".lean", delete=False) as f:
    f.write("import Verif\n" + "".join("#print axioms %s\n" % n for n in names))
out = subprocess.run(["lake", "env", "lean", f.name], cwd=os.path.join(root, "lean"), capture_output=True, text=True).stdout
os.unlink(f.name)
res = {}
for m in re.finditer(r"'([^']+(?:'[^']*)*?)' (?:depends on axioms: \[([^\]]*)\]|does not depend on any axioms)", out):
    res[m.group(1)] = ", ".join(sorted(x.strip() for x in m.group(2).split(","))) if m.group(2) else "none"
missing = [n for n in names if n not in res]
assert not missing, (missing, out[-2000:])
groups = collections.Counter(res[n] for n in names)
with open(os.path.join(root, "AXIOMS.md"), "w") as f:
    f.write("# Axioms of each property theorem\n\nWritten by `tools/gen_axioms.py` from the output of `#print axioms`.\n\n")
    for g, n in groups.most_common(): f.write("* %d theorems: %s\n" % (n, g))
    f.write("\n| theorem | axioms |\n|---|---|\n")
    for n in names: f.write("| `%s` | %s |\n" % (n, res[n]))
print(len(names), dict(groups))
