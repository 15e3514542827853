# Writes AXIOMS.md: the axioms of every theorem named in MANIFEST.json.
# Run after `lake build`: python3 tools/axioms.py
import json, os, re, subprocess, tempfile
root = os.path.abspath(os.path.join(os.path.dirname(os.path.abspath(__file__)), ".."))
manifest = json.load(open(root + "/MANIFEST.json"))
names = []
for c in manifest["claims"]:
    names += [t for t in c["theorems"] if t not in names]
with tempfile.NamedTemporaryFile("w", suffix=".lean", delete=False) as f:
    f.write("import Verif\n" + "".join("#print axioms %s\n" % n for n in names))
r = subprocess.run(["lake", "env", "lean", f.name], cwd=root + "/lean", capture_output=True, text=True)
os.unlink(f.name)
ax = {}
for m in re.finditer(r"'([^']+)' (?:depends on axioms: \[([^\]]*)\]|does not depend on any axioms)", r.stdout):
    ax[m.group(1)] = tuple(sorted(re.sub(r"\s+", " ", m.group(2) or "").split(", "))) if m.group(2) else ()
bad = [n for n in names if n not in ax]
allowed = {"propext", "Classical.choice", "Quot.sound"}
out = ["# Axioms", "", "Generated by `tools/axioms.py` with `#print axioms` for every theorem named in `MANIFEST.json`.", ""]
groups = {}
for n in names:
    groups.setdefault(ax.get(n, ("?",)), []).append(n.replace("GoSelect.", ""))
for g in sorted(groups, key=lambda g: (len(g), g)):
    out += ["## " + (", ".join("`%s`" % a for a in g) if g else "none"), "", "%d theorems: " % len(groups[g]) +
            ", ".join("`%s`" % n for n in groups[g]) + ".", ""]
open(root + "/AXIOMS.md", "w").write("\n".join(out).rstrip() + "\n")
print(len(names), "theorems; missing:", bad, "; other axioms:", [n for n in names if not set(ax.get(n, ())) <= allowed])
