# Rewrites the outcome section of DESIGN.md from MANIFEST.json.
# Run: python3 tools/outcomes.py
import json, os
root = os.path.join(os.path.dirname(os.path.abspath(__file__)), "..")
manifest = json.load(open(root + "/MANIFEST.json"))
titles = {}
for line in open(root + "/properties.jsonl"):
    d = json.loads(line)
    titles[d["id"]] = d["title"]
out = []
for c in manifest["claims"]:
    out.append("* **%s** %s: %s. %s" % (c["property"], titles[c["property"]], c["status"], c["note"]))
s = open(root + "/DESIGN.md").read()
a = s.index("<!-- outcomes -->") + len("<!-- outcomes -->\n")
b = s.index("<!-- end -->")
open(root + "/DESIGN.md", "w").write(s[:a] + "\n".join(x.rstrip() for x in out) + "\n" + s[b:])
