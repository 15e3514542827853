# Writes COVERAGE.md: for every Go function of /repo the model definitions whose doc comments cite its lines.
# Run: python3 tools/coverage.py
import re, glob, os
root = os.path.join(os.path.dirname(os.path.abspath(__file__)), "..")
repo = "/repo"
files = sorted(glob.glob(repo + "/featselect/*.go") + glob.glob(repo + "/cmd/*.go")) + \
    sorted(glob.glob(repo + "/cmdDepreciated/*/*.go"))
files = [f for f in files if not f.endswith("_test.go")]

# functions of a Go file: (first line, last line, name)
def functions(path):
    out, start = [], None
    for i, line in enumerate(open(path), 1):
        m = re.match(r"func (?:\((?:\w+ )?\*?(\w+)\) )?(\w+)\(", line)
        if m:
            start = (i, (m.group(1) + "." if m.group(1) else "") + m.group(2))
        if start and line.rstrip() == "}":
            out.append((start[0], i, start[1]))
            start = None
        elif m and line.rstrip().endswith("}"):
            out.append((i, i, start[1]))
            start = None
    return out

# citations: (go file, first, last, lean name, lean module)
cites = []
for f in sorted(glob.glob(root + "/lean/Verif/**/*.lean", recursive=True)):
    src = open(f).read()
    mod = os.path.relpath(f, root + "/lean/Verif")[:-5].replace("/", ".")
    for m in re.finditer(r"/--(.*?)-/\s*(?:@\[[^\]]*\]\s*)?(?:open Classical in\s*)?(?:noncomputable\s+)?"
                         r"(?:def|structure|inductive|abbrev|theorem|instance)\s+(\S+)", src, re.S):
        doc, name = m.group(1), m.group(2)
        cur = None
        for t in re.finditer(r"((?:[\w\-]+/)?[\w]+\.go)(?::([\d\-, ]*\d))?|[Ll]ines? ((?:\d[\d\-, and\n]*)?\d)", doc):
            if t.group(1):
                cur = t.group(1)
                nums = t.group(2)
            else:
                nums = t.group(3)
            if not nums:
                continue
            if cur is None:
                hs = re.findall(r"((?:[\w\-]+/)?[\w]+\.go)", src[:m.start()])
                cur = hs[-1] if hs else None
            for a in re.findall(r"\d+(?:-\d+)?", nums):
                lo, _, hi = a.partition("-")
                cites.append((cur, int(lo), int(hi or lo), name, mod))

reasons = {}
exec(open(os.path.join(root, "tools/unmodelled.py")).read())

out = ["# Which code is modelled", "",
       "Generated by `tools/coverage.py` from the citations in the doc comments of the Lean files.  A function is listed",
       "with the definitions that cite lines of it; functions without a model are listed with the reason.", ""]
n = k = 0
missing = []
for f in files:
    base = os.path.basename(f)
    rel = os.path.relpath(f, repo)
    key = "/".join(rel.split("/")[-2:])
    fs = functions(f)
    if not fs:
        continue
    out += ["## " + rel, "", "| lines | function | model |", "|---|---|---|"]
    for a, b, name in fs:
        n += 1
        ds = []
        for (g, lo, hi, d, mod) in cites:
            if g in (base, key) and lo <= b and hi >= a:
                # a citation that spans several functions counts for each of them
                s = "`%s`" % d
                if mod.startswith("Model.") and s not in ds:
                    ds.append(s)
        if ds:
            k += 1
            text = ", ".join(ds[:12]) + (" …" if len(ds) > 12 else "")
        else:
            text = "not modelled: " + reasons.get(rel + ":" + name, "?")
            if rel + ":" + name not in reasons:
                missing.append(rel + ":" + name)
        out.append("| %d-%d | `%s` | %s |" % (a, b, name, text))
    out.append("")
out[5:5] = ["%d of %d functions have a model.  `main.go`, which only calls `cmd.Execute`, and the test helpers in" % (k, n),
            "`featselect/testfeatselect` are not listed.", ""]
open(root + "/COVERAGE.md", "w").write("\n".join(out) + "\n")
print(k, "of", n, "modelled; no reason given for:", missing)
