# Generates MANIFEST.json from the table below.  Run: python3 tools/manifest.py
import json, os, re, glob
root=os.path.join(os.path.dirname(os.path.abspath(__file__)),"..")
src="".join(open(f).read() for f in sorted(glob.glob(root+"/lean/Verif/Props/*.lean")))
names=re.findall(r"^theorem (C\d{2,3}_\w+)",src,re.M)
STATUS={}   # id -> (status, note)
exec(open(os.path.join(root,"tools/status.py")).read())
ids=[json.loads(l)["id"] for l in open(root+"/properties.jsonl")]
claims=[]
for i in ids:
    th=["GoSelect."+n for n in names if n.startswith(i+"_")]
    if i in STATUS:
        st,note=STATUS[i]
        if st!="not_applicable" and not th: raise SystemExit("no theorem for "+i)
        claims.append(dict(property=i,status=st,theorems=th,note=note))
    elif th: print("no status for",i)
json.dump({"claims":claims},open(root+"/MANIFEST.json","w"),indent=1)
print(len(claims),"claims",sum(len(c["theorems"]) for c in claims),"theorems; missing:",[i for i in ids if i not in STATUS])

mods=sorted(os.path.basename(f)[:-5] for f in glob.glob(root+"/lean/Verif/Props/*.lean"))
open(root+"/lean/Verif.lean","w").write("".join("import Verif.Props.%s\n"%m for m in mods))
