#!/usr/bin/env python3
"""Runs `#print axioms` for every theorem of MANIFEST.json and writes the result into DESIGN.md, between the markers."""
import json,subprocess,re,collections
m=json.load(open("/verif/MANIFEST.json"))
names=[(c["property"],t) for c in m["claims"] for t in c["theorems"]]
src="import Verif\n"+"".join(f"#print axioms {t}\n" for _,t in names)
open("/tmp/axioms.lean","w").write(src)
out=subprocess.run("lake env lean /tmp/axioms.lean",shell=True,cwd="/verif/lean",capture_output=True,text=True).stdout
out=re.sub(r"\n\s+"," ",out)
ax={}
for l in out.split("\n"):
    r=re.match(r"'(\S+)' depends on axioms: \[(.*)\]",l)
    if r: ax[r.group(1)]=tuple(sorted(x.strip() for x in r.group(2).split(",")))
    r=re.match(r"'(\S+)' does not depend on any axioms",l)
    if r: ax[r.group(1)]=()
groups=collections.defaultdict(list)
for p,t in names:
    groups[ax[t]].append(t.split(".")[-1])
rows=[]
for g in sorted(groups,key=lambda g:(len(g),g)):
    rows.append(f"- **{', '.join(f'`{x}`' for x in g) or 'no axioms'}** ({len(groups[g])} theorems): "+", ".join(groups[g]))
D="/verif/DESIGN.md"
s=open(D).read()
s=re.sub(r"<!-- AXIOMS -->.*?<!-- /AXIOMS -->",lambda _:"<!-- AXIOMS -->\n"+"\n".join(rows)+"\n<!-- /AXIOMS -->",s,flags=re.S)
open(D,"w").write(s)
print({g:len(v) for g,v in groups.items()})
