#!/usr/bin/env python3
"""Lists the axioms of every theorem named in MANIFEST.json, as a section of DESIGN.md (between the AXIOMS markers)."""
import json,subprocess,re,collections,os
m=json.load(open("/verif/MANIFEST.json"))
names=[]
for c in m["claims"]:
    for t in c["theorems"]:
        if t not in names: names.append(t)
src="import Verif\n"+"".join(f"#print axioms {n}\n" for n in names)
open("/tmp/ax.lean","w").write(src)
out=subprocess.run(["lake","env","lean","/tmp/ax.lean"],cwd="/verif/lean",capture_output=True,text=True).stdout
out=re.sub(r"\n\s+"," ",out)
groups=collections.defaultdict(list)
for l in out.splitlines():
    x=re.match(r"'(.*)' depends on axioms: \[(.*)\]",l)
    if x: groups[", ".join(sorted(a.strip() for a in x.group(2).split(",")))].append(x.group(1)); continue
    x=re.match(r"'(.*)' does not depend on any axioms",l)
    if x: groups["none"].append(x.group(1)); continue
    raise SystemExit("unexpected: "+l)
assert sum(map(len,groups.values()))==len(names)
s="<!--AXIOMS-->\n"
for g in sorted(groups):
    s+=f"\n**{g}** ({len(groups[g])} theorems):\n"+", ".join("`"+n.removeprefix("Verif.")+"`" for n in groups[g])+"\n"
s+="\n<!--/AXIOMS-->"
d=open("/verif/DESIGN.md").read()
d=re.sub(r"<!--AXIOMS-->.*<!--/AXIOMS-->",lambda _:s,d,flags=re.S)
open("/verif/DESIGN.md","w").write(d)
print({g:len(v) for g,v in groups.items()})
