#!/usr/bin/env python3
"""Automatic mutation sweep. Usage: sweep.py list | run [files...]
Applies small textual edits to every definition of the model, one at a time, in a scratch copy outside /verif, and rebuilds it,
stopping at the first error. Results (killed by which file, ill-typed, survived) go to SWEEP_LOG. Survivors are read by hand."""
import sys,os,re,subprocess,json,shutil,time,hashlib,signal
SRC=os.environ.get("MUT_SRC","/tmp/mutsrc"); W=os.environ.get("MUT_DIR","/tmp/sweep/lean")
LOG=os.environ.get("SWEEP_LOG","/tmp/sweep/log.jsonl")
OPS=[(r" = "," ≠ "),(r" ≠ "," = "),(r" == "," != "),(r" != "," == "),(r" < "," ≤ "),(r" ≤ "," < "),(r" > "," ≥ "),(r" ≥ "," > "),
 (r" && "," || "),(r" \|\| "," && "),(r" ∧ "," ∨ "),(r" ∨ "," ∧ "),(r"\btrue\b","false"),(r"\bfalse\b","true"),
 (r" \+ "," - "),(r" - "," + "),(r"\.1\b",".2"),(r"\.2\b",".1"),(r"!(?=[\w(])",""),(r"(?<=if )(?!let)","¬"),
 (r" \+\+ \[[^\[\]]*\]",""),(r"\bmin\b","max"),(r"\bmax\b","min"),(r"\bwidth\b","height"),(r"\bheight\b","width"),
 (r"\bsrc\b","dst"),(r"\bdst\b","src"),(r"\binput\b","output"),(r"\boutput\b","input"),(r"\bbaseMip\b","baseLayer"),
 (r"\bbaseLayer\b","baseMip"),(r"\blevels\b","layers"),(r"\blayers\b","levels"),(r"\bhead\?","getLast?"),(r"\bgetLast\?","head?"),
 (r"\bprev\b","next"),(r"\bnext\b","prev"),(r"\bcurr\b","next"),(r"(?<![\w.?'])(\d+)(?![\w.])",None),(r"\{ (\w+) with [^{}]*\}",r"\1"),
 (r"\bisInput\b","isOutput"),(r"\bisOutput\b","isInput"),(r"\blayout\b","access"),(r"\bfoldl\b","foldr"),(r"\.filter\b",".filter (fun _ => true) |>.filter"),
 (r"\bany\b","all"),(r"\ball\b","any"),(r"\.reverse\b",""),(r"\.eraseDups\b",""),(r"\boffset\b","size"),(r"\bsize\b","offset"),(r"\bleft\b","right"),(r"\bright\b","left")]
def mutants(only=None):
    out=[]
    for f in sorted(os.listdir(SRC+"/Verif/Model")):
        if not f.endswith(".lean") or (only and f not in only): continue
        lines=open(SRC+"/Verif/Model/"+f).read().split("\n")
        com=False; cur=None; kind=None
        for n,l in enumerate(lines):
            code=l
            if com:
                if "-/" in l: com=False
                continue
            if l.lstrip().startswith("/-"):
                if "-/" not in l: com=True
                continue
            if "--" in code: code=code[:code.index("--")]
            m=re.match(r"(?:@\[[^\]]*\] )?(?:private |noncomputable )?(def|abbrev|structure|inductive|theorem|lemma|instance|example|namespace|open|import|end|variable|deriving|termination_by|decreasing_by|mutual|set_option)\b\s*(\S*)",code)
            if m: kind=m.group(1); cur=m.group(2)
            if kind not in("def","abbrev"): continue
            if f=="Vk.lean" and re.match(r"def \w+ : Nat := (0x[0-9a-f]+|\d+|\d+ *\^ *\d+)$",code.strip()): continue
            start=0
            if m:
                start=code.find(":=")
                if start<0: continue
                start+=2
            for pat,rep in OPS:
                for mm in re.finditer(pat,code[start:]):
                    a,b=start+mm.start(),start+mm.end()
                    if rep is None:
                        new=str(int(mm.group(1))+1)
                    else: new=mm.expand(rep) if "\\" in rep else rep
                    if rep=="¬":
                        # negate an if condition
                        t=code.find(" then",a)
                        if t<0: continue
                        nl=l[:a]+"¬("+l[a:t]+")"+l[t:]
                    else: nl=l[:a]+new+l[b:]
                    if nl!=l: out.append((f,cur,n,l,nl))
    seen=set(); res=[]
    for x in out:
        k=(x[0],x[2],x[4])
        if k not in seen: seen.add(k); res.append(x)
    return res
def run(ms):
    done=set()
    if os.path.exists(LOG):
        for l in open(LOG):
            r=json.loads(l); done.add((r["file"],r["old"],r["new"]))
    touched=None
    for f,cur,n,l,nl in ms:
        if (f,l,nl) in done: continue
        
        for _ in range(20):
            shutil.rmtree(W,ignore_errors=True)
            if not os.path.exists(W): break
            time.sleep(1)
        os.makedirs(os.path.dirname(W),exist_ok=True)
        subprocess.run(["cp","-a",SRC,W],check=True)
        p=W+"/Verif/Model/"+f; lines=open(p).read().split("\n"); assert lines[n]==l; lines[n]=nl
        open(p,"w").write("\n".join(lines))
        t0=time.time(); verdict="survived"; where=None
        pr=subprocess.Popen("nice -n 10 lake build 2>&1",shell=True,cwd=W,stdout=subprocess.PIPE,text=True,preexec_fn=os.setsid)
        for ln in pr.stdout:
            m=re.match(r"error: (Verif/\S+?\.lean):(\d+)",ln)
            if m:
                where=m.group(1)+":"+m.group(2); verdict="ill-typed" if m.group(1).startswith("Verif/Model/") else "killed"; break
            if ln.startswith("error"): verdict="killed"; where=ln.strip()[:100]; break
        try: os.killpg(pr.pid,signal.SIGKILL)
        except ProcessLookupError: pass
        pr.wait(); time.sleep(0.5)
        rec=dict(file=f,definition=cur,line=n+1,old=l,new=nl,verdict=verdict,where=where,secs=round(time.time()-t0))
        with open(LOG,"a") as g: g.write(json.dumps(rec,ensure_ascii=False)+"\n")
        if verdict=="survived": print(f,cur,"|",l.strip(),"=>",nl.strip(),flush=True)
if __name__=="__main__":
    only=sys.argv[2:]
    ms=mutants(only)
    if sys.argv[1]=="list":
        import collections
        c=collections.Counter(m[0] for m in ms); print(c,len(ms))
    else:
        import random; random.Random(7).shuffle(ms); run(ms)
