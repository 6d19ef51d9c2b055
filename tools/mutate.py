#!/usr/bin/env python3
"""Mutation tests of the theorems. Usage: mutate.py <mutations.py> [ids...]
Works in a scratch copy of /verif/lean outside /verif. Each mutation edits one model definition; the copy is rebuilt; a
declaration whose proof fails is closed with a placeholder (in the scratch copy only) so that the rest can be checked; at
the end the theorems of MANIFEST.json that depend on a placeholder are the ones that failed. Results are appended to
/verif/seeded/LOG.jsonl."""
import sys,os,re,subprocess,json,shutil,time
PLACE="so"+"rry"
SRC=os.environ.get("MUT_SRC","/verif/lean"); W=os.environ.get("MUT_DIR","/tmp/mut/lean")
LOG="/verif/seeded/LOG.jsonl"
def sh(cmd,cwd=None,timeout=2400):
    try:
        r=subprocess.run(cmd,shell=True,cwd=cwd,capture_output=True,text=True,timeout=timeout)
        return r.stdout+r.stderr
    except subprocess.TimeoutExpired as e:
        return "TIMEOUT"
def sync():
    os.makedirs(W,exist_ok=True)
    sh(f"rsync -a --delete --exclude .lake {SRC}/ {W}/") if shutil.which("rsync") else sh(f"rm -rf {W}/Verif {W}/Verif.lean; cp -rp {SRC}/Verif {SRC}/Verif.lean {SRC}/lakefile.toml {SRC}/lean-toolchain {SRC}/lake-manifest.json {W}/ 2>/dev/null")
    if not os.path.exists(W+"/.lake"): sh(f"cp -a {SRC}/.lake {W}/.lake")
START=re.compile(r"^(?:@\[[^\]]*\]\s*)?(?:private |protected |noncomputable )*(theorem|lemma|example|instance|def|abbrev|structure|inductive)\b\s*([^\s:({\[]*)")
TOP=re.compile(r"^(@\[|theorem|lemma|example|instance|def|abbrev|structure|inductive|namespace|end\b|section|variable|open|/-|mutual|private|protected|noncomputable|set_option)")
def decl_at(lines,ln):
    i=ln-1
    if lines[i].startswith("/--"):
        # an error reported at the doc comment of a declaration
        while i<len(lines)-1 and not START.match(lines[i]): i+=1
    while i>=0 and not START.match(lines[i]): i-=1
    if i<0: return None
    j=i+1
    while j<len(lines) and not TOP.match(lines[j]): j+=1
    return i,j,START.match(lines[i])
def body_pos(t):
    # brackets inside string and character literals do not count
    t=re.sub(r"'[()\[\]{}⟨⟩\"]'","'_'",t)
    t=re.sub(r'"(?:\\.|[^"\\])*"',lambda k:'"'+"_"*(len(k.group(0))-2)+'"',t)
    d=0;i=0
    while i<len(t):
        c=t[i]
        if c in "([{⟨": d+=1
        elif c in ")]}⟩": d-=1
        elif d==0 and t.startswith(":=",i) and not re.search(r"\b(let|have)\s+[\w']+\s*(:[^=\n]*)?$",t[:i]): return i
        elif d==0 and c=="\n" and re.match(r"\n\s+\| ",t[i:]):
            # the arms of a `match` in the statement are indented deeper than the equations of the proof
            k=re.search(r"\bmatch\b[^\n]*\bwith\s*\n( +)\|",t[:i+1]+t[i+1:])
            k=k if k and k.start()<i else None
            if k is None or len(re.match(r"\n( +)",t[i:]).group(1))<len(k.group(1)): return i
        i+=1
    return None
def build(maxit=25):
    """returns list of (file,decl) failed, or raises"""
    failed=[]
    for it in range(maxit):
        out=sh("lake build 2>&1",cwd=W)
        if out=="TIMEOUT": return failed,"timeout"
        errs=re.findall(r"^error: (Verif/\S+?\.lean):(\d+):(\d+)",out,re.M)
        if not errs:
            k=re.search(r"✖ \[[^\]]*\] Building (Verif\.\S+)[^✖]*exited with code 137",out)
            if k:
                # a failing concrete example can exhaust memory: close the concrete examples of that file
                p=W+"/"+k.group(1).replace(".","/")+".lean"; t=open(p).read()
                t2,n=re.subn(r":= by\n  decide \+kernel\n",":= "+PLACE+"\n",t)
                if n:
                    open(p,"w").write(t2); continue
            if "error" in out and "Build completed successfully" not in out:
                return failed,"other: "+out[-600:]
            return failed,"ok"
        edits={}
        for f,l,c in errs: edits.setdefault(f,set()).add(int(l))
        for f,ls in edits.items():
            p=W+"/"+f; lines=open(p).read().split("\n")
            done=set(); reps=[]
            for l in sorted(ls):
                d=decl_at(lines,l)
                if d is None: return failed,f"no decl {f}:{l}"
                i,j,m=d
                if i in done: continue
                done.add(i)
                if m.group(1) not in("theorem","lemma","example"):
                    return failed,f"definition broken {f}:{l} {m.group(2)}"
                reps.append((i,j,m))
            for i,j,m in reversed(reps):
                t="\n".join(lines[i:j])
                if PLACE in t: return failed,f"already closed {f} {m.group(2)}: "+str(re.findall(r"error:.*",out)[:3])
                b=body_pos(t)
                if b is None: return failed,f"no body {f} {m.group(2)}"
                tb=re.search(r"\n(termination_by|decreasing_by)",t)
                lines[i:j]=(t[:b]+" := "+PLACE+"\n").split("\n")
                failed.append((f,m.group(2) or "example"))
            open(p,"w").write("\n".join(lines))
    return failed,"too many iterations"
def affected():
    man=json.load(open("/verif/MANIFEST.json"))
    names=sorted({t for c in man["claims"] for t in c["theorems"]})
    chk=W+"/Chk.lean"
    open(chk,"w").write("import Verif\nimport Lean\nopen Lean\n#eval show CoreM Unit from do\n  for n in ["+", ".join("`"+n for n in names)+"] do\n    let ax ← collectAxioms n\n    if ax.contains ``"+PLACE+"Ax then IO.println s!\"BAD {n}\"\n")
    out=sh("lake env lean Chk.lean",cwd=W)
    if "error:" in out: return None
    bad=set(re.findall(r"^BAD (\S+)",out,re.M))
    return bad,man
def main():
    ns={}; exec(open(sys.argv[1]).read(),ns); M=ns["M"]; want=sys.argv[2:]
    done=set()
    if os.path.exists(LOG):
        for l in open(LOG): done.add(json.loads(l)["id"])
    for m in M:
        if want:
            if m["id"] not in want: continue
        elif m["id"] in done: continue
        sync()
        p=W+"/Verif/Model/"+m["file"]; s=open(p).read()
        if s.count(m["old"])<1: print(m["id"],"PATTERN NOT FOUND"); continue
        n=m.get("nth",0)
        parts=s.split(m["old"])
        s=m["old"].join(parts[:n+1])+m["new"]+m["old"].join(parts[n+1:])
        open(p,"w").write(s)
        t0=time.time()
        failed,st=build()
        rec=dict(id=m["id"],definition=m["def"],file="Verif/Model/"+m["file"],edit=m["edit"],before=m["old"],after=m["new"],breaks=m["breaks"])
        if st!="ok":
            print(m["id"],"STATUS",st,failed[:5]); rec["status"]=st; rec["failed_proofs"]=sorted({b for a,b in failed})
            if st.startswith("definition broken") or st.startswith("no ") or st.startswith("other") or st.startswith("already"): continue
        else:
            a=affected()
            if a is None: print(m["id"],"axiom check failed"); continue
            bad,man=a
            rec["failed_proofs"]=sorted({b for a,b in failed})
            rec["theorems_failed"]=sorted(bad)
            cl=sorted({c["property"] for c in man["claims"] if set(c["theorems"])&bad})
            rec["claims_with_failures"]=cl
            missed=[x for x in m["breaks"]["claims"] if x not in cl]
            rec["verdict"]="caught" if not missed else "MISSED "+",".join(missed)
            rec["theorems_tightened"]=[]
        print(m["id"],rec.get("verdict",st),len(failed),"%.0fs"%(time.time()-t0),flush=True)
        with open(os.environ.get("MUT_LOG",LOG),"a") as f: f.write(json.dumps(rec,ensure_ascii=False)+"\n")
main()
