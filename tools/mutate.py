#!/usr/bin/env python3
"""Mutation runner: tools/mutate.py FILE.json
FILE.json: list of {file, definition, old, new, edit, claim}. Runs in /tmp/scratch (a copy of /verif/lean)."""
import json, os, re, subprocess, sys
SRC="/verif/lean"; DST="/tmp/scratch/lean"
os.makedirs("/tmp/scratch", exist_ok=True)
subprocess.run(["rsync","-a","--delete",SRC+"/",DST+"/"],check=True) if subprocess.run(["which","rsync"],capture_output=True).returncode==0 else subprocess.run("rm -rf %s && cp -a %s %s"%(DST,SRC,DST),shell=True,check=True)
muts=json.load(open(sys.argv[1]))
decl=re.compile(r"^\s*(?:private |protected |noncomputable )*(theorem|lemma|def|example|instance|structure|inductive)\b\s*(\S*)")
def enclosing(path,line):
    ls=open(os.path.join(DST,path)).read().split("\n")
    for i in range(min(line,len(ls))-1,-1,-1):
        m=decl.match(ls[i])
        if m: return (m.group(2) if m.group(1)!="example" else "example@%d"%(i+1))
    return "?"
for m in muts:
    p=os.path.join(DST,m["file"]); s=open(p).read()
    if s.count(m["old"])<1:
        print("NOT FOUND",m["definition"],m["old"][:60]); continue
    open(p,"w").write(s.replace(m["old"],m["new"],1))
    r=subprocess.run(["lake","build"],cwd=DST,capture_output=True,text=True)
    out=r.stdout+r.stderr
    errs=sorted(set((a,int(b)) for a,b in re.findall(r"error: (Verif/\S+?\.lean):(\d+):",out)))
    failed=[]
    for f,l in errs:
        n=f.replace("Verif/","").replace(".lean","")+":"+enclosing(f,l)
        if n not in failed: failed.append(n)
    open(p,"w").write(s)
    rec={"definition":m["definition"],"edit":m["edit"],"claim":m["claim"],"failed":failed,"tightened":m.get("tightened",[])}
    if m.get("note"): rec["note"]=m["note"]
    print(("KILLED " if failed else "SURVIVED ")+m["definition"]+" | "+m["edit"]+" -> "+", ".join(failed[:6]),flush=True)
    with open("/tmp/scratch/out.jsonl","a") as f: f.write(json.dumps(rec)+"\n")
