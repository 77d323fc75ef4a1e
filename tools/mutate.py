#!/usr/bin/env python3
"""Mutation runner: python3 mutate.py mutations.json
Each entry: file (under Verif/), old, new, def, edit, claim, targets (list of modules), tightened (optional).
Works in /tmp/scratch (copy of /verif/lean with its build products); appends to /verif/seeded/LOG.jsonl."""
import json,sys,os,re,subprocess,shutil
S="/tmp/scratch"
muts=json.load(open(sys.argv[1]))
if not os.path.exists(S): subprocess.run(["cp","-a","/verif/lean",S],check=True)
else: subprocess.run(["rsync","-a","--delete","/verif/lean/",S+"/"],check=False) if shutil.which("rsync") else (shutil.rmtree(S),subprocess.run(["cp","-a","/verif/lean",S],check=True))
def encl(path,line):
    L=open(path).read().split("\n")
    for i in range(min(line,len(L))-1,-1,-1):
        m=re.match(r"\s*(?:@\[[^\]]*\]\s*)?(?:private |protected |noncomputable )*(theorem|lemma|def|example|instance|structure|inductive|abbrev)\s*([^\s:({\[]*)",L[i])
        if m: return m.group(2) if m.group(2) else m.group(1)+"@%d"%(i+1)
    return "?"
for m in muts:
    f=os.path.join(S,"Verif",m["file"])
    src=open(f).read()
    n=src.count(m["old"])
    if n==0: print("NOT FOUND",m["def"],m["edit"]); continue
    if n>1 and not m.get("first"): print("AMBIGUOUS",n,m["def"],m["edit"]); continue
    open(f,"w").write(src.replace(m["old"],m["new"],1))
    r=subprocess.run(["lake","build"]+m["targets"],cwd=S,capture_output=True,text=True)
    out=r.stdout+r.stderr
    names=[];files=set()
    for e in re.finditer(r"error: (?:\./)*(\S+?\.lean):(\d+):(\d+)",out):
        nm=encl(os.path.join(S,e.group(1)),int(e.group(2)))
        full=e.group(1).replace("Verif/","").replace(".lean","").replace("/",".")+"."+nm
        if full not in names: names.append(full)
    bad=[x.group(1) for x in re.finditer(r"^✖ \[\d+/\d+\] \w+ (\S+)",out,re.M)]
    caught=r.returncode!=0
    open(f,"w").write(src)
    rec={"definition":m["def"],"edit":m["edit"],"claim":m["claim"],"caught":caught,"theorems_failed":names,"modules_failed":bad,"theorems_tightened":m.get("tightened",[])}
    open("/verif/seeded/LOG.jsonl","a").write(json.dumps(rec)+"\n")
    print("CAUGHT" if caught else "**SURVIVED**",m["def"],"|",m["edit"],"|",names[:4])
    sys.stdout.flush()
