#!/usr/bin/env python3
"""Operator mutants of model definitions that no hand-written mutant has touched yet.
python3 automut.py FILE(under Verif/) PER_DEF SEED -- MODULE...   (modules rebuilt after each edit)
Edits one operator, constant, flag or field of a definition that cites C++ code, skips edits after which the
edited module itself does not compile, and appends one line per mutant to /verif/seeded/LOG.jsonl."""
import json,sys,os,re,subprocess,random
S="/tmp/scratch"; V="/verif/lean"
file=sys.argv[1]; per=int(sys.argv[2]); seed=int(sys.argv[3])
rest=sys.argv[4:]
defs_only=[x[5:].split(",") for x in rest if x.startswith("defs=")]
defs_only=defs_only[0] if defs_only else None
targets=[x for x in rest if x.startswith("Verif.")]
if not os.environ.get("NOSYNC"): subprocess.run("rm -rf %s && cp -a %s %s"%(S,V,S),shell=True,check=True)
done=set()
for l in open("/verif/seeded/LOG.jsonl"):
    done.add(json.loads(l)["definition"].split()[0].split("(")[0])
man=json.load(open("/verif/MANIFEST.json"))["claims"]
def claims():
    out=[]
    for c in man:
        if any(any(t.startswith(m.replace(".Props","")) for m in targets) for t in c["theorems"]): out.append(c["property"])
    return " ".join(out) or "?"
C=claims()
src=open(f"{S}/Verif/{file}").read()
mod="Verif."+file[:-5].replace("/",".")
OPS=[(r" < "," ≤ "),(r" ≤ "," < "),(r" > "," ≥ "),(r" ≥ "," > "),(r" = "," ≠ "),(r" ≠ "," = "),(r" \+ "," - "),(r" - "," + "),(r" \* "," + "),(r" ∧ "," ∨ "),(r" ∨ "," ∧ "),(r" && "," || "),(r" \|\| "," && "),
 (r"\btrue\b","false"),(r"\bfalse\b","true"),(r"\.add\b",".sub"),(r"\.sub\b",".add"),(r"\.mul\b",".add"),(r"\.div\b",".mul"),(r"\.x\b",".y"),(r"\.y\b",".x"),(r"\.z\b",".x"),(r"\.lt\b",".le"),(r"\.le\b",".lt"),(r"\.gt\b",".ge"),(r"\.ge\b",".gt"),(r"\.reverse\b",""),(r"\.sin\b",".cos"),(r"\.cos\b",".sin"),
 (r"!(?=[a-z(])",""),(r"\.some\b",".none"),(r" % "," / "),(r" / "," % "),(r" &&& "," ||| "),(r" \|\|\| "," &&& "),(r" <<< "," >>> "),(r" >>> "," <<< ")]
def encl(path,line):
    L=open(path).read().split("\n")
    for i in range(min(line,len(L))-1,-1,-1):
        m=re.match(r"\s*(?:@\[[^\]]*\]\s*)?(?:private |protected |noncomputable )*(theorem|lemma|def|example|instance|structure|inductive|abbrev)\s*([^\s:({\[]*)",L[i])
        if m: return m.group(2) if m.group(2) else m.group(1)+"@%d"%(i+1)
    return "?"
random.seed(seed)
if subprocess.run(["lake","build"]+targets,cwd=S,capture_output=True).returncode: sys.exit("baseline does not build")
D=list(re.finditer(r"/--((?:(?!-/).)*)-/\s*\n(?:@\[[^\]]*\]\s*)?(?:private |noncomputable )?def (\S+)",src,re.S))
for m in D:
    n=m.group(2)
    if defs_only:
        if n not in defs_only: continue
    elif n in done or n.split(".")[-1] in done: continue
    if not re.search(r"\.(cpp|h)\b",m.group(1)): continue
    a=m.end()
    e=re.search(r"\n\n|\n(?=/--|theorem|def |end |example|private|termination_by|decreasing_by)",src[a:])
    b=a+(e.start() if e else len(src)-a)
    body=src[a:b]
    off=body.find(":=")
    k=body.find("\n  |")
    st=min([x for x in (off,k) if x>=0] or [0])
    cand=[]
    for pat,new in OPS:
        for x in re.finditer(pat,body[st:]): cand.append((st+x.start(),st+x.end(),new))
    for x in re.finditer(r"(?<![\w.#])(\d+)(?![\w.])",body[st:]):
        cand.append((st+x.start(),st+x.end(),str(int(x.group(1))+1)))
    for x in re.finditer(r"0x([0-9A-Fa-f]+)",body[st:]):
        cand.append((st+x.start(),st+x.end(),"0x%X"%(int(x.group(1),16)^1)))
    random.shuffle(cand)
    got=0
    for (i,j,new) in cand:
        if got>=per: break
        mut=src[:a]+body[:i]+new+body[j:]+src[b:]
        open(f"{S}/Verif/{file}","w").write(mut)
        r=subprocess.run(["lake","build",mod],cwd=S,capture_output=True,text=True)
        if r.returncode!=0: continue
        r=subprocess.run(["lake","build"]+targets,cwd=S,capture_output=True,text=True)
        out=r.stdout+r.stderr
        names=[]
        for q in re.finditer(r"error: (?:\./)*(\S+?\.lean):(\d+):(\d+)",out):
            full=q.group(1).replace("Verif/","").replace(".lean","").replace("/",".")+"."+encl(os.path.join(S,q.group(1)),int(q.group(2)))
            if full not in names: names.append(full)
        bad=[x.group(1) for x in re.finditer(r"^✖ \[\d+/\d+\] \w+ (\S+)",out,re.M)]
        ln=body[:i].count("\n"); line=body.split("\n")[ln].strip()
        nl=(body[:i]+new+body[j:]).split("\n")[ln].strip()
        edit="`%s` becomes `%s`"%(line[:140],nl[:140])
        rec={"definition":n,"edit":edit,"claim":C,"caught":r.returncode!=0,"theorems_failed":names,"modules_failed":bad,"theorems_tightened":[]}
        open("/verif/seeded/LOG.jsonl","a").write(json.dumps(rec,ensure_ascii=False)+"\n")
        print("CAUGHT" if r.returncode else "**SURVIVED**",file,n,"|",edit,"|",names[:2]); sys.stdout.flush()
        got+=1
    open(f"{S}/Verif/{file}","w").write(src)
    if not got: print("no mutant",n); sys.stdout.flush()
