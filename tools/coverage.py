#!/usr/bin/env python3
"""Which functions of /repo/src/core are cited by the model?  A function counts as modelled if at least half of the
non-blank lines of its body lie in ranges cited by some .lean file."""
import re,os,sys,collections
src={}
for base in ('/repo/src/core','/repo/include/core'):
    for f in sorted(os.listdir(base)):
        if f.endswith(('.cpp','.h')): src[f]=os.path.join(base,f)
cited=collections.defaultdict(set)
for d,_,fs in os.walk('/verif/lean/Verif'):
    for fn in fs:
        if not fn.endswith('.lean'): continue
        t=open(os.path.join(d,fn)).read()
        # "File.cpp:1-5, 7-9" and "File.cpp:1-5"
        for m in re.finditer(r'(\w+\.(?:cpp|h)):((?:\d+(?:-\d+)?)(?:(?:,| and|;)\s*(?:\d+(?:-\d+)?))*)',t):
            for r in re.finditer(r'(\d+)(?:-(\d+))?',m.group(2)):
                a=int(r.group(1)); b=int(r.group(2) or a)
                cited[m.group(1)].update(range(a,b+1))
def functions(path):
    L=open(path,errors='replace').read().split('\n')
    out=[]; depth=0; start=None; name=None; ns=0
    i=0
    # crude: a line at depth<=1 with '(' and without ';' that is followed by '{'
    txt='\n'.join(L)
    txt2=re.sub(r'//[^\n]*',lambda m:' '*len(m.group(0)),txt)
    txt2=re.sub(r'/\*.*?\*/',lambda m:re.sub(r'[^\n]',' ',m.group(0)),txt2,flags=re.S)
    txt2=re.sub(r'"(?:\\.|[^"\\\n])*"',lambda m:' '*len(m.group(0)),txt2)
    txt2=re.sub(r"'(?:\\.|[^'\\\n])'",lambda m:' '*len(m.group(0)),txt2)
    pos=0
    stack=[]
    for m in re.finditer(r'[{}]',txt2):
        if m.group(0)=='{':
            head=txt2[pos:m.start()]
            head=re.split(r'[;}]',head)[-1]
            isf=bool(re.search(r'[\w~>=+\-*/\[\]!<]+\s*\(',head)) and not re.search(r'\b(class|struct|enum|namespace|if|for|while|switch)\b\s*',head.strip()[:12])
            infn=any(s[0]=='f' for s in stack)
            if isf and not infn:
                h=head.lstrip(); st=m.start()-len(h)
                nm=re.search(r'([\w:~]+(?:operator\s*\S+?)?)\s*\(',h)
                op=re.search(r'([\w:]*operator\s*[^\s(]+|[\w:]*operator\s*\(\))\s*\(',h)
                stack.append(('f',st,(op or nm).group(1) if (op or nm) else '?'))
            else: stack.append(('b',m.start(),''))
        else:
            if stack:
                k,st,nm=stack.pop()
                if k=='f': out.append((nm,txt2.count('\n',0,st)+1,txt2.count('\n',0,m.start())+1))
        pos=m.end()
    return out,L
tot=cov=0
verbose='-v' in sys.argv
for f in sorted(src):
    fs,L=functions(src[f])
    if not fs: continue
    done=[];todo=[]
    for nm,a,b in fs:
        lines=[i for i in range(a,b+1) if L[i-1].strip()]
        hit=sum(1 for i in lines if i in cited[f])
        (done if hit*2>=len(lines) else todo).append((nm,a,b))
    tot+=len(fs);cov+=len(done)
    print(f"{f}: {len(done)}/{len(fs)}")
    if verbose:
        for nm,a,b in todo: print(f"     - {nm} {a}-{b}")
print(cov,tot)
