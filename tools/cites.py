import re,sys,os,subprocess
src={}
for d,_,fs in os.walk('/repo'):
    for f in fs: 
        if f.endswith(('.cpp','.h','.hpp')): src.setdefault(f,os.path.join(d,f))
for fn in sys.argv[1:]:
    L=open(fn).read().split('\n')
    for i,l in enumerate(L):
        for m in re.finditer(r'(\w+\.(?:cpp|h)):(\d+)(?:-(\d+))?',l):
            f,a,b=m.group(1),int(m.group(2)),m.group(3)
            if f not in src: print(fn,i+1,'NOFILE',f); continue
            S=open(src[f],errors='replace').read().split('\n')
            # next def name
            dn=''
            for j in range(i,min(i+8,len(L))):
                mm=re.match(r'\s*(?:def|structure|inductive|abbrev|theorem)\s+(\S+)',L[j])
                if mm: dn=mm.group(1);break
            print(f"{os.path.basename(fn)}:{i+1} {dn:22.22} {f}:{a}-{b} | {S[a-1].strip()[:60] if a<=len(S) else '??'} | {S[int(b)-1].strip()[:20] if b and int(b)<=len(S) else ''}")
