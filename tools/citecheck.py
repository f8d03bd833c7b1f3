#!/usr/bin/env python3
"""Check the citations in the model files: every cited line range exists, and one of the
backticked names in the same comment occurs in (or next to) the range."""
import re, glob, os, subprocess
root='/repo'
files={}
for p in subprocess.check_output(['find','.','-type','f'],cwd=root,text=True).split('\n'):
    files.setdefault(os.path.basename(p),[]).append(p)
bad=0
for f in sorted(glob.glob('/verif/lean/Verif/Model/*.lean')):
    txt=open(f).read()
    for m in re.finditer(r'/--(.*?)-/',txt,re.S):
        c=m.group(1)
        names=[w for b in re.findall(r'`([^`]+)`',c) for w in re.findall(r'[A-Za-z_]\w+\$?|\?[^\s(]+\?',b)]
        cites=re.findall(r'([\w/.-]+\.(?:hfa|cfa|hpp|cpp|h|c|cc)):((?:\d+(?:-\d+)?(?:, )?)+)',c)
        if not cites: continue
        hit=False; anyf=False
        for path,rs in cites:
            path=path.removeprefix('/repo/')
            cand=[p for p in files.get(os.path.basename(path),[]) if p.endswith(path)]
            if not cand: print(f'{f}: no file {path}'); bad+=1; continue
            anyf=True
            for r in re.findall(r'\d+(?:-\d+)?',rs):
                a,b=(r.split('-')+[r])[:2] if '-' in r else (r,r)
                for p in cand:
                    L=open(os.path.join(root,p),errors='replace').read().split('\n')
                    if int(b)<=len(L):
                        seg='\n'.join(L[max(0,int(a)-2):int(b)+1])
                        if any(n in seg for n in names): hit=True
        if anyf and names and not hit:
            line=txt[:m.start()].count('\n')+1
            print(f'{os.path.basename(f)}:{line}: no name of {names[:4]} near {cites}'); bad+=1
print('bad',bad)
