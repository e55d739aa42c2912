#!/usr/bin/env python3
"""Which functions of /repo no model definition cites: coverage.py"""
import re,glob,os
os.chdir('/repo')
cites={}
for f in glob.glob('/verif/lean/Verif/**/*.lean',recursive=True):
    t=open(f).read()
    for c in re.findall(r'/-.*?-/',t,flags=re.S):
        for m in re.finditer(r'/repo/([\w/]+\.go)((?::|\s*,\s*|\s+and\s+|\s+)?(?:\d+(?:[-–]\d+)?(?:,\s*|\s+and\s+|\s*)?)*)',c):
            for x in re.finditer(r'(\d+)(?:[-–](\d+))?',m.group(2)):
                a=int(x.group(1)); b=int(x.group(2) or a); cites.setdefault(m.group(1),[]).append((a,b))
tot=hit=0
for f in sorted(glob.glob('**/*.go',recursive=True)):
    if f.endswith('_test.go'): continue
    L=open(f).read().split('\n')
    for i,l in enumerate(L,1):
        if l.startswith('func '):
            j=i
            while not L[j-1].startswith('}') and not (j==i and L[j-1].rstrip().endswith('}')): j+=1
            tot+=1
            if any(a<=j and i<=b for a,b in cites.get(f,[])): hit+=1
            else: print(f'{f}:{i}-{j}',l[5:100])
print(hit,'of',tot,'functions cited')
