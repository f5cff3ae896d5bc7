import re,glob,os
def rust_fns():
    out=[]
    for f in sorted(glob.glob('/repo/src/**/*.rs',recursive=True)):
        L=open(f).read().split('\n'); rel=f[len('/repo/'):]
        test=False; impl=''
        for i,l in enumerate(L):
            if '#[cfg(test)]' in l: test=True
            m=re.match(r'impl(?:<[^>]*>)?\s+(?:(\w+)(?:<.*?>)?\s+for\s+)?(\w+)',l)
            if m: impl=(m.group(1)+' for ' if m.group(1) else '')+m.group(2)
            m=re.match(r'\s*(?:pub(?:\(\w+\))? )?(?:const )?(?:unsafe )?fn (\w+)',l)
            if m and not test:
                d=0;started=False
                for j in range(i,len(L)):
                    d+=L[j].count('{')-L[j].count('}')
                    if '{' in L[j]: started=True
                    if (started and d==0) or (not started and L[j].rstrip().endswith(';')): break
                out.append((rel,i+1,j+1,(impl+'::' if l.startswith(' ') else '')+m.group(1)))
            if l.startswith('}'): impl=''
    return out
def cites():
    out=[]
    for f in sorted(glob.glob('/verif/lean/Verif/Model/*.lean')):
        if 'BlRectTable' in f: continue
        s=open(f).read(); cur=None
        ns=[]
        for m in re.finditer(r'/--(.*?)-/\s*(?:@\[[^\]]*\]\s*)?(?:noncomputable\s+)?(def|structure|inductive|abbrev|theorem|instance)\s+(\S+)',s,re.S):
            doc=m.group(1)
            for c in re.finditer(r'((?:src/)?[\w/]+\.rs):(\d+)(?:-(\d+))?((?:\s*(?:,|and)\s*:?\d+-\d+)*)',doc):
                out.append((c.group(1),int(c.group(2)),int(c.group(3) or c.group(2)),m.group(3),os.path.basename(f)))
                for e in re.finditer(r'(\d+)-(\d+)',c.group(4)):
                    out.append((c.group(1),int(e.group(1)),int(e.group(2)),m.group(3),os.path.basename(f)))
    return out
if __name__=='__main__':
    C=cites()
    for rel,a,b,n in rust_fns():
        if 'bl_rect' in rel: continue
        ds=[(d,f) for (r,x,y,d,f) in C if rel.endswith(r) and x<=b and y>=a]
        print(rel,a,b,n,'=>',' '.join(d for d,f in ds) or '-----')
