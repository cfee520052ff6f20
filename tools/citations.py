"""Check the citations in the model against /repo: the file exists, the lines exist, and a citation that follows the name of a function lies in it."""
import re,os,glob,json
R='/repo'; lens={}
def lines(f):
    if f not in lens: lens[f]=open(f,errors='replace').read().split('\n')
    return lens[f]
cit=re.compile(r'((?:src|include|framework|examples|test|bindings)/[\w/\.\-]+\.(?:c|h|part|hpp|cpp|py|lua)):(\d+)(?:[-–](\d+))?')
def extent(fp,name):
    L=lines(fp); out=[]
    for k,l in enumerate(L):
        if re.match(r'^(?:[A-Za-z_].*[\s\*])?'+re.escape(name)+r'\s*\(',l) and not l.rstrip().endswith(';') and not l.startswith(' '):
            e=k; semi=False
            while e<len(L) and not L[e].startswith('}'):
                if '{' not in '\n'.join(L[k:e+1]) and L[e].rstrip().endswith(';'): semi=True;break
                e+=1
            if semi or e>=len(L): continue
            s=k+1
            # return type on its own line
            if l.startswith(name) and k>0 and re.match(r'^[A-Za-z_][\w\s\*]*$',L[k-1]): s=k
            out.append((s,e+1))
    return out
res=[]
for f in sorted(glob.glob('/verif/lean/Verif/**/*.lean',recursive=True)):
    t=open(f).read()
    for m in re.finditer(r'/--(.*?)-/\s*(?:@\[[^\]]*\]\s*)?(?:def|structure|inductive|abbrev|theorem)?\s*([\w\.\']*)',t,re.S):
        doc=m.group(1)
        prev=0
        for c in cit.finditer(doc):
            ids=re.findall(r'`([A-Za-z_]\w+)(?:\(\))?`',doc[prev:c.start()]); prev=c.end()
            fp=os.path.join(R,c.group(1)); a=int(c.group(2)); b=int(c.group(3) or a)
            if not os.path.exists(fp): res.append((f,m.group(2),c.group(0),'NOFILE')); continue
            ex=[(i,e) for i in ids for e in extent(fp,i)]
            if b>len(lines(fp)): res.append((f,m.group(2),c.group(0),'RANGE',ex)); continue
            if not ex: continue
            if any(e[0]-6<=a and b<=e[1]+1 for _,e in ex): continue
            res.append((f,m.group(2),c.group(0),'OUT',ex))
for r in res: print(r[0].replace('/verif/lean/Verif/',''),*r[1:])
print(len(res))
