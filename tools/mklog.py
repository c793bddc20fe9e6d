import json,re,collections
deps={};rev=collections.defaultdict(set)
for l in open('/tmp/w/deps.txt'):
    a=l.rstrip('\n').split('\t'); 
    n=re.sub(r'^_private\.Verif[^ ]*?\.0\.','',a[0])
    us=[re.sub(r'^_private\.Verif[^ ]*?\.0\.','',u) for u in a[2].split()] if len(a)>2 else []
    deps[n]=us
    for u in us: rev[u].add(n)
def dependents(n):
    seen={n};st=[n]
    while st:
        for y in rev[st.pop()]:
            if y not in seen: seen.add(y);st.append(y)
    return seen
isC=re.compile(r'^Dp\.C\d+_')
def cthms(errs):
    out=set()
    for f,d in errs:
        nm=d.split(' ')[-1]
        if nm in('example','','?'): continue
        for y in dependents('Dp.'+nm):
            if re.match(r'^Dp\.C\d+_[A-Za-z0-9_]+$',y): out.add(y[3:])
    return sorted(out)
if __name__=='__main__':
    M={}
    for f in ['m1','m2','m3']:
        for m in json.load(open(f+'.json')): M[m['id']]=m
    for l in open('results_round1.jsonl'):
        r=json.loads(l); m=M[r['id']]
        if r['ok']: continue
        c=cthms(r['errors'])
        direct=[d.split(' ')[-1] for f,d in r['errors']]
        print(r['id'],m['file'][6:-5],m['definition'],'|',m['edit'],'|',m['breaks'],'|',','.join(direct)[:160],'|',','.join(sorted(set(x[:3] for x in c))))
