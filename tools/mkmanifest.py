import re,json,glob
props=[json.loads(l) for l in open('/verif/properties.jsonl')]
th={}
for f in sorted(glob.glob('/verif/lean/Verif/Props/*.lean')):
    for m in re.finditer(r'^(?:protected )?theorem ((C\d+)_[A-Za-z0-9_\']+)',open(f).read(),re.M):
        th.setdefault(m.group(2),[]).append('Dp.'+m.group(1))
notes=json.load(open('/tmp/w/notes.json'))
claims=[]
for p in props:
    i=p['id']; t=th.get(i,[]); n=notes.get(i,{})
    st=n.get('status') or ('partial' if any(x.endswith('_partial') for x in t) else 'proved' if t else None)
    if st is None: st='partial'; n={'note':'Not proved yet.'}
    if not t: print('NO THEOREM',i)
    claims.append({'property':i,'status':st,'theorems':t,'note':n.get('note','')})
json.dump({'claims':claims},open('/verif/MANIFEST.json','w'),indent=1)
