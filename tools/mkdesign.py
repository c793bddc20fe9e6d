import json,re,glob,sys
sys.path.insert(0,'/verif/tools')
from methods import M
T='/verif/tools/'
out=[open(T+'design_head.md').read()]
props=[json.loads(l) for l in open('/verif/properties.jsonl')]
man={c['property']:c for c in json.load(open('/verif/MANIFEST.json'))['claims']}
ax={}
for l in open('/tmp/w/axioms.txt'):
    a=l.rstrip('\n').split('\t'); ax[a[0]]=a[1] if len(a)>1 else ''
where={}
for f in sorted(glob.glob('/verif/lean/Verif/Props/*.lean')):
    for m in re.finditer(r'^(?:protected )?theorem (C\d+_[A-Za-z0-9_\']+)',open(f).read(),re.M):
        where['Dp.'+m.group(1)]=f.split('/')[-1][:-5]
out.append('\n## 4. Property by property\n\nStatus, where the theorems are, how the property is modelled and proved, and what is missing.\n')
for p in sorted(props,key=lambda p:p['id']):
    c=man[p['id']]; fs=sorted({where[t] for t in c['theorems']})
    out.append(f"- **{p['id']} {p['title']}** ({c['status']}; {', '.join('`Props/'+f+'`' for f in fs)}). {M[p['id']]}"+(f" *{c['note']}*" if c['note'] else ''))
out.append('\n## 5. Axioms of each theorem\n\nP = `propext`, C = `Classical.choice`, Q = `Quot.sound`.\n')
def ab(s):
    r=''.join({'propext':'P','Classical.choice':'C','Quot.sound':'Q'}[x] for x in s.split())
    return ''.join(x for x in 'PCQ' if x in r) or 'none'
for p in sorted(props,key=lambda p:p['id']):
    g={}
    for t in man[p['id']]['theorems']: g.setdefault(ab(ax[t]),[]).append(t[3:])
    out.append(f"- {p['id']}: "+'; '.join(f"{k}: "+', '.join(f'`{x}`' for x in v) for k,v in sorted(g.items())))
out.append('\n'+open(T+'quirks.md').read())
open('/verif/DESIGN.md','w').write('\n'.join(out))
