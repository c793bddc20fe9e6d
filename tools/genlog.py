import json,re,sys
sys.path.insert(0,'/tmp/mut')
from mklog import cthms
from breaks import B
titles={json.loads(l)['id']:json.loads(l)['title'] for l in open('/verif/properties.jsonl')}
TIGHT={'rp27':['C115_course_alone'],'rp31':['C115_numbered_items'],'rp33':['C115_one_of_several'],'re11':['C111_print_of_one'],'rp3':['C113_every_student_has_one_row','C113_report_shows_the_audits_partial'],'rp14':['C115_numbers_are_the_audits'],'ru14':['C09_query_respects_its_course_limits','C09_loaded_area_partial'],'ru17':['C54_every_choice_is_tried'],'ru27':['C55','C59'],'ru28':['C55','C59'],'so7':['C52'],'ex8':['C08_loaded_as_recorded'],'op4':['C16_both_missing'],'pr7':['C17_record_keys'],
'as1':['C56','C57'],'as2':['C56','C57'],'as5':['C56','C57'],'as6':['C56','C57'],'as7':['C56','C57'],'as3':['C52','C56'],'as4':['C52','C56'],'as12':['C52','C56','C58'],'as16':['C52'],'as17':['C52'],'as18':['C52'],'as19':['C52','C56'],'as20':['C52'],
'tr6':['C60'],'ar10':['C60'],'ar12':['C60'],'tr16':['C60'],'tr2':['C61'],'tr4':['C61','C52'],'tr13':['C61'],'tr14':['C61'],'ar4':['C22_only_selected_solutions_matter'],'ar7':['C22_printed_results_partial'],'ru19':['C53'],'ru20':['C53'],'tr15':['C20_audit_status'],'ar13':['C10_only_forced_classes_bypass_limits_partial'],'ar15':['C62'],'tc9':['C32_special_term'],'cx4':['C35_conditions'],'ar9':['C21'],'ar11':['C58'],
't27':['C88'],'t33':['C88'],'t44':['C88'],'t46':['C88'],'t72':['C81_courses_in_order'],'t78':['C81_table_of_the_file'],'ld96':['C89'],'ld21':['C75'],'dv24':['the example with emphasesArea in Props/DiscoverCourses.lean'],'tb4':['C105_run_ends']}
import glob
allC=set()
for f in glob.glob('/verif/lean/Verif/Props/*.lean'):
    allC|=set(re.findall(r'^theorem (C\d+_\w+)',open(f).read(),re.M))
def expand(t):
    out=[]
    for x in t:
        out += [x] if x in allC or ' ' in x else sorted(c for c in allC if c.startswith(x))
    return out
M={}
for f in ['m1','m2','m3']:
    for m in json.load(open(f'/tmp/mut/{f}.json')): M[m['id']]=m
for f in glob.glob('/tmp/mut/m[4-9]*.json')+glob.glob('/tmp/mut/m[12][0-9]*.json'):
    for m in json.load(open(f)): M[m['id']]=m
NOEFFECT={'rp7':'no claim is about the wording of a condition','rp11':'no claim is about the wording of a title','rp12':'no claim is about the wording of a title','ru26':'no observable effect: the result is the same for every input','as9':'no claim is false of it','as11':'no claim is false of it','ar16':'no claim is false of it','cx7':'no claim is false of it','pr28':'no claim is false of it: a resolved class is on the transcript','pr38':'no claim is about the wording of limits','ld97':'no observable effect: the result is the same for every input','s21':'no claim is false of it','s67':'no claim is false of it','s74':'no claim is false of it','tb5':'no observable effect: an estimate always comes first','ac2':'no claim is false of it: the keys of a plain value differ','fe38':'no claim is false of it'}
def short(s,n=160):
    s=' '.join(s.split()); return s if len(s)<=n else s[:n]+'…'
def claim(i,m):
    t=B.get(i,('',m.get('breaks','')))[1]
    t=re.sub(r'\b(C\d+)(?!\w)(?!: |/)',lambda k:f"{k.group(1)} ({titles.get(k.group(1),'')})",t) if ':' not in t else t
    return t
def line(i,r,rerun=False):
    m=M[i]
    e=B.get(i,('',''))[0] or m['edit']
    if e in('','-'): e='changed'
    direct=sorted({d.split(' ')[-1] for f,d in r['errors'] if not d.startswith('example') and d.split(' ')[-1] not in('','?')})
    ex=sorted({f for f,d in r['errors'] if d.startswith('example')})
    c=cthms(r['errors'])
    rec={'definition':m['definition'],'file':'lean/Verif/'+m['file'],'edit':f"{e}: `{short(m['old'])}` → `{short(m['new'])}`",'breaks':NOEFFECT.get(i) or claim(i,m),
     'failed':direct+[f'example in {f}' for f in ex],'failed_properties':c,'id':i+('_again' if rerun else '')}
    return rec
out=[]
R2={json.loads(l)['id']:json.loads(l) for l in open('/tmp/mut/results.jsonl')}
for l in open('/tmp/mut/results_round1.jsonl'):
    r=json.loads(l); i=r['id']; rec=line(i,r)
    if r['ok']:
        rec['tightened']=expand(TIGHT.get(i,[]))
        if not rec['tightened'] and i not in NOEFFECT: rec['note']='survived; not tightened yet'; print('survivor untightened',i)
    else: rec['tightened']=[]
    out.append(rec)
    b=i+'_b'
    if b in R2:
        r2=R2[b]; rec=line(i,r2,True); rec['tightened']=[]
        rec['note']='the same edit again, after tightening' if not r2['ok'] else 'the same edit again: still not noticed'
        if r2['ok']: print('still survives',i)
        out.append(rec)
for i,r in R2.items():
    if i in M and not i.endswith('_b') and i not in {json.loads(l)['id'] for l in open('/tmp/mut/results_round1.jsonl')}:
        rec=line(i,r); rec['tightened']=expand(TIGHT.get(i,[])) if r['ok'] else []
        if i.endswith('b') and i[:-1] in R2: rec['note']='the same edit again, after tightening' if not r['ok'] else 'the same edit again: still not noticed'
        if r['ok'] and not rec['tightened'] and i not in NOEFFECT: rec['note']='survived; not tightened yet'; print('survivor untightened',i)
        out.append(rec)
open('/verif/seeded/LOG.jsonl','w').write(''.join(json.dumps(x,ensure_ascii=False)+'\n' for x in out))
print(len(out))
