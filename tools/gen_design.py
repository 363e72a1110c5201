import re
claims={}
for l in open('/verif/tools/claims.txt'):
    if l.startswith('#') or not l.strip(): continue
    p=[x.strip() for x in l.rstrip('\n').split('|')]
    claims[p[0]]=(p[1],p[2],p[3] if len(p)>3 else '')
doc=open('/verif/tools/design_body.md').read()
import json
props=[json.loads(l) for l in open('/verif/properties.jsonl')]
rows=[]
for p in sorted(props,key=lambda d:int(d['id'][1:])):
    st,th,note=claims[p['id']]
    rows.append("| %s | %s | %s | %s |"%(p['id'],p['title'],st,note))
doc=doc.replace('@@TABLE@@',"| | property | status | what is proved, what is missing |\n|---|---|---|---|\n"+"\n".join(rows))
open('/verif/DESIGN.md','w').write(doc)
