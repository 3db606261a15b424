#!/usr/bin/env python3
"""man.py ID STATUS 'note' thm1 thm2 ... : set one claim in MANIFEST.json"""
import json,sys
m=json.load(open('/verif/MANIFEST.json'))
i,st,note,*th=sys.argv[1:]
c=[x for x in m['claims'] if x['property']!=i]
c.append({"property":i,"status":st,"theorems":["Gasur.Props."+t.removeprefix("Gasur.Props.") for t in th],"note":note})
c.sort(key=lambda x:x['property'])
open('/verif/MANIFEST.json','w').write('{"claims": [\n'+',\n'.join(' '+json.dumps(x) for x in c)+'\n]}\n')
