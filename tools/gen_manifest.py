#!/usr/bin/env python3
"""Regenerate MANIFEST.json: every public theorem named Cnn_* in lean/Verif/Props is listed under property Cnn.
Status: 'partial' if one of the theorems ends in _partial or contains _refuted, else 'proved'.  Notes come from NOTES."""
import json,re,glob,os
root=os.path.dirname(os.path.dirname(os.path.abspath(__file__)))
NOTES=json.load(open(os.path.join(root,'tools','notes.json')))
thms={}
for f in sorted(glob.glob(os.path.join(root,'lean/Verif/Props/**/*.lean'),recursive=True)):
    for line in open(f):
        m=re.match(r'^(?:theorem|lemma)\s+(C(\d\d\d?)_\w+)',line)
        if m: thms.setdefault('C'+m.group(2),[]).append('Interphon.Props.'+m.group(1))
claims=[]
for line in open(os.path.join(root,'properties.jsonl')):
    i=json.loads(line)['id']
    t=thms.get(i,[])
    if not t: continue
    st='partial' if any('_partial' in x or '_refuted' in x for x in t) else 'proved'
    claims.append({"property":i,"status":st,"theorems":t,"note":NOTES.get(i,"")})
missing=[json.loads(l)['id'] for l in open(os.path.join(root,'properties.jsonl')) if json.loads(l)['id'] not in thms]
json.dump({"claims":claims},open(os.path.join(root,'MANIFEST.json'),'w'),indent=1,ensure_ascii=False)
print(len(claims),'claims;', sum(c['status']=='proved' for c in claims),'proved; missing:',' '.join(missing))
