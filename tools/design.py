#!/usr/bin/env python3
"""Generates /verif/DESIGN.md from design_head.md, design_unmodelled.md, MANIFEST.json, properties.jsonl, design_tail.md."""
import json, re, glob, os
V='/verif/'
man={c['property']:c for c in json.load(open(V+'MANIFEST.json'))['claims']}
props=[json.loads(l) for l in open(V+'properties.jsonl')]
where={}
for f in glob.glob(V+'lean/Verif/**/*.lean',recursive=True):
    mod=f[len(V+'lean/Verif/'):-5]
    for m in re.finditer(r'^(?:protected )?theorem\s+([^\s:({\[]+)',open(f).read(),re.M):
        where.setdefault(m.group(1).split('.')[-1],set()).add(mod)
plan={}
for l in open(V+'tools/design_plan.txt'):
    if l.strip():
        k,t=l.split(' ',1); plan[k]=t.strip()
o=open(V+'tools/design_head.md').read()
o+=open(V+'tools/design_unmodelled.md').read()
o+='\n## 5 Plan and status per property\n\n| id | property | model and method | status | theorems in |\n|---|---|---|---|---|\n'
for p in props:
    c=man.get(p['id'])
    mods=sorted({m for t in (c['theorems'] if c else []) for m in where.get(t.split('.')[-1],[]) if m.startswith('Props')})
    o+='| %s | %s | %s | %s | %s |\n'%(p['id'],p['title'],plan.get(p['id'],''),c['status'] if c else 'open',', '.join('`%s`'%m for m in mods))
o+='\nWhat exactly is missing from each partial claim is in the `note` of MANIFEST.json and in the head of the file.\n'
o+=open(V+'tools/design_tail.md').read()
open(V+'DESIGN.md','w').write(o)
