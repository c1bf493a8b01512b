#!/usr/bin/env python3
"""Mutation tester: python3 mut.py specs.json  -- each spec {file, old, new, def, edit, claim, [only]}.
Works in a scratch copy outside /verif; appends one JSON line per spec to /verif/seeded/LOG.jsonl (unless DRY=1)."""
import json,sys,subprocess,os,re,shutil
SC='/tmp/mut/lean'
def sync():
    os.makedirs('/tmp/mut',exist_ok=True)
    subprocess.run(['rsync','-a','--delete','/verif/lean/',SC+'/'],check=True) if shutil.which('rsync') else (shutil.rmtree(SC,ignore_errors=True),subprocess.run(['cp','-a','/verif/lean',SC],check=True))
def enclosing(path,line):
    L=open(path).read().split('\n')
    for i in range(min(line,len(L))-1,-1,-1):
        m=re.match(r'(?:@\[[^\]]*\] *)?(?:private |protected |noncomputable )*(theorem|lemma|def|example|instance|abbrev|structure|inductive)\b\s*([^\s:({\[]*)',L[i])
        if m: return (m.group(1),m.group(2) or 'example@%d'%(i+1))
    return ('?','?')
def run(sp):
    p=os.path.join(SC,sp['file']); s=open(p).read()
    n=s.count(sp['old'])
    if n!=sp.get('count',1): return {'error':'old string occurs %d times'%n}
    open(p,'w').write(s.replace(sp['old'],sp['new']))
    out=subprocess.run(['lake','build']+sp.get('targets',[]),cwd=SC,capture_output=True,text=True); txt=out.stdout+out.stderr
    fails=[];mods=set()
    for m in re.finditer(r'error: (\S+?\.lean):(\d+):\d+:',txt):
        k,nm=enclosing(os.path.join(SC,m.group(1)),int(m.group(2)))
        t=(nm if k!='example' else nm+' in '+m.group(1))
        if t not in fails: fails.append(t)
    open(p,'w').write(s)
    return {'fails':fails,'ok':out.returncode==0,'txt':txt[-1500:]}
def main():
    sync()
    for sp in json.load(open(sys.argv[1])):
        r=run(sp)
        if 'error' in r: print('BAD',sp['def'],r['error'],flush=True); continue
        print(('SURVIVED' if r['ok'] else 'killed'),sp['def'],'|',sp['edit'],'|',r['fails'][:8] or ('' if r['ok'] else r['txt'][-600:]),flush=True)
        if os.environ.get('DRY'): continue
        with open('/verif/seeded/LOG.jsonl','a') as f:
            f.write(json.dumps({'definition':sp['def'],'edit':sp['edit'],'claim_broken':sp['claim'],'failed':r['fails'],'tightened':sp.get('tightened',[])})+'\n')
main()
