#!/usr/bin/env python3
"""Seeded-bug runner.  usage: seed.py mutations.json
Each mutation: {"file","old","new","definition","edit","claim","tightened"(optional)}.
Works in a scratch copy /tmp/mut (outside /verif), appends one JSON line per mutation to seeded/LOG.jsonl."""
import json, subprocess, sys, os, re, shutil
SRC='/verif/lean'; DST='/tmp/mut'
def run():
    r=subprocess.run(['lake','build'],cwd=DST,capture_output=True,text=True)
    out=r.stdout+r.stderr
    fails=[]
    for m in re.finditer(r'error: (Verif/\S+?\.lean):(\d+):',out):
        f,l=m.group(1),int(m.group(2))
        lines=open(f'{DST}/{f}').read().split('\n')
        name=None
        rng=list(range(l-1,-1,-1))
        if lines[l-1].startswith('/--'): rng=list(range(l-1,len(lines)))
        for j in rng:
            mm=re.match(r'\s*(?:@\[.*\]\s*)?(?:private\s+)?(theorem|def|instance|example|lemma)\s*(\S+)?',lines[j])
            if mm:
                name=(mm.group(2) if mm.group(1)!='example' else f'example@{f}:{j+1}'); break
        n=f'{name}'
        if n not in fails: fails.append(n)
    return r.returncode,fails,out
muts=json.load(open(sys.argv[1]))
os.makedirs(DST,exist_ok=True)
for m in muts:
    subprocess.run(['rsync','-a','--delete','--exclude','.git',SRC+'/',DST+'/'],check=False) if shutil.which('rsync') else subprocess.run(f'rm -rf {DST}/Verif {DST}/Verif.lean; mkdir -p {DST}; cp -a {SRC}/. {DST}/',shell=True,check=True)
    p=f'{DST}/Verif/{m["file"]}'
    s=open(p).read()
    if s.count(m['old'])!=1:
        print('BAD MUTATION (count %d)'%s.count(m['old']),m['definition'],m['edit']); continue
    open(p,'w').write(s.replace(m['old'],m['new']))
    rc,fails,out=run()
    rec=dict(definition=m['definition'],edit=m['edit'],claim=m['claim'],failed=fails,survived=(rc==0),tightened=m.get('tightened',[]))
    print('SURVIVED' if rc==0 else 'killed',m['definition'],'|',m['edit'],'|',fails[:8])
    if '--dry' not in sys.argv:
        with open('/verif/seeded/LOG.jsonl','a') as f: f.write(json.dumps(rec)+'\n')
