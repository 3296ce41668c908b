#!/usr/bin/env python3
"""Seeded-bug runner.  usage: seed.py spec.json
spec: list of {file, definition, old, new, edit, claim, target, [tightened]}
For each entry: copy lean/ to /tmp/seed, apply the edit, build the target and
append exactly one line to seeded/LOG.jsonl, whatever the outcome.

theorems_failed is measured: a property theorem is listed when its own proof
has an error, or when (in the unedited build) it depends on a declaration whose
proof has an error.  failing_proofs lists the declarations with errors.  An edit
that does not apply, or whose edited file does not itself elaborate, is `invalid`
and never counts as caught."""
import json,subprocess,sys,re,os
src='/verif/lean'; dst='/tmp/seed'; here=os.path.dirname(os.path.abspath(__file__))
_deps={}
def deps(target):
    if target not in _deps:
        subprocess.run(['lake','build',target],cwd=src,check=True,capture_output=True)
        t=open(here+'/Deps.lean.txt').read().replace('TARGET',target)
        open('/tmp/Deps.lean','w').write(t)
        r=subprocess.run(['lake','env','lean','/tmp/Deps.lean'],cwd=src,capture_output=True,text=True)
        out=re.sub(r'\s+',' ',r.stdout)
        d={m.group(1):set(m.group(2).split(',')) for m in re.finditer(r'DEP (\S+) (\S+)',out)}
        if not d: sys.exit('no dependency data: '+r.stdout[:500]+r.stderr[:500])
        _deps[target]=d
    return _deps[target]
DECL=r'\s*(?:@\[[^\]]*\]\s*)?(?:private |protected |noncomputable )*(theorem|lemma|def|example|instance|abbrev)\b\s*(\S*)'
def run(sp):
    d=deps(sp['target'])
    subprocess.run('rm -rf %s; cp -a %s %s'%(dst,src,dst),shell=True,check=True)
    f=os.path.join(dst,sp['file']); s=open(f).read()
    if s.count(sp['old'])!=1:
        return 'invalid',[],[],'pattern occurs %d times'%s.count(sp['old'])
    open(f,'w').write(s.replace(sp['old'],sp['new']))
    r=subprocess.run(['lake','build',sp['target']],cwd=dst,capture_output=True,text=True)
    out=r.stdout+r.stderr
    if r.returncode==0: return 'survived',[],[],''
    failed=[]; bad=False
    for ef,ln in re.findall(r'error: (\S+?\.lean):(\d+):\d+',out):
        nm=None
        for L in reversed(open(os.path.join(dst,ef)).read().split('\n')[:int(ln)]):
            m=re.match(DECL,L)
            if m:
                nm='example' if m.group(1)=='example' else m.group(2)
                bad = bad or (m.group(1) in('def','abbrev','instance')); break
        if nm and nm not in failed: failed.append(nm)
    if bad or not failed: return 'invalid',[],failed,'edited definition does not elaborate: '+out[-300:]
    hit=lambda n:any(n==x or n.endswith('.'+x) for x in failed if x!='example')
    th=sorted(t.split('.')[-1] for t,ds in d.items() if not t.endswith('_statement') and any(hit(x) for x in ds))
    # errors only in examples: no property theorem noticed the bug
    return ('caught' if th else 'survived'),th,failed,'' if th else 'only examples or unused lemmas failed'
for sp in json.load(open(sys.argv[1])):
    res,th,failed,why=run(sp)
    print(res.upper(),sp['definition']+': '+sp['edit'],'-> theorems',th,'via',failed,why,flush=True)
    e=dict(definition=sp['definition'],edit=sp['edit'],claim=sp['claim'],result=res,
           theorems_failed=th,failing_proofs=failed,theorems_tightened=sp.get('tightened',[]))
    if why: e['comment']=why
    open('/verif/seeded/LOG.jsonl','a').write(json.dumps(e)+'\n')
