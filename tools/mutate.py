#!/usr/bin/env python3
"""Runs seeded bugs against the model in a scratch copy (/tmp/mut) and appends the results to seeded/LOG.jsonl.

usage: mutate.py mutants.json      [{"file": "Verif/X/Model.lean", "def": "...", "old": "...", "new": "...", "edit": "...",
                                     "claim": "..."}]
Several edits that make one bug: "edits": [{"file", "old", "new"}, ...] instead of file/old/new.
A mutant whose (def, edit) is already in the log is skipped.
"""
import json, os, re, shutil, subprocess, sys, time
ROOT = '/verif/lean'; MUT = os.environ.get('MUT', '/tmp/mut')
LOG = '/verif/seeded/LOG.jsonl'

def decl_at(path, line):
    ls = open(path).read().split('\n')
    for i in range(min(line, len(ls)) - 1, -1, -1):
        m = re.match(r'(?:@\[[^\]]*\]\s*)?(?:private |noncomputable )*(theorem|def|example|instance|lemma|abbrev)\b\s*([^\s:({\[]*)', ls[i])
        if m:
            return (m.group(2) or m.group(1)) if m.group(1) != 'example' else 'example@%d' % (i + 1)
    return '?'

def build():
    r = subprocess.run('lake build', shell=True, cwd=MUT, capture_output=True, text=True)
    out = r.stdout + r.stderr
    failed = []
    for m in re.finditer(r'error: (Verif/[\w/]+\.lean):(\d+):\d+', out):
        d = decl_at(os.path.join(MUT, m.group(1)), int(m.group(2)))
        n = m.group(1)[6:-5].replace('/', '.') + ':' + d
        if n not in failed: failed.append(n)
    return r.returncode, failed, out

def main():
    os.makedirs(MUT, exist_ok=True)
    subprocess.run(f'rsync -a --delete {ROOT}/ {MUT}/', shell=True, check=True) if os.path.exists('/usr/bin/rsync') else \
        subprocess.run(f'rm -rf {MUT} && cp -a {ROOT} {MUT}', shell=True, check=True)
    # the sources as last committed: /verif may change while the mutants run
    subprocess.run(f'rm -rf {MUT}/Verif && git -C {ROOT} archive HEAD Verif Verif.lean | tar -x -C {MUT}', shell=True, check=True)
    base = MUT + '.base'
    subprocess.run(f'rm -rf {base} && mkdir {base} && cp -a {MUT}/Verif {base}/', shell=True, check=True)
    # the sources themselves must build: otherwise every mutant would count as killed
    rc, failed, out = build()
    if rc != 0:
        print('BASE DOES NOT BUILD', failed[:6]); return 1
    # what was built from them, to be put back after each mutant
    subprocess.run(f'cp -a {MUT}/.lake {base}/', shell=True, check=True)
    done = set()
    if os.path.exists(LOG):
        for l in open(LOG):
            if l.strip():
                j = json.loads(l); done.add((j['definition'], j['edit']))
    # theorem -> module map to report the property theorems that could not be rebuilt
    for mu in json.load(open(sys.argv[1])):
        if (mu['def'], mu['edit']) in done: continue
        # one edit, or several edits that belong together ("edits": [{"file", "old", "new"}, ...])
        edits = mu.get('edits') or [{'file': mu['file'], 'old': mu['old'], 'new': mu['new']}]
        srcs = {e['file']: open(os.path.join(base, e['file'])).read() for e in edits}
        new = dict(srcs); bad = False
        for e in edits:
            n = new[e['file']].count(e['old'])
            if n != 1:
                print('BAD MUTANT', mu['def'], mu['edit'], 'matches', n, repr(e['old'][:60])); bad = True; break
            new[e['file']] = new[e['file']].replace(e['old'], e['new'])
        if bad: continue
        mark = MUT + '.mark'; open(mark, 'w').close(); time.sleep(0.02)
        for f, t in new.items(): open(os.path.join(MUT, f), 'w').write(t)
        rc, failed, out = build()
        for f in srcs: shutil.copy2(os.path.join(base, f), os.path.join(MUT, f))
        for g in subprocess.run(f'find .lake -newer {mark} -type f', shell=True, cwd=MUT, capture_output=True, text=True).stdout.split('\n'):
            if g and os.path.exists(os.path.join(base, g)): shutil.copy2(os.path.join(base, g), os.path.join(MUT, g))
            elif g: os.remove(os.path.join(MUT, g))
        if '-v' in sys.argv: print(out[-3000:])
        if rc == 0: print('SURVIVED', mu['def'], '|', mu['edit'], '|', mu['claim'])
        else: print('killed', mu['def'], '|', mu['edit'], '->', failed[:6])
        rec = {'definition': mu['def'], 'file': edits[0]['file'], 'edit': mu['edit'], 'claim_broken': mu['claim'],
               'theorems_failed': failed, 'survived': rc == 0, 'tightened': mu.get('tightened', [])}
        if rc != 0 or '--log-survivors' in sys.argv:
            open(LOG, 'a').write(json.dumps(rec) + '\n')
    return 0
sys.exit(main())
