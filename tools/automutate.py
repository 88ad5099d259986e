#!/usr/bin/env python3
"""Small edits made by machine in the model's definitions, one at a time, each followed by a rebuild in a scratch copy.

usage: automutate.py WORKDIR OUT.jsonl SEED SHARE [file ...]     (SHARE: which part of the list, e.g. 0/2)
A mutant whose model file itself does not compile is no program and is skipped.  The rebuild stops at the first error.
Results go to OUT.jsonl: status invalid / killed / survived.  A mutant already in OUT.jsonl is skipped.
"""
import json, os, random, re, shutil, signal, subprocess, sys, time, hashlib
ROOT = '/verif/lean'
OPS = [
    (r' ≤ ', ' < '), (r'(?<![<|]) < (?![;|])', ' ≤ '), (r' ≥ ', ' > '), (r'(?<![=|-]) > ', ' ≥ '),
    (r' == ', ' != '), (r' != ', ' == '), (r' && ', ' || '), (r' \|\| ', ' && '), (r' ∧ ', ' ∨ '), (r' ∨ ', ' ∧ '),
    (r'\btrue\b', 'false'), (r'\bfalse\b', 'true'), (r' ≠ ', ' = '),
    (r'(?<=if )([^=\n]*?) = ', r'\1 ≠ '),
    (r' \+ 1\b', ''), (r' - 1\b', ''),
    (r'(?<![\w.\-\[])(\d+)(?![\w.])', lambda m: str(int(m.group(1)) + 1)),
    (r'(?<![\w.\-\[])([1-9]\d*)(?![\w.])', lambda m: str(int(m.group(1)) - 1)),
    (r'\.isSome\b', '.isNone'), (r'\.isNone\b', '.isSome'), (r'\.any\b', '.all'), (r'\.all\b', '.any'),
    (r'\.take\b', '.drop'), (r'\.drop\b', '.take'), (r'\.isEmpty\b', '.isEmpty.not'),
    (r'(?<=[ (])!(?=[\w(])', ''), (r'\bmax\b', 'min'), (r'\bmin\b', 'max'),
    # drop one update of a record
    (r'(?<=with )(\w+) := [^,{}()\n]+, ', ''), (r', (\w+) := [^,{}()\n]+(?= \})', ''),
    # drop an appended part
    (r' \+\+ \[[^\[\]\n]*\]', ''), (r'\[[^\[\]\n]*\] \+\+ ', ''),
    # the other result
    (r'=> some \((setThr|setPc|setProc|goto|set) ', None), (r'(?<=then )some (?=[\w{(])', None),
    # swap the branches
    (r'if ([^\n]*?) then ([^\n]*?) else ([^\n()]*)$', r'if \1 then \3 else \2'),
    (r'(\w+)\.(\w+)Left\b', None),
]
KEEP = re.compile(r'^(def|abbrev|partial def|@\[[^\]]*\] def)\b')
STOP = re.compile(r'^(theorem|example|instance|structure|inductive|namespace|open|end|import|section|variable|/-|--|@\[simp\] theorem|private theorem|set_option|deriving|attribute|set_option)')

def mutants(path):
    src = open(path).read()
    # blank out comments, keeping positions
    clean = re.sub(r'/-.*?-/', lambda m: re.sub(r'[^\n]', ' ', m.group(0)), src, flags=re.S)
    clean = re.sub(r'--[^\n]*', lambda m: ' ' * len(m.group(0)), clean)
    pos = 0; inside = None; out = []
    for line in clean.split('\n'):
        if KEEP.match(line):
            inside = re.sub(r'^(@\[[^\]]*\] )?(partial )?(def|abbrev) ', '', line).split()[0]
        elif line and not line[0].isspace() and not line.startswith('|'):
            inside = None
        if inside:
            # not in the signature up to :=
            start = 0
            if KEEP.match(line) and ':=' in line: start = line.index(':=')
            elif KEEP.match(line): start = len(line)
            strs = [(m.start(), m.end()) for m in re.finditer(r'"[^"\n]*"', line)]
            for k, (rx, rep) in enumerate(OPS):
                if rep is None: continue
                for m in re.finditer(rx, line):
                    if m.start() < start: continue
                    if any(a < m.end() and m.start() < b for a, b in strs) and k != 35: continue
                    new = m.expand(rep) if isinstance(rep, str) else rep(m)
                    if new == m.group(0): continue
                    a = pos + m.start(); b = pos + m.end()
                    if src[a:b] != m.group(0): continue
                    out.append((inside, a, b, new))
        pos += len(line) + 1
    return src, out

def main():
    work, outp, seed, share = sys.argv[1:5]
    i, n = map(int, share.split('/'))
    files = sys.argv[5:] or sorted(f'Verif/{d}/Model.lean' for d in os.listdir(ROOT + '/Verif') if os.path.exists(f'{ROOT}/Verif/{d}/Model.lean'))
    base = work + '.base'
    for d in (work, base):
        subprocess.run(f'rm -rf {d} && cp -a {ROOT} {d}', shell=True, check=True)
    r = subprocess.run('lake build', shell=True, cwd=base, capture_output=True, text=True)
    if r.returncode: print('BASE DOES NOT BUILD'); return 1
    subprocess.run(f'rm -rf {work} && cp -a {base} {work}', shell=True, check=True)
    done = set()
    if os.path.exists(outp):
        for l in open(outp): done.add(json.loads(l)['key'])
    todo = []
    for f in files:
        src, ms = mutants(os.path.join(base, f))
        for d, a, b, new in ms:
            ls = src.rfind('\n', 0, a) + 1; le = src.find('\n', b); le = len(src) if le < 0 else le
            before = src[ls:le].strip(); after = (src[ls:a] + new + src[b:le]).strip()
            if before == after: continue
            key = hashlib.sha1((f + d + before + '→' + after + str(src[:a].count('\n'))).encode()).hexdigest()[:16]
            todo.append((key, f, d, a, b, new, before, after))
    random.Random(seed).shuffle(todo)
    todo = [t for j, t in enumerate(todo) if j % n == i and t[0] not in done]
    print(len(todo), 'mutants', flush=True)
    for key, f, d, a, b, new, before, after in todo:
        src = open(os.path.join(base, f)).read()
        mark = work + '/.mark'; open(mark, 'w').close(); time.sleep(0.02)
        t0 = time.time()
        open(os.path.join(work, f), 'w').write(src[:a] + new + src[b:])
        p = subprocess.Popen('lake build 2>&1', shell=True, cwd=work, stdout=subprocess.PIPE, text=True, preexec_fn=os.setsid)
        status = None; where = []
        for line in p.stdout:
            m = re.match(r'error: (Verif/[\w/]+\.lean):(\d+):\d+: ?(.*)', line)
            if m:
                if m.group(1) == f: status = 'invalid'
                else: status = 'killed'
                where = [m.group(1), int(m.group(2))]
                break
            if re.match(r'error:', line): status = 'killed'; where = [line.strip()[:100], 0]; break
        if status is None:
            p.wait(); status = 'survived' if p.returncode == 0 else 'killed'
        else:
            try: os.killpg(p.pid, signal.SIGKILL)
            except ProcessLookupError: pass
            p.wait()
        rec = dict(key=key, file=f, definition=d, before=before, after=after, status=status, where=where, secs=round(time.time() - t0))
        open(outp, 'a').write(json.dumps(rec, ensure_ascii=False) + '\n')
        # put everything back
        open(os.path.join(work, f), 'w').write(src)
        shutil.copystat(os.path.join(base, f), os.path.join(work, f))
        new_files = subprocess.run(f'find .lake -newer {mark} -type f', shell=True, cwd=work, capture_output=True, text=True).stdout.split('\n')
        for g in new_files:
            if not g: continue
            if os.path.exists(os.path.join(base, g)): shutil.copy2(os.path.join(base, g), os.path.join(work, g))
            else: os.remove(os.path.join(work, g))
    print('done', flush=True)
sys.exit(main())
