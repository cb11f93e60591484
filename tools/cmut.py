#!/usr/bin/env python3
"""Mutate the C text of the library and see which theorems about its parsed source still hold.

usage: cmut.py SCRATCH OUT.jsonl FILE N SEED     (FILE: mu_queue, ...; SCRATCH: a copy of /verif/lean)

Each mutant is one edit of one line of /repo/mulib/FILE.c: tools/csrc.py is run on the edited text and the modules that
speak of it are rebuilt in SCRATCH.  The first module that fails and the theorems in it are recorded; a mutant that
breaks nothing is recorded with an empty list and looked at by hand.
"""
import json, os, random, re, shutil, subprocess, sys

HERE = os.path.dirname(os.path.abspath(__file__))
SCRATCH, OUT, FILE, N, SEED = sys.argv[1], sys.argv[2], sys.argv[3], int(sys.argv[4]), int(sys.argv[5])
MODS = {'mu_queue': ['SrcQueue'], 'mu_spsc': ['SrcSpsc'], 'mu_bisync': ['SrcBisync'], 'mu_bbuf': ['SrcBBuf', 'SrcBBufView', 'SrcBBufWrite'],
        'mu_bvec': ['SrcBVec'], 'mu_array': ['SrcArray', 'SrcArraySort'], 'mu_task': ['SrcTask'], 'mu_mqueue': ['SrcMqueue'],
        'mu_sched': ['SrcSched'], 'mu_log': ['SrcLog'], 'mu_jems': ['SrcJems']}
RULES = [(r'(?<![<>=!+\-*/&|])<(?![<=])', ['<=', '>']), (r'<=', ['<', '>=']), (r'(?<![<>=!\-])>(?![>=])', ['>=', '<']), (r'>=', ['>', '<=']),
         (r'==', ['!=']), (r'!=', ['==']), (r'&&', ['||']), (r'\|\|', ['&&']), (r'\+ 1\b', ['+ 2', '- 1', '+ 0']), (r'- 1\b', ['- 2', '+ 1', '- 0']),
         (r'\+= 1\b', ['+= 2', '-= 1']), (r'-= 1\b', ['-= 2', '+= 1']), (r'\btrue\b', ['false']), (r'\bfalse\b', ['true']),
         (r'\+\+', ['--']), (r'(?<!-)--(?!-)', ['++']), (r'(?<= = )0(?=;)', ['1']), (r'\b10\b', ['9', '16']), (r'\b2\b', ['3', '1']),
         (r'\+ 1 <=', ['+ 1 <']), (r'!(?=[a-z_(])', ['']), (r'%', ['/']), (r'(?<= )&(?= )', ['|']), (r'(?<= )\+(?= [a-z])', ['-']), (r'(?<= )-(?= [a-z])', ['+']),
         (r'<<= 4', ['<<= 3', '>>= 4']), (r'\? ([^:;]*) : ([^:;]*);', [r'? \2 : \1;']), (r"'([a-z0-9])'", ["'z'"]),
         (r'->(head|tail)\b', ['->SWAP']), (r'_ERR_(FULL|EMPTY|NONE|NOT_FOUND|OFLOW|FORMAT)\b', ['_ERR_SWAP']), (r'BISYNC_(DLE|EOT|SOH)\b', ['BISYNC_SWAP']),
         (r'\bcount\b', ['capacity']), (r'\bcapacity\b', ['count']), (r'\bindex\b', ['count']), (r'\(low \+ high\)', ['(low + low)']), (r'\bon_put\b', ['on_get']), (r'\bon_get\b', ['on_put']),
         (r'NULL(?=;)', ['(void *)1'])]
SWAP = {'head': 'tail', 'tail': 'head', 'FULL': 'NONE', 'EMPTY': 'NONE', 'NOT_FOUND': 'NONE', 'OFLOW': 'FORMAT', 'FORMAT': 'OFLOW', 'DLE': 'EOT', 'EOT': 'DLE', 'SOH': 'DLE'}


def bodies(lines):
    """The indices of the lines inside functions, and the function of each."""
    out, fn, depth, test, comment = {}, None, 0, False, False
    for i, l in enumerate(lines):
        if comment:
            comment = '*/' not in l
            continue
        if l.lstrip().startswith('/*') and '*/' not in l:
            comment = True
            continue
        if re.match(r'#\s*(ifdef|if).*TEST', l):
            test = True
        if test:
            continue
        m = re.match(r'^[a-zA-Z_].*?\b([a-z_0-9]+)\(', l)
        if depth == 0 and m and not l.startswith('typedef') and not l.startswith('#'):
            fn = m.group(1)
        if depth > 0 or ('{' in l and fn and not l.startswith('#') and l.rstrip().endswith('}')):
            out[i] = fn
        depth += l.count('{') - l.count('}')
    return out


def mutants(lines):
    res = []
    b = bodies(lines)
    for i, fn in b.items():
        code = lines[i].split('//')[0].rstrip('\n')
        for rx, subs in RULES:
            for m in re.finditer(rx, code):
                for s in subs:
                    new = m.expand(s) if '\\' in s else s
                    if 'SWAP' in s:
                        k = m.group(1)
                        if k not in SWAP:
                            continue
                        new = m.group(0).replace(k, SWAP[k])
                    res.append((i, fn, code[:m.start()] + new + code[m.end():]))
        if re.match(r'^\s+[^{}]*;\s*$', code) and not re.match(r'^\s+(return|break|[a-z_0-9]+_t \*?\w|int |bool |size_t |void |uint|const|char )', code) and '(void)' not in code:
            res.append((i, fn, re.match(r'^\s*', code).group(0) + ';'))
    return [r for r in res if r[2] != lines[r[0]].split('//')[0].rstrip('\n')]


def theorem_at(path, line):
    name = None
    for k, l in enumerate(open(path), 1):
        if k > line:
            break
        m = re.match(r'(?:@\[.*?\] )?(?:private )?(theorem|example|def|instance)\s*(\S*)', l)
        if m:
            name = m.group(2) or m.group(1)
    return name


def build(mods):
    r = subprocess.run(['lake', 'build'] + mods, cwd=SCRATCH, capture_output=True, text=True)
    out = r.stdout + r.stderr
    errs = []
    for m in re.finditer(r'error: (Verif/\S+?\.lean):(\d+):', out):
        t = m.group(1) + ' ' + str(theorem_at(os.path.join(SCRATCH, m.group(1)), int(m.group(2))))
        if t not in errs:
            errs.append(t)
    return r.returncode, errs, out


def main():
    src = open('/repo/mulib/%s.c' % FILE).read().splitlines(keepends=True)
    ms = mutants(src)
    random.Random(SEED).shuffle(ms)
    if '--list' in sys.argv:
        print(len(ms)); return
    done = 0
    mods = ['Verif.Props.' + m for m in MODS[FILE]]
    work = SCRATCH + '.c'
    for i, fn, new in ms:
        if done == N:
            break
        shutil.rmtree(work, ignore_errors=True)
        shutil.copytree('/repo/mulib', work)
        lines = list(src)
        lines[i] = new + '\n'
        open('%s/%s.c' % (work, FILE), 'w').write(''.join(lines))
        r = subprocess.run([sys.executable, HERE + '/csrc.py', work, SCRATCH + '/Verif/Src'], capture_output=True, text=True)
        if r.returncode:
            continue   # not C any more, as far as csrc.py knows
        rc, errs, out = build(mods)
        done += 1
        rec = {'file': FILE + '.c', 'line': i + 1, 'function': fn, 'old': src[i].strip(), 'new': new.strip(), 'failed': errs if rc else [], 'rc': rc}
        with open(OUT, 'a') as f:
            f.write(json.dumps(rec) + '\n')
        print(FILE, i + 1, fn, '|', src[i].strip(), '=>', new.strip(), '|', 'SURVIVED' if rc == 0 else errs[:2], flush=True)
    subprocess.run([sys.executable, HERE + '/csrc.py', '/repo/mulib', SCRATCH + '/Verif/Src'], check=True)


main()
