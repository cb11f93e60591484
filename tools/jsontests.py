#!/usr/bin/env python3
"""Generates lean/Verif/UnitTests/Json.lean from /repo/test/json_test_files: the JSON reader of the
specification (Spec/Jems.lean) rejects every n_ file and accepts every y_ file within its scope."""
import os, re
D = '/repo/test/json_test_files'
OUT = os.path.join(os.path.dirname(os.path.abspath(__file__)), '..', 'lean', 'Verif', 'UnitTests', 'Json.lean')
WIDE = re.compile(r'unicode|uEscape|surrogate|noncharacter|UTF-8|utf-8|nonChar')
EXP = re.compile(rb'[0-9][eE]')
def lst(b):
    s = '[' + ', '.join(map(str, b)) + ']'
    out, line = [], '    '
    for w in s.split(' '):
        if len(line) + len(w) > 96:
            out.append(line.rstrip()); line = '    '
        line += w + ' '
    out.append(line.rstrip())
    return '\n'.join(out)
def wide(b):
    try: t = b.decode('utf-8')
    except UnicodeDecodeError: return True
    return any(ord(c) > 127 for c in t) or any(int(h, 16) > 255 for h in re.findall(r'\\u([0-9a-fA-F]{4})', t))
rej, acc, skip = [], [], []
for f in sorted(os.listdir(D)):
    b = open(f'{D}/{f}', 'rb').read()
    if f[0] == 'n' and len(b) <= 2000: rej.append((f, b))
    elif f[0] == 'y':
        if EXP.search(b) or wide(b): skip.append((f, b))
        else: acc.append((f, b))
o = ['import Verif.Spec.Jems', '',
"/-! # The JSON test files of the repository, read by the reader of the specification",
"",
"Generated by tools/jsontests.py from /repo/test/json_test_files (JSONTestSuite).  These are tests of",
"`Spec.read`, which C56 and others use to say that emitted text is well-formed JSON: it rejects every file",
"that is not JSON (`n_…`), and accepts every file that is (`y_…`) except the files with exponents, with",
"characters that are not ASCII, or with escapes of characters above 255, which mu_jems cannot emit and the reader rejects or",
"reads differently.  The two files of more than 2000 bytes are instances of `reject_open_arrays` and",
"`reject_open_array_objects`. -/", '', 'namespace Mu.UnitTests.Json', 'open Mu.Jems.Spec', '']
o.append('/-! ## Files that are not JSON -/\n')
for f, b in rej: o.append(f'/-- {f} -/\nexample : (read\n{lst(b)}).isNone = true := by decide +kernel\n')
o.append('/-! ## Files that are JSON -/\n')
for f, b in acc: o.append(f'/-- {f} -/\nexample : (read\n{lst(b)}).isSome = true := by decide +kernel\n')
o.append('/-! ## The two long files -/\n')
o.append(open(os.path.join(os.path.dirname(os.path.abspath(__file__)), 'jsontests_tail.lean.txt')).read())
o.append('end Mu.UnitTests.Json')
open(OUT, 'w').write('\n'.join(o) + '\n')
print(len(rej), 'rejected', len(acc), 'accepted', len(skip), 'skipped:', *[f for f, _ in skip])
