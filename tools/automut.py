#!/usr/bin/env python3
"""Generates mutants of the definitions in Model/*.lean mechanically, for mutate.py.
usage: automut.py OUT.json SEED MAXPERDEF [files...]"""
import re, sys, json, glob, os, random
OUT, SEED, MAXD = sys.argv[1], int(sys.argv[2]), int(sys.argv[3])
V = "/verif/lean/Verif"
files = sys.argv[4:] or sorted(glob.glob(V + "/Model/*.lean"))
random.seed(SEED)
START = re.compile(r"^(?:@\[[^\]]*\]\s*)?(?:private\s+|noncomputable\s+)?(def|theorem|lemma|example|instance|structure|inductive|abbrev|namespace|end|section|variable|open|/--|/-!)\b|^(/--|/-!)")
OPS = [
 (r"(?<![<=|←]) < (?!-)", [" ≤ "]), (r" ≤ ", [" < "]), (r" > ", [" ≥ "]), (r" ≥ ", [" > "]),
 (r"(?<=[\w\)\]'}]) = (?=[\w\(\.\[0-9'\"-])", [" ≠ "]), (r" ≠ ", [" = "]),
 (r" \+ 1\b", [" + 2", ""]), (r" - 1\b", [" - 2", ""]), (r" \+ 2\b", [" + 1"]),
 (r"\btrue\b", ["false"]), (r"\bfalse\b", ["true"]), (r" && ", [" || "]), (r" \|\| ", [" && "]),
 (r" ∧ ", [" ∨ "]), (r" ∨ ", [" ∧ "]), (r"\.none\b", [".full"]), (r"\.full\b", [".none"]),
 (r"\bhead\b", ["tail"]), (r"\btail\b", ["head"]), (r" \+ (?=[a-z(])", [" - "]), (r" - (?=[a-z(])", [" + "]),
 (r"(?<![\w.#xX])([0-9]+)(?![\w.])", ["INC"]), (r"\bNULL\b", ["(NULL + 1)"]),
 (r", \w+ := (?:\([^()]*\)|[\w.]+(?: [\w.]+)*)(?= \}|,)", [""]),
 (r"\{ (\w+) with \w+ := (?:\([^()]*\)|[\w.]+(?: [\w.]+)*) \}", [r"\1"]),
 (r"\.onPut\b", [".onGet"]), (r"\.onGet\b", [".onPut"]), (r"\.pos\b", [".start"]),
 (r"\bif (.*?) then\b", [r"if ¬ (\1) then"]),
]
def blank(src):
    out = list(src); i = 0
    while i < len(src):
        if src.startswith("--", i):
            j = src.find("\n", i); j = len(src) if j < 0 else j
        elif src.startswith("/-", i):
            j = src.find("-/", i) + 2
        else:
            i += 1; continue
        for k in range(i, j):
            if out[k] != "\n": out[k] = "\x01"
        i = j
    return "".join(out)
muts = []
for f in files:
    lines = open(f).read().split("\n"); i = 0
    while i < len(lines):
        m = re.match(r"^(?:@\[[^\]]*\]\s*)?(?:private\s+|noncomputable\s+)?def (\S+)", lines[i])
        if not m: i += 1; continue
        j = i + 1
        while j < len(lines) and not START.match(lines[j]): j += 1
        text = "\n".join(lines[i:j]).rstrip("\n")
        ns = re.findall(r"^namespace (\S+)", "\n".join(lines[:i]), re.M)
        name = (ns[-1] + "." if ns else "") + m.group(1)
        b = blank(text)
        k0 = b.find(":="); k1 = b.find("\n  | ")
        s0 = min(x for x in (k0 if k0 >= 0 else 10**9, k1 if k1 >= 0 else 10**9, len(b)) )
        cand = []
        for pat, reps in OPS:
            for x in re.finditer(pat, b):
                if x.start() < s0: continue
                for r in reps:
                    if r == "INC": new = str(int(x.group(1)) + 1)
                    else: new = x.expand(r) if "\\" in r else r
                    t = text[:x.start()] + new + text[x.end():]
                    ln = b[:x.start()].count("\n")
                    if t != text: cand.append((ln, text.split("\n")[ln].strip(), t.split("\n")[ln].strip(), t))
        random.shuffle(cand)
        for ln, o, n, t in cand[:MAXD]:
            muts.append(dict(file=os.path.relpath(f, V), definition=name, old=text, new=t,
                             edit=f"line {ln+1}: `{o}` becomes `{n}`", claim="(mechanical mutant)"))
        i = j
for k, m in enumerate(muts): m["id"] = f"X{SEED}-{k:04d}"
json.dump(muts, open(OUT, "w"), ensure_ascii=False)
print(len(muts))
