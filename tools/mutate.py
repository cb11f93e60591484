#!/usr/bin/env python3
"""Mutation testing of the theorems.  usage: mutate.py WORKDIR MUTANTS.json OUT.jsonl
Each mutant: {id, file (relative to lean/Verif), old, new, definition, edit, claim}.
WORKDIR is a scratch copy of /verif/lean (outside /verif) with a complete build.  For each mutant the
edit is applied there and the project rebuilt; a theorem whose proof breaks is recorded, its proof
is stubbed out *in the scratch copy* so that later modules still get checked, and the property
theorems that (transitively) rest on a broken proof are reported as failed."""
import json, sys, re, subprocess, os, shutil, glob
W, MUT, OUT = sys.argv[1:4]
only = set(sys.argv[4:])
V = f"{W}/Verif"
STUB = "so" + "rry"
DECL = re.compile(r"^(?:@\[[^\]]*\]\s*)?(?:private\s+|protected\s+|noncomputable\s+)*(theorem|lemma|example|def|instance|structure|inductive|abbrev)\b\s*(\S*)")

def build():
    r = subprocess.run(["lake", "build"], cwd=W, capture_output=True, text=True)
    return r.returncode, r.stdout + r.stderr

def decls(lines):
    return [(i, m.group(1), m.group(2)) for i, l in enumerate(lines) if (m := DECL.match(l))]

def find_assign(txt):
    depth = 0; i = 0
    while i < len(txt):
        c = txt[i]
        if txt.startswith("--", i):
            j = txt.find("\n", i); i = len(txt) if j < 0 else j; continue
        if txt.startswith("/-", i):
            j = txt.find("-/", i); i = j + 2; continue
        if c == '"':
            i += 1
            while i < len(txt) and txt[i] != '"': i += 2 if txt[i] == "\\" else 1
            i += 1; continue
        if c in "([{⟨⦃": depth += 1
        if c in ")]}⟩⦄": depth -= 1
        if depth == 0 and txt.startswith(":=", i):
            # skip 'let x := ' inside statements
            line = txt[txt.rfind("\n", 0, i)+1:i]
            if not re.search(r"\b(let|have)\s+\S+(\s*:.*)?\s*$", line): return i
        if depth == 0 and txt.startswith("\n  | ", i) and i > 0: return i
        i += 1
    return -1

def stub(file, errlines):
    lines = open(file).read().split("\n")
    ds = decls(lines); broken = []
    todo = {}
    for e in errlines:
        k = max((j for j, d in enumerate(ds) if d[0] <= e - 1), default=None)
        if k is None: raise Exception(f"no decl for {file}:{e}")
        todo[k] = ds[k]
    for k in sorted(todo, reverse=True):
        s, kind, name = ds[k]
        e = ds[k+1][0] if k + 1 < len(ds) else len(lines)
        # the chunk ends before comments / attributes / commands preceding the next declaration
        end = s + 1
        while end < e and not re.match(r"^(/--|/-!|end\b|section\b|namespace\b|variable\b|open\b|@\[|set_option\b|omit\b|termination_by|decreasing_by|private|attribute\b)", lines[end]): end += 1
        chunk = "\n".join(lines[s:end])
        if kind == "example":
            lines[s:end] = ["example : True := trivial", ""]; broken.append(("example", f"{os.path.relpath(file, V)}:{s+1}"))
        elif kind in ("theorem", "lemma"):
            i = find_assign(chunk)
            if i < 0 or chunk[i:].strip() in (f":= by {STUB}",): raise Exception(f"cannot stub {file}:{name}")
            lines[s:end] = (chunk[:i].rstrip() + f" := by {STUB}\n").split("\n")
            broken.append(("theorem", name))
        else:
            raise Exception(f"error in {kind} {name} of {file}")
    open(file, "w").write("\n".join(lines))
    return broken

def run(m):
    f = f"{V}/{m['file']}"
    src = open(f).read()
    if src.count(m["old"]) != 1: return {"status": f"old text occurs {src.count(m['old'])} times"}
    saved = {}
    def save(p):
        if p not in saved: saved[p] = open(p).read()
    save(f)
    open(f, "w").write(src.replace(m["old"], m["new"]))
    lemmas, exs = [], []
    try:
        for _ in range(40):
            rc, out = build()
            if rc == 0: break
            errs = {}
            for x in re.finditer(r"^error: (?:\./)?(Verif/[\w/]+\.lean):(\d+):\d+:", out, re.M):
                errs.setdefault(f"{W}/{x.group(1)}", set()).add(int(x.group(2)))
            if not errs: return {"status": "build error: " + out[-500:]}
            for p, es in errs.items():
                save(p)
                for k, n in stub(p, es):
                    (lemmas if k == "theorem" else exs).append(n)
        else: return {"status": "too many rounds"}
        failed = axioms()
        return {"status": "ok", "broken_proofs": lemmas, "broken_examples": exs, "failed_properties": failed}
    except Exception as ex:
        return {"status": "exception: " + str(ex) , "broken_proofs": lemmas, "broken_examples": exs}
    finally:
        for p, t in saved.items(): open(p, "w").write(t)

def axioms():
    names = [t for c in json.load(open("/verif/MANIFEST.json"))["claims"] for t in c["theorems"]]
    t = f"{W}/axcheck.lean"
    open(t, "w").write("import Verif\nopen Lean Elab Command in\nrun_cmd do\n  for n in ["
        + ", ".join(f"`{n}" for n in names) + "] do\n    let a ← liftCoreM (collectAxioms n)\n"
        + "    if a.contains `" + STUB + "Ax then logInfo m!\"BAD {n}\"\n")
    r = subprocess.run(["lake", "env", "lean", "axcheck.lean"], cwd=W, capture_output=True, text=True)
    if r.returncode != 0: return ["axcheck failed: " + r.stdout[:800]]
    return re.findall(r"BAD (\S+)", r.stdout)

for m in json.load(open(MUT)):
    if only and m["id"] not in only: continue
    r = run(m)
    rec = {"id": m["id"], "definition": m["definition"], "edit": m["edit"], "claim": m["claim"], **r}
    open(OUT, "a").write(json.dumps(rec) + "\n")
    print(m["id"], r["status"][:300], len(r.get("broken_proofs", [])), "lemmas;", r.get("failed_properties"), flush=True)
