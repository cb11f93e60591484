#!/usr/bin/env python3
"""Prints, for every theorem named in MANIFEST.json, the axioms it depends on (needs a finished
`lake build`).  Writes AXIOMS.md.  The scratch file is outside /verif."""
import json, subprocess, os, re, collections
root = os.path.dirname(os.path.dirname(os.path.abspath(__file__)))
ths = [t for c in json.load(open(f"{root}/MANIFEST.json"))["claims"] for t in c["theorems"]]
src = "import Verif\n" + "".join(f"#print axioms {t}\n" for t in ths)
open("/tmp/axioms_scratch.lean", "w").write(src)
out = subprocess.run(["lake", "env", "lean", "/tmp/axioms_scratch.lean"], cwd=f"{root}/lean",
                     capture_output=True, text=True).stdout
out = re.sub(r"\n\s+", " ", out)
groups = collections.OrderedDict()
seen = set()
for line in out.splitlines():
    m = re.match(r"'(.*)' depends on axioms: \[(.*)\]", line)
    n = re.match(r"'(.*)' does not depend on any axioms", line)
    if m: groups.setdefault(m.group(2), []).append(m.group(1)); seen.add(m.group(1))
    elif n: groups.setdefault("none", []).append(n.group(1)); seen.add(n.group(1))
missing = [t for t in ths if t not in seen]
with open(f"{root}/AXIOMS.md", "w") as f:
    f.write("# Axioms each theorem depends on\n\nWritten by `tools/axioms.py` from `#print axioms`.\n")
    for g, l in sorted(groups.items()):
        f.write(f"\n## {g} ({len(l)})\n\n" + "\n".join(f"- `{t}`" for t in l) + "\n")
print({g: len(l) for g, l in groups.items()}, "missing:", missing)
