"""Write AXIOMS.md: the axioms of every theorem named in MANIFEST.json.  Run from /verif after `lake build`."""
import json, subprocess, collections, re
man = json.load(open("MANIFEST.json"))["claims"]
names = sorted({t for c in man for t in c["theorems"]})
src = "import Verif\n" + "".join(f"#print axioms {n}\n" for n in names)
open("/tmp/axioms.lean", "w").write(src)
out = subprocess.run(["lake", "env", "lean", "/tmp/axioms.lean"], cwd="lean", capture_output=True, text=True).stdout
res = {}
for m in re.finditer(r"'([^']+)' (depends on axioms: \[([^\]]*)\]|does not depend on any axioms)", out.replace("\n", " ").replace("  ", " ")):
    res[m.group(1)] = tuple(sorted((m.group(3) or "").replace(" ", "").split(","))) if m.group(3) else ()
missing = [n for n in names if n not in res]
by = collections.defaultdict(list)
for n in names:
    if n in res: by[res[n]].append(n)
with open("AXIOMS.md", "w") as f:
    f.write("# Axioms of the theorems in MANIFEST.json\n\nPrinted by `#print axioms` (see `tools/axioms.py`).\n")
    for k in sorted(by, key=len):
        f.write("\n## " + (", ".join(f"`{a}`" for a in k) if k else "none") + f" ({len(by[k])} theorems)\n\n")
        for n in by[k]: f.write(f"* `{n}`\n")
print("theorems", len(names), "missing", missing, {k: len(v) for k, v in by.items()})
