"""Writes the axioms of the theorems of MANIFEST.json into section 7 of DESIGN.md (needs a finished build)."""
import json, os, re, subprocess, tempfile

ROOT = os.path.join(os.path.dirname(os.path.abspath(__file__)), "..")
claims = json.load(open(os.path.join(ROOT, "MANIFEST.json")))["claims"]
names = list(dict.fromkeys(t for c in claims for t in c["theorems"]))
with tempfile.NamedTemporaryFile("w", suffix=".lean", delete=False) as f:
    f.write("import Verif\n" + "".join(f"#print axioms {n}\n" for n in names))
out = subprocess.run(["lake", "env", "lean", f.name], cwd=os.path.join(ROOT, "lean"), capture_output=True, text=True).stdout
os.unlink(f.name)
out = re.sub(r"\n\s+", " ", out)
groups = {}
for line in out.splitlines():
    m = re.match(r"'Verif\.(\S+)' (?:depends on axioms: \[(.*)\]|does not depend on any axioms)", line)
    groups.setdefault(", ".join(sorted((m.group(2) or "no axioms").split(", "))), []).append(m.group(1))
assert sum(map(len, groups.values())) == len(names)
text = "## 7. Axioms of each theorem\n\nPrinted by `#print axioms`; written by `tools/axioms.py`.\n"
for key in sorted(groups, key=lambda k: len(groups[k])):
    text += f"\n* {key}: " + ", ".join(f"`{n}`" for n in groups[key]) + ".\n"
path = os.path.join(ROOT, "DESIGN.md")
s = open(path).read()
i = s.find("## 7.")
open(path, "w").write((s if i < 0 else s[:i]).rstrip("\n") + "\n\n" + text)
