#!/usr/bin/env python3
"""Writes /verif/DESIGN.md: tools/design_head.md, then what each model covers (from the headers of the model files), the axioms,
and the defects found (from MANIFEST.json)."""
import glob, json, os, re
R = os.path.join(os.path.dirname(os.path.abspath(__file__)), "..")
out = open(os.path.join(R, "tools/design_head.md")).read().rstrip("\n") + "\n"
out += "\n## 4. What is modelled, and how\n\nOne entry per area, copied from the head of its model.  Everything not listed is not modelled (see the end of the section).\n"
for f in sorted(glob.glob(os.path.join(R, "lean/Verif/*/Model.lean"))):
    s = open(f).read()
    m = re.search(r"/-!\n?(.*?)-/", s, re.S)
    txt = m.group(1).strip()
    title, _, body = txt.partition("\n")
    area = os.path.basename(os.path.dirname(f))
    out += "\n### %s: %s\n\n%s\n" % (area, title.lstrip("# ").strip(), body.strip())
out += "\n" + open(os.path.join(R, "tools/design_not_modelled.md")).read().rstrip("\n") + "\n"
out += """
## 5. Axioms

`tools/check_axioms.sh` prints the axioms of every theorem named in MANIFEST.json.  The only ones that occur are `propext`,
`Classical.choice` and `Quot.sound`.

## 6. Results and defects

The status of every property.  "False" means that the negation is proved with a concrete history of the model, which is a defect
of the code (or of its documentation) as far as the model is faithful; the theorems named `_partial` prove what remains.

| id | status | remark |
|----|--------|--------|
"""
props = {json.loads(l)["id"]: json.loads(l) for l in open(os.path.join(R, "properties.jsonl"))}
for c in json.load(open(os.path.join(R, "MANIFEST.json")))["claims"]:
    n = c["note"] if c["note"] != props[c["property"]]["title"] else props[c["property"]]["title"] + ": proved in full."
    out += "| %s | %s | %s |\n" % (c["property"], c["status"], n.replace("|", "\\|"))
open(os.path.join(R, "DESIGN.md"), "w").write(out)
