#!/usr/bin/env python3
"""Regenerates /verif/DESIGN.md from the texts below, properties.jsonl, MANIFEST.json and tools/axioms.txt.

tools/axioms.txt is the output of `#print axioms` for the theorems of the manifest (tools/axioms.sh)."""
import json, os, re
ROOT = os.path.join(os.path.dirname(os.path.abspath(__file__)), "..")
props = {}
for l in open(os.path.join(ROOT, "properties.jsonl")):
    x = json.loads(l); props[x["id"]] = x
claims = {c["property"]: c for c in json.load(open(os.path.join(ROOT, "MANIFEST.json")))["claims"]}

HEAD = open(os.path.join(ROOT, "tools", "design_head.md")).read()
METHOD = {}
cur = None
for l in open(os.path.join(ROOT, "tools", "design_methods.md")):
    m = re.match(r"^(C\d\d+): (.*)$", l.rstrip("\n"))
    if m:
        cur = m.group(1); METHOD[cur] = m.group(2)
    elif l.strip():
        METHOD[cur] += " " + l.strip()

def short(n): return n.replace("PSync.", "")

out = [HEAD.rstrip(), "", "## Properties, one by one", "",
       "For each property: what is modelled and how it is proved, the status, the theorems, and what is missing.", ""]
for i in sorted(props, key=lambda s: int(s[1:])):
    c = claims.get(i)
    out.append("### %s — %s (%s)" % (i, props[i]["title"], c["status"] if c else "open"))
    out.append("")
    out.append(props[i]["statement"])
    out.append("")
    if i in METHOD:
        out.append("*How:* " + METHOD[i]); out.append("")
    if c:
        out.append("*Theorems:* " + ", ".join("`%s`" % short(t) for t in c["theorems"]) + ".")
        if c["note"]:
            out.append("*Status:* " + c["note"])
        out.append("")

ax = open(os.path.join(ROOT, "tools", "axioms.txt")).read()
ax = re.sub(r"\n\s+", " ", ax)
groups = {}
for l in ax.splitlines():
    m = re.match(r"'(.*?)' (?:depends on axioms: \[(.*)\]|does not depend.*)", l)
    if m:
        groups.setdefault(m.group(2) or "none", []).append(short(m.group(1)))
out += ["## Axioms of each theorem", "",
        "`#print axioms` for every theorem named in MANIFEST.json (run `tools/axioms.sh` to repeat).", ""]
for k in sorted(groups, key=lambda k: len(groups[k])):
    out.append("* **%s** (%d): %s" % (k, len(groups[k]), ", ".join("`%s`" % t for t in groups[k])))
out.append("")
open(os.path.join(ROOT, "DESIGN.md"), "w").write("\n".join(out))
missing = [i for i in props if i not in METHOD]
print("no method text:", missing)
