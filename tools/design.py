#!/usr/bin/env python3
"""Writes DESIGN.md: design.md, the plan per property (how.py, claims.py) and the axioms of every claimed theorem.
Needs /tmp/axioms.out, the output of `lake env lean /tmp/axioms.lean`."""
import json, os, re
here = os.path.dirname(os.path.abspath(__file__))
root = os.path.dirname(here)
exec(open(os.path.join(here, 'how.py')).read())
props = [json.loads(l) for l in open(os.path.join(root, 'properties.jsonl'))]
claims = {c['property']: c for c in json.load(open(os.path.join(root, 'MANIFEST.json')))['claims']}
out = open(os.path.join(here, 'design.md')).read()
out += "| Id | Property | Modelled by | Proof | Status |\n|---|---|---|---|---|\n"
for p in sorted(props, key=lambda p: int(p['id'][1:])):
    m, pr = H[p['id']]
    c = claims[p['id']]
    out += f"| {p['id']} | {p['title']} | {m} | {pr} | {c['status']} |\n"
out += "\n## What holds and what does not\n\nFor every property that is not proved as stated, and for proved ones with a remark:\n\n"
for p in sorted(props, key=lambda p: int(p['id'][1:])):
    c = claims[p['id']]
    if c['note']: out += f"* **{p['id']}** ({c['status']}): {c['note']}\n"
out += open(os.path.join(here, 'design_tail.md')).read()
ax = {}
for l in re.sub(r'\n\s+', ' ', open('/tmp/axioms.out').read()).splitlines():
    m = re.match(r"'(\S+)' (?:depends on axioms: \[(.*)\]|does not depend on any axioms)", l)
    if m: ax.setdefault(tuple(sorted((m.group(2) or '').replace(' ', '').split(','))), []).append(m.group(1))
n = sum(map(len, ax.values()))
out += "\n## Axioms of the claimed theorems\n\n"
for k in sorted(ax, key=lambda k: (len(k), k)):
    out += ("No axioms" if k == ('',) else ", ".join(f"`{a}`" for a in k)) + ":\n"
    out += ", ".join(x.removeprefix('Verif.') for x in sorted(set(ax[k]))) + ".\n\n"
open(os.path.join(root, 'DESIGN.md'), 'w').write(out)
missing = {t for c in claims.values() for t in c['theorems']} - {x for v in ax.values() for x in v}
print("design:", n, "theorems; without axioms line:", missing)
