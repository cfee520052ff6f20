#!/usr/bin/env python3
"""Regenerates the list of refuted claims in DESIGN.md from MANIFEST.json."""
import json, os, re
ROOT = os.path.dirname(os.path.dirname(os.path.abspath(__file__)))
d = open(ROOT + "/DESIGN.md").read()
m = json.load(open(ROOT + "/MANIFEST.json"))
out = []
for c in m["claims"]:
    r = [t.split(".")[-1] for t in c["theorems"] if "refuted" in t]
    if r:
        out.append("* %s: %s (%s)" % (c["property"], c["note"], ", ".join("`%s`" % x for x in r)))
head, tail = re.split(r"(?m)^\* C\d\d+: .*\n(?:\* C\d\d+: .*\n)*", d, maxsplit=1)
open(ROOT + "/DESIGN.md", "w").write(head + "\n".join(out) + "\n" + tail)
