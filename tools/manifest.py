#!/usr/bin/env python3
"""Regenerates MANIFEST.json from the theorem names `Cnn_*` in lean/Verif/**/Props*.lean and the status table below."""
import re, json, glob, os
ROOT = os.path.dirname(os.path.dirname(os.path.abspath(__file__)))
STATUS = json.load(open(os.path.join(ROOT, "tools", "status.json")))
thms = {}
for f in sorted(glob.glob(ROOT + "/lean/Verif/**/*.lean", recursive=True)):
    ns = []
    txt = open(f).read()
    txt = re.sub(r"/-.*?-/", "", txt, flags=re.S)
    for l in txt.split("\n"):
        m = re.match(r"namespace (\S+)", l)
        if m: ns.append(m.group(1))
        m = re.match(r"end (\S+)", l)
        if m and ns and ns[-1] == m.group(1): ns.pop()
        m = re.match(r"theorem ((C\d+)_\S*)", l)
        if m: thms.setdefault(m.group(2), []).append(".".join(ns + [m.group(1)]))
ids = [json.loads(l)["id"] for l in open(ROOT + "/properties.jsonl")]
claims = []
for i in ids:
    s = STATUS.get(i)
    if s is None:
        if i in thms: print("no status for", i)
        continue
    if i not in thms and s[0] != "not_applicable": print("no theorem for", i); continue
    claims.append({"property": i, "status": s[0], "theorems": thms.get(i, []), "note": s[1]})
for i in thms:
    if i not in ids: print("theorem without property", i)
json.dump({"claims": claims}, open(ROOT + "/MANIFEST.json", "w"), indent=1, ensure_ascii=False)
print(len(claims), "claims of", len(ids))
