#!/usr/bin/env python3
"""Builds MANIFEST.json from the property theorems (theorem Cnn_* in lean/Verif/Props) and tools/status.json."""
import re, json, glob, os
root = os.path.dirname(os.path.dirname(os.path.abspath(__file__)))
status = json.load(open(root + "/tools/status.json"))
ids = [json.loads(l)["id"] for l in open(root + "/properties.jsonl")]
thms = {}
for f in sorted(glob.glob(root + "/lean/Verif/Props/*.lean")):
    ns = []
    for line in open(f):
        m = re.match(r"namespace (\S+)", line)
        if m:
            ns.append(m.group(1))
        m = re.match(r"end (\S+)", line)
        if m and ns and ns[-1] == m.group(1):
            ns.pop()
        m = re.match(r"theorem ((C\d\d+)_\S+)", line)
        if m:
            thms.setdefault(m.group(2), []).append(".".join(ns + [m.group(1)]))
claims = []
for i in ids:
    if i in thms:
        st = status.get(i, {})
        claims.append({"property": i, "status": st.get("status", "proved"), "theorems": thms[i], "note": st.get("note", "")})
    elif i in status and status[i].get("status") == "not_applicable":
        claims.append({"property": i, "status": "not_applicable", "theorems": [], "note": status[i].get("note", "")})
json.dump({"claims": claims}, open(root + "/MANIFEST.json", "w"), indent=1, ensure_ascii=False)
print(len(claims), "claims;", "missing:", [i for i in ids if i not in thms])
