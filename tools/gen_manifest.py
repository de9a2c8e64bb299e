#!/usr/bin/env python3
"""Collect the property theorems (named Cxx_...) from lean/Verif/Props into MANIFEST.json.
Status and notes come from tools/status.json: {"C01": ["proved", "note"]}."""
import json, re, pathlib
root = pathlib.Path(__file__).resolve().parent.parent
status = json.load(open(root / "tools/status.json"))
thms = {}
for f in sorted((root / "lean/Verif/Props").glob("*.lean")):
    ns = []
    for line in f.read_text().splitlines():
        m = re.match(r"namespace (\S+)", line)
        if m: ns.append(m.group(1))
        m = re.match(r"(?:@\[[^\]]*\] )?theorem (C\d\d+)(_\S+)", line)
        if m: thms.setdefault(m.group(1), []).append(".".join(ns[:1]) + "." + m.group(1) + m.group(2))
claims = []
for line in open(root / "properties.jsonl"):
    p = json.loads(line)["id"]
    st, note = status.get(p, ["partial", "not yet modelled"])
    t = thms.get(p, [])
    if not t and p not in status: continue
    claims.append({"property": p, "status": st, "theorems": t, "note": note})
json.dump({"claims": claims}, open(root / "MANIFEST.json", "w"), indent=1, ensure_ascii=False)
print({c["property"]: len(c["theorems"]) for c in claims})
