#!/usr/bin/env python3
"""Collect the theorems named Cnn_... under lean/Verif/Props into MANIFEST.json.

Status: tools/status.json gives {"Cnn": {"status": ..., "note": ...}};
properties with theorems default to "proved", those without are left out."""
import glob, json, os, re
root = os.path.join(os.path.dirname(os.path.abspath(__file__)), "..")
thms = {}
for fn in sorted(glob.glob(root + "/lean/Verif/Props/*.lean")):
    ns = []
    for line in open(fn):
        m = re.match(r"namespace (\S+)", line)
        if m: ns.append(m.group(1))
        m = re.match(r"end (\S+)", line)
        if m and ns and ns[-1] == m.group(1): ns.pop()
        m = re.match(r"theorem (C\d+)(_\S+)", line)
        if m: thms.setdefault(m.group(1), []).append(".".join(ns + [m.group(1) + m.group(2)]))
st = json.load(open(root + "/tools/status.json"))
claims = []
for line in open(root + "/properties.jsonl"):
    pid = json.loads(line)["id"]
    s = st.get(pid, {})
    if pid not in thms and not s: continue
    claims.append({"property": pid, "status": s.get("status", "proved"),
                   "theorems": thms.get(pid, []), "note": s.get("note", "")})
with open(root + "/MANIFEST.json", "w") as f:
    json.dump({"claims": claims}, f, indent=1)
print(len(claims), "claims;", sum(len(c["theorems"]) for c in claims), "theorems")
