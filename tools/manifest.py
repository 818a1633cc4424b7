#!/usr/bin/env python3
"""Regenerate MANIFEST.json from the theorem names in lean/Verif/Props and tools/status.json."""
import json, re, glob, os
root = os.path.dirname(os.path.dirname(os.path.abspath(__file__)))
thms = {}
for f in sorted(glob.glob(root + "/lean/Verif/Props/*.lean")):
    stack = []
    for line in open(f):
        m = re.match(r"(namespace|section|mutual)(?: (\S+))?\s*$", line)
        if m: stack.append(m.group(2) if m.group(1) == "namespace" else None)
        if re.match(r"end(?: \S+)?\s*$", line) and stack: stack.pop()
        ns = ".".join(x for x in stack if x)
        m = re.match(r"theorem ((C\d\d)_\w+)", line)
        if m: thms.setdefault(m.group(2), []).append(ns + "." + m.group(1))
status = json.load(open(root + "/tools/status.json"))
claims = []
for l in open(root + "/properties.jsonl"):
    pid = json.loads(l)["id"]
    if pid in thms and pid in status:
        st, note = status[pid]
        claims.append({"property": pid, "status": st, "theorems": thms[pid], "note": note})
    elif pid in thms:
        print("no status for", pid)
json.dump({"claims": claims}, open(root + "/MANIFEST.json", "w"), indent=1)
print(len(claims), "claims")
