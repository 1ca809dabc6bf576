#!/usr/bin/env python3
"""Writes MANIFEST.json from the theorems `Cxx_*` found in lean/Verif/Props and the notes below."""
import json, re, glob, os
ROOT = os.path.dirname(os.path.dirname(os.path.abspath(__file__)))
NOTES = json.load(open(os.path.join(ROOT, "tools", "manifest_notes.json")))
thms = {}
for f in sorted(glob.glob(ROOT + "/lean/Verif/Props/*.lean")):
    src = open(f).read()
    stack = []
    for line in src.split("\n"):
        if m := re.match(r"namespace (\S+)", line):
            stack.append(m.group(1))
        elif (m := re.match(r"end (\S+)", line)) and stack and stack[-1] == m.group(1):
            stack.pop()
        elif m := re.match(r"(?:protected |private )?theorem (C\d\d)(_\w+)", line):
            thms.setdefault(m.group(1), []).append(".".join(stack) + "." + m.group(1) + m.group(2))
claims = []
ids = [json.loads(l)["id"] for l in open(ROOT + "/properties.jsonl")]
for i in ids:
    if i in NOTES:
        st, note = NOTES[i]
        assert i in thms or st == "not_applicable", i
        claims.append({"property": i, "status": st, "theorems": thms.get(i, []), "note": note})
    elif i in thms:
        raise SystemExit("theorems without a note: " + i)
json.dump({"claims": claims}, open(ROOT + "/MANIFEST.json", "w"), indent=1)
print({c["property"]: (c["status"], len(c["theorems"])) for c in claims})
missing = [i for i in ids if i not in NOTES]
print("no claim yet:", missing)
