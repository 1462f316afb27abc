#!/usr/bin/env python3
"""Writes MANIFEST.json from claims.py; checks every named theorem is declared in lean/Verif/Props and
resolves its full name."""
import glob, json, re
declared = {}
for f in sorted(glob.glob("/verif/lean/Verif/Props/*.lean")):
    ns = []
    for line in open(f):
        if m := re.match(r"namespace (\S+)", line): ns.append(m[1])
        elif m := re.match(r"end (\S+)", line):
            if ns and ns[-1] == m[1]: ns.pop()
        elif m := re.match(r"(?:protected )?theorem (\S+)", line):
            declared[m[1]] = ".".join(ns + [m[1]])
C = []
def c(prop, status, theorems, note=""):
    for t in theorems.split(): assert t in declared, t
    C.append(dict(property=prop, status=status, theorems=[declared[t] for t in theorems.split()], note=note))

exec(open(__file__.replace("mkmanifest.py", "claims.py")).read())

props = [json.loads(l)["id"] for l in open("/verif/properties.jsonl")]
named = {t for x in C for t in x["theorems"]}
print("property theorems not in manifest:", sorted(t for t, n in declared.items() if n not in named and re.match(r"C\d\d", t)))
print("properties without claim:", [p for p in props if p not in {x["property"] for x in C}])
C.sort(key=lambda x: x["property"])
json.dump({"claims": C}, open("/verif/MANIFEST.json", "w"), indent=1, ensure_ascii=False)
