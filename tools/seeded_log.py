#!/usr/bin/env python3
"""Writes seeded/LOG.jsonl from the results of mutate.py.   seeded_log.py RESULTS.jsonl SRC [RESULTS.jsonl SRC ...]

With --append as first argument the present lines are kept."""
import json, os, re, sys
here = os.path.dirname(os.path.abspath(__file__))
args = sys.argv[1:]
log = os.path.join(here, "..", "seeded", "LOG.jsonl")
keep = []
if args[0] == "--append":
    keep = [json.loads(l) for l in open(log)]
    args = args[1:]
T = {
 "ds_no_compression": ["DisjointSet.Props.C63_path_compression (added: nothing stated the compression before)"],
 "ds_union_by_size_reversed": ["DisjointSet.Props.C64_union_by_size (added: C23 bounded the depth but did not fix which root survives a tie)"],
 "dl_choose_max": ["DancingLinks.Props.C65_algorithm_x (added: the choice of the smallest column was not observable in C13-C18)"],
}
T.update(json.load(open(os.path.join(here, "tightened.json"))) if os.path.exists(os.path.join(here, "tightened.json")) else {})
out = keep
for res, src in zip(args[::2], args[1::2]):
  for l in open(res):
    r = json.loads(l)
    if r["status"] != "done": continue
    text = open(os.path.join(src, "Verif", r["file"])).read()
    defs = []
    for old, _ in r["edits"]:
        i = text.find(old)
        m = list(re.finditer(r"^(?:def|structure|inductive|abbrev) (\S+)", text[:i + 1 if i >= 0 else 0], re.M))
        m2 = re.match(r"(?:def|abbrev) (\S+)", old)
        d = m2.group(1) if m2 else (m[-1].group(1) if m else "?")
        if d not in defs: defs.append(d)
    out.append({"name": r["name"], "definition": "Verif/" + r["file"] + ": " + ", ".join(defs),
        "edit": [{"old": a.strip(), "new": b.strip()} for a, b in r["edits"]],
        "claim": r["claim"], "lemmas_failed": r["lemmas"], "theorems_failed": r["failed"],
        "theorems_tightened": T.get(r["name"], [])})
with open(log, "w") as f:
    for o in out: f.write(json.dumps(o) + "\n")
print(len(out))
