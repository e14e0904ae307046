#!/usr/bin/env python3
"""Runs the theorems against a wrong program.

  mutate.py MUTATIONS.py OUT.jsonl [name ...]

MUTATIONS.py defines a list M of dicts: name, file (below lean/Verif), edits (list of (old, new)), claim.
For each one a scratch copy of lean/ is made outside /verif, the model is edited, and the project is built. A
declaration whose proof fails is replaced by `sorry` (a failing example is dropped) and the build repeated, until everything
builds. The theorems of MANIFEST.json that then depend on `sorryAx` have failed; the others have survived the edit.
"""
import json, os, re, shutil, subprocess, sys, time
SRC = os.environ.get("MUT_SRC", "/verif/lean")
WORK = "/tmp/mw/work"
MAX = int(os.environ.get("MUT_MAX", "100000"))   # seconds for one mutation
KW = re.compile(r"^(theorem|example|def|instance|lemma|abbrev|structure|inductive|/--|/-!|@\[|end\b|namespace|open\b|variable|private|attribute|set_option|section|local|omit|include|noncomputable|mutual|import|protected|partial|--)")

def decl_bounds(lines, ln):
    """0-based line number -> (start, end) of the enclosing declaration (end exclusive)."""
    s = ln
    while s > 0 and not re.match(r"^(@\[.*\] *)?(private |protected |noncomputable |local )*(theorem|lemma|example|def|instance|abbrev|structure|inductive)\b", lines[s]):
        s -= 1
    e = s + 1
    while e < len(lines) and not (lines[e] and KW.match(lines[e])):
        e += 1
    return s, e

def cut(text):
    """Position of the top-level `:=` or first `|` alternative that starts the proof."""
    depth = 0
    i = 0
    inmatch = False
    m = re.match(r"^(@\[.*?\] *)?(private |protected |noncomputable |local )*(theorem|lemma|example)\b", text)
    i = m.end() if m else 0
    while i < len(text):
        c = text[i]
        if c in "([{⟨": depth += 1
        elif c in ")]}⟩": depth -= 1
        elif depth == 0 and text.startswith(":=", i):
            # skip `let x := ..` and `have x := ..` inside the statement
            line = text[text.rfind("\n", 0, i) + 1:i]
            if not re.search(r"\blet\b[^;]*$", line):
                return i
        elif depth == 0 and not inmatch and re.match(r"\n  +\| ", text[i:]):
            if re.search(r"\bwith\s*$", text[:i]): inmatch = True
            else: return i
        i += 1
    return None

def build(targets, timeout):
    p = subprocess.run(["timeout", str(timeout), "lake", "build"] + targets, cwd=WORK, capture_output=True, text=True)
    return p.returncode, p.stdout + p.stderr

def run(m):
    t0 = time.time()
    shutil.rmtree(WORK, ignore_errors=True)
    shutil.copytree(SRC, WORK, symlinks=True)
    f = os.path.join(WORK, "Verif", m["file"])
    s = open(f).read()
    for old, new in m["edits"]:
        assert s.count(old) == 1, (m["name"], s.count(old), old)
        s = s.replace(old, new)
    open(f, "w").write(s)
    failed, dropped = [], []
    pending = {}
    for it in range(60):
        left = MAX - (time.time() - t0)
        if left < 10: return dict(name=m["name"], status="slow", lemmas=failed, dropped=dropped, wall=round(time.time() - t0))
        rc, out = build([], min(3000, int(left)))
        if rc == 124 and time.time() - t0 > MAX - 10:
            return dict(name=m["name"], status="slow", lemmas=failed, dropped=dropped, wall=round(time.time() - t0))
        errs = re.findall(r"^error: (Verif/\S+\.lean):(\d+):(\d+): ?(.*)", out, re.M)
        if rc == 0: break
        if not errs:
            return dict(name=m["name"], status="stuck", out=out[-3000:], failed=failed, dropped=dropped, wall=time.time() - t0)
        byfile = {}
        for fn, l, c, msg in errs: byfile.setdefault(fn, set()).add(int(l) - 1)
        for fn, ls in byfile.items():
            p = os.path.join(WORK, fn)
            lines = open(p).read().split("\n")
            todo = sorted({decl_bounds(lines, l) for l in ls}, reverse=True)
            for a, b in todo:
                text = "\n".join(lines[a:b])
                mm = re.match(r"^(@\[.*?\] *)?(private |protected |noncomputable |local )*(theorem|lemma|example|def|instance|abbrev)\s*(\S*)", text)
                kind, nm = (mm.group(3), mm.group(4)) if mm else ("?", text[:40])
                key = fn + ":" + (nm if kind != "example" else "example@%d" % a)
                if kind == "example":
                    dropped.append(fn + ": example " + text[:80].replace("\n", " "))
                    rep = [""] * (b - a)
                    # drop the doc comment above as well
                    k = a - 1
                    while k >= 0 and lines[k].strip() and not lines[k].startswith("/--"): k -= 1
                    if k >= 0 and lines[k].startswith("/--") and lines[a - 1].rstrip().endswith("-/"):
                        for q in range(k, a): lines[q] = ""
                    lines[a:b] = rep
                    continue
                if kind in ("theorem", "lemma") and key not in pending:
                    pending[key] = 1
                    c = cut(text)
                    if c is None: return dict(name=m["name"], status="cut failed", out=text[:500])
                    failed.append(key)
                    new = text[:c] + ":= by sorry"
                    nl = new.split("\n")
                    lines[a:b] = nl + [""] * (b - a - len(nl))
                    continue
                return dict(name=m["name"], status="cannot repair", out=key + "\n" + out[:3000], failed=failed, dropped=dropped)
            open(p, "w").write("\n".join(lines))
    else:
        return dict(name=m["name"], status="too many iterations", failed=failed)
    man = json.load(open("/verif/MANIFEST.json"))
    names = sorted({t for c in man["claims"] for t in c["theorems"]})
    ax = os.path.join(WORK, "Ax.lean")
    open(ax, "w").write("import Verif\n" + "\n".join("#print axioms " + n for n in names) + "\n")
    p = subprocess.run(["lake", "env", "lean", "Ax.lean"], cwd=WORK, capture_output=True, text=True)
    out = p.stdout
    bad, good = [], []
    for blk in re.split(r"(?=^'[\w.']+' (?:depends|does not))", re.sub(r"^.*?(?='[\w.]+' (depends|does))", "", out, flags=re.M), flags=re.M):
        mm = re.match(r"'([\w.']+)' (depends on axioms: \[(.*?)\]|does not)", blk, re.S)
        if mm: (bad if "sorryAx" in blk else good).append(mm.group(1))
    return dict(name=m["name"], status="done", lemmas=failed, dropped=dropped, failed=bad, survived=good, wall=round(time.time() - t0))

if __name__ == "__main__":
    ns = {}
    exec(open(sys.argv[1]).read(), ns)
    want = sys.argv[3:]
    for m in ns["M"]:
        if want and m["name"] not in want: continue
        try: r = run(m)
        except Exception as e: r = dict(name=m["name"], status="error", out=repr(e))
        r["file"] = m["file"]; r["edits"] = m["edits"]; r["claim"] = m.get("claim", "")
        with open(sys.argv[2], "a") as o: o.write(json.dumps(r) + "\n")
        print(r["name"], r["status"], len(r.get("failed", [])), r.get("wall"), flush=True)
