#!/usr/bin/env python3
"""Screens the model with small systematic edits.

  screen.py SRC OUT.jsonl [--list] [--only FILE,...] [--resume]

Every edit changes one token of one line of Model/*.lean (a number, a comparison, an arithmetic operation, a truth value, a
direction, ...) or drops one line. The project is built in a scratch copy until the first error. An edit is `invalid` if the
model itself no longer compiles, `killed` if a proof fails, `survived` if everything still builds. Survivors are looked at by
hand: the edited program is either equivalent to the old one as far as the claims go, or a theorem is too weak.
"""
import json, os, random, re, shutil, signal, subprocess, sys, time

WORK = "/tmp/mw/screen"
ERR = "/tmp/mw/screen_errors"
SWAPS = [(r"≥", ">"), (r"≥", "<"), (r"≤", "<"), (r"≤", ">"), (r"(?<![<≤←|])<(?![|<$])", "≤"), (r"(?<![=|→-])>(?![>=])", "≥"), (r"≠", "="), (r"(?<=[^:=!<>≠])=(?=[^>=])", "≠"),
         (r"(?<= )\+(?= )", "-"), (r"(?<= )-(?= )", "+"), (r"(?<= )\*(?= )", "+"), (r"(?<= )%(?= )", "/"), (r"(?<= )/(?= )", "%"),
         (r"&&", "||"), (r"\|\|", "&&"), (r"\btrue\b", "false"), (r"\bfalse\b", "true"), (r"\baddW\b", "subW"), (r"\bsubW\b", "addW"),
         (r"\bRight\b", "Left"), (r"\bLeft\b", "Right"), (r"\bUp\b", "Down"), (r"\bDown\b", "Up"), (r"\.right\b", ".down"), (r"\.down\b", ".right"),
         (r"\bFilled\b", "Blocked"), (r"\bBlocked\b", "Filled"), (r"\bnone\b", "some default"), (r"\bwidth\b", "height"), (r"\bheight\b", "width"),
         (r"\bsome\b", "none"), (r"\.l\b", ".r"), (r"\.r\b", ".l"), (r"\.u\b", ".d"), (r"\.d\b", ".u"), (r"\bpanic\b", "ub"), (r"\bx\b", "y"), (r"\by\b", "x"),
         (r"\bwhitePixel\b", "blackPixel"), (r"\bblackPixel\b", "whitePixel")]

def strip(text):
    """The text with comments blanked, same length."""
    out, i, depth = [], 0, 0
    while i < len(text):
        if text.startswith("/-", i):
            depth += 1; out.append("  "); i += 2; continue
        if depth and text.startswith("-/", i):
            depth -= 1; out.append("  "); i += 2; continue
        if not depth and text.startswith("--", i):
            j = text.find("\n", i)
            j = len(text) if j < 0 else j
            out.append(" " * (j - i)); i = j; continue
        out.append(text[i] if not depth or text[i] == "\n" else " "); i += 1
    return "".join(out)

def mutants(text):
    code = strip(text)
    pos = 0
    indef = False
    for ln, line in enumerate(code.split("\n")):
        start = pos
        pos += len(line) + 1
        if re.match(r"^(@\[.*\] *)?(def|partial def|noncomputable def|abbrev)\b", line): indef = True
        elif re.match(r"^(theorem|lemma|structure|inductive|instance|namespace|end|open|variable|example|import|deriving|section|class)\b", line): indef = False
        if not indef or not line.strip(): continue
        body = line
        head = 0
        m = re.match(r"^(def|partial def|noncomputable def|abbrev)\b", line)
        if m:
            k = line.find(":=")
            if k < 0: continue
            head = k + 2
        elif re.match(r"^ +[({].*:", line) and ":=" not in line and "←" not in line: continue
        for m in re.finditer(r"(?<![\w.'₀-₉^])\d+(?![\w.'])", line):
            if m.start() < head: continue
            n = int(m.group())
            if n == 64 and "subW" in line[:m.start()]: continue   # matters only when the difference is negative
            for v in ([32] if n == 64 else [n + 1] + ([n - 1] if n else [])):
                yield ln, start + m.start(), start + m.end(), str(v)
        for pat, new in SWAPS:
            for m in re.finditer(pat, line):
                if m.start() < head: continue
                if line[max(0, m.start() - 1):m.start()] == ":" : continue
                yield ln, start + m.start(), start + m.end(), new
        m = re.match(r"^( +)if (.*?) then", line)
        if m and not re.fullmatch(r"[^∧∨=<>≤≥≠]*[=<>≤≥≠][^∧∨=<>≤≥≠]*", m.group(2)): yield ln, start + m.start(2), start + m.end(2), "¬ (" + m.group(2) + ")"
        if re.match(r"^ +let (\w+|\(.*\)) (←|:=) ", line):
            yield ln, start, start + len(line), ""

def wrapper():
    """A copy of the toolchain whose `lean` also appends its errors to ERR at once (lake shows them when a module is finished)."""
    real = subprocess.run(["lean", "--print-prefix"], capture_output=True, text=True).stdout.strip()
    tc = "/tmp/mw/tc"
    if os.path.exists(tc): shutil.rmtree(tc)
    os.makedirs(tc + "/bin")
    for d in ("", "/bin"):
        for f in os.listdir(real + d):
            if f not in ("bin", "lean") or (d == "" and f == "lean"): os.symlink(f"{real}{d}/{f}", f"{tc}{d}/{f}")
    with open(tc + "/bin/lean", "w") as h:
        h.write(f"""#!/bin/bash
if [ "$1" == "--print-prefix" ]; then echo {tc}; exit; fi
if [[ " $* " == *" --json"* ]]; then
  {real}/bin/lean "$@" | tee >(grep --line-buffered '"severity":"error"' >> {ERR})
  exit ${{PIPESTATUS[0]}}
else exec {real}/bin/lean "$@"; fi
""")
    os.chmod(tc + "/bin/lean", 0o755)
    return tc + "/bin/lean"

def screen(src, files, out, done, todo):
    if os.path.exists(WORK): shutil.rmtree(WORK)
    shutil.copytree(src, WORK, symlinks=True)
    env = dict(os.environ, LAKE_OVERRIDE_LEAN="true", LEAN=wrapper())
    for f, k, ln, a, b, new, old in todo:
        if (f, k) in done: continue
        path = f"{WORK}/Verif/{f}"
        text = open(f"{src}/Verif/{f}").read()
        open(path, "w").write(text[:a] + new + text[b:])
        t0 = time.time()
        open(ERR, "w").close()
        pr = subprocess.Popen(["lake", "build"], cwd=WORK, stdout=subprocess.DEVNULL, stderr=subprocess.DEVNULL, env=env, start_new_session=True)
        status, where = "survived", ""
        while not where:
            rc = pr.poll()
            for line in open(ERR):
                if not line.endswith("\n"): continue
                d = json.loads(line)
                fn = d["fileName"][d["fileName"].index("Verif/"):]
                where = f'{fn}:{d["pos"]["line"]}'
                status = "invalid" if fn.startswith(("Verif/Model", "Verif/Base")) else "killed"
                break
            if rc is not None:
                if rc and not where: status = "error"
                break
            time.sleep(0.2)
        try: os.killpg(pr.pid, signal.SIGKILL)
        except ProcessLookupError: pass
        pr.wait()
        decl = ""
        if where:
            fn, l = where.split(":")
            ls = open(f"{WORK}/{fn}").read().split("\n")
            i = int(l) - 1
            while i >= 0:
                m = re.match(r"^(?:@\[.*\] *)?(?:private |protected )*(?:theorem|lemma|example|def|instance)\b *(\S*)", ls[i])
                if m: decl = m.group(1); break
                i -= 1
        r = {"file": f, "line": ln + 1, "old": old, "new": new, "col": a - (text.rfind("\n", 0, a) + 1), "k": k, "status": status, "where": where, "decl": decl, "secs": round(time.time() - t0)}
        with open(out, "a") as h: h.write(json.dumps(r, ensure_ascii=False) + "\n")
        open(path, "w").write(text)
        # back to the built state
        for d, _, fs in os.walk(f"{WORK}/.lake/build"):
            for x in fs:
                w = os.path.join(d, x)
                if not os.path.exists(src + w[len(WORK):]): os.remove(w)
        for d, _, fs in os.walk(f"{src}/.lake/build"):
            for x in fs:
                o = os.path.join(d, x)
                w = WORK + o[len(src):]
                if not os.path.exists(w) or os.stat(w).st_mtime_ns != os.stat(o).st_mtime_ns: shutil.copy2(o, w)

if __name__ == "__main__":
    src, out = sys.argv[1], sys.argv[2]
    files = sorted("Model/" + f for f in os.listdir(f"{src}/Verif/Model"))
    if "--only" in sys.argv: files = sys.argv[sys.argv.index("--only") + 1].split(",")
    todo = []
    for f in files:
        text = open(f"{src}/Verif/{f}").read()
        seen = set()
        for k, (ln, a, b, new) in enumerate(mutants(text)):
            if (a, b, new) in seen: continue
            seen.add((a, b, new))
            todo.append((f, k, ln, a, b, new, text[a:b]))
    if "--list" in sys.argv:
        for t in todo: print(t[0], t[2] + 1, repr(t[6]), "->", repr(t[5]))
        print(len(todo)); sys.exit()
    random.Random(1).shuffle(todo)
    done = set()
    if "--resume" in sys.argv and os.path.exists(out):
        done = {(d["file"], d["k"]) for d in map(json.loads, open(out))}
    screen(src, files, out, done, todo)
