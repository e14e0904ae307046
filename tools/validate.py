#!/usr/bin/env python3
"""Run the models on the repository's own unit tests and compare with the recorded results, images included.

This is a test of the models, not a proof. The inputs and the expected results are read from the text of /repo (nothing
there is run); the models are run by Lean's interpreter. For speed the two function-valued stores (`Heap.mem`, `Img.px`)
are replaced by tables in a temporary copy; everything else is the text of lean/Verif/Model. Letters and digits are not
modelled: around each call of the text routine the images are not compared, but something must have been drawn there.

usage: validate.py [REPO]      (needs a built /verif/lean)
"""
import os, re, struct, subprocess, sys, tempfile, zlib

REPO = sys.argv[1] if len(sys.argv) > 1 else "/repo"
LEAN = os.path.join(os.path.dirname(os.path.abspath(__file__)), "..", "lean")

# --- the models with tables --------------------------------------------------------------------------------------
def sub(text, old, new):
    assert old in text, old
    return text.replace(old, new)

def models():
    src = {n: open(os.path.join(LEAN, "Verif", f)).read() for n, f in
           [("base", "Base.lean"), ("dl", "Model/DancingLinks.lean"), ("ds", "Model/DisjointSet.lean"),
            ("img", "Model/Image.lean"), ("sud", "Model/Sudoku.lean"), ("mz", "Model/Maze.lean"),
            ("ng", "Model/Nonogram.lean"), ("np", "Model/NonogramPrint.lean")]}
    d = src["dl"]
    d = sub(d, "  mem : Nat → Cell\n", "  tab : Std.HashMap Nat Cell\n")
    d = sub(d, "{ mem := fun _ => .unalloc, next := 1 }", "{ tab := {}, next := 1 }")
    d = sub(d, "{ h with mem := fun q => if q = p then c else h.mem q }", "{ h with tab := h.tab.insert p c }")
    d = sub(d, "{ mem := fun q => if q = h.next then .uninit else h.mem q, next := h.next + 1 }",
            "{ tab := h.tab.insert h.next .uninit, next := h.next + 1 }")
    d = sub(d, "h.mem p", "h.tab.getD p .unalloc")
    src["dl"] = d
    i = src["img"]
    i = sub(i, "  px : Nat → Nat → Rgb\n", "  tab : Std.HashMap Nat Rgb\n  bg : Rgb\n")
    i = sub(i, ".ok ⟨w, h, fun _ _ => c⟩", ".ok ⟨w, h, {}, c⟩")
    i = sub(i, "{ img with px := fun a b => if a = x ∧ b = y then c else img.px a b }",
            "{ img with tab := img.tab.insert (y * img.width + x) c }")
    src["img"] = i
    body = "\n".join(re.sub(r"(?m)^import .*\n", "", src[k]) for k in ["base", "dl", "ds", "img", "sud", "mz", "ng", "np"])
    return "import Std.Data.HashMap\n" + body

# --- the unit tests, from the text -------------------------------------------------------------------------------
def vec(s): return eval(s.replace("vec!", "").replace("true", "True").replace("false", "False"))

def sudoku_tests():
    t = open(os.path.join(REPO, "src/puzzles/sudoku/mod.rs")).read()
    strings = dict(re.findall(r'const (\w+)_STRING: &str =\s*"(\d+)"', t))
    arrays = {a: vec(b) for a, b in re.findall(r"const (\w+): \[u8; 81\] = (\[[^\]]*\]);", t)}
    assert len(strings) == 6
    return {n: (s, arrays[n + "_UNSOLVED"], arrays.get(n + "_SOLVED")) for n, s in strings.items()}

def nonogram_tests():
    t = open(os.path.join(REPO, "src/puzzles/nonogram/mod.rs")).read()
    out = {}
    for name in ["two_two", "two_three", "five_five", "large"]:
        def fn(x):
            m = re.search(r"fn %s_%s\(\) -> Vec<.*?> \{\s*(vec!\[.*?\])\s*\}" % (name, x), t, re.S)
            if m is None:                                        # `large` derives these two from right_left
                r = fn("right_left")
                assert x in ("backtracked", "solved")
                return r if x == "backtracked" else [q == "Filled" for q in r]
            return vec(re.sub(r"Square::(\w+)", r"'\1'", m.group(1)))
        def const(x):
            m = re.search(r"const %s_%s: [&\w]+ =\s*\"?(.*?)\"?;\n" % (name.upper(), x), t, re.S)
            return re.sub(r"\\\n\s*", "", m.group(1))
        out[name] = dict(w=int(const("WIDTH")), h=int(const("HEIGHT")), cs=const("COL_STRING"), rs=const("ROW_STRING"),
                         col=fn("col"), row=fn("row"), rl=fn("right_left"), bt=fn("backtracked"), solved=fn("solved"))
    return out

# --- png ------------------------------------------------------------------------------------------------------------
def png(path):
    b = open(path, "rb").read()
    assert b[:8] == b"\x89PNG\r\n\x1a\n"
    i, idat = 8, b""
    while i < len(b):
        n, = struct.unpack(">I", b[i:i + 4]); k = b[i + 4:i + 8]; d = b[i + 8:i + 8 + n]; i += 12 + n
        if k == b"IHDR": w, h, depth, colour, _, _, inter = struct.unpack(">IIBBBBB", d)
        if k == b"IDAT": idat += d
    assert depth == 8 and colour == 2 and inter == 0
    raw, st, prev, rows = zlib.decompress(idat), 3 * w, bytearray(3 * w), []
    for y in range(h):
        f, line = raw[y * (st + 1)], bytearray(raw[y * (st + 1) + 1:(y + 1) * (st + 1)])
        for x in range(st):
            a = line[x - 3] if x >= 3 else 0
            u = prev[x]; c = prev[x - 3] if x >= 3 else 0
            if f == 1: p = a
            elif f == 2: p = u
            elif f == 3: p = (a + u) // 2
            elif f == 4:
                q = a + u - c; pa, pb, pc = abs(q - a), abs(q - u), abs(q - c)
                p = a if pa <= pb and pa <= pc else (u if pb <= pc else c)
            else: p = 0
            line[x] = (line[x] + p) & 255
        rows.append(bytes(line)); prev = line
    return w, h, rows

# --- running --------------------------------------------------------------------------------------------------------
DRIVER = '''
/-- No text is drawn; a call is recorded outside the image. -/
def noText : TextFn where
  draw := fun i _ x y s t =>
    let key := i.width * i.height + i.tab.size * 100000000 + x * 10000 + y
    { i with tab := i.tab.insert key (Rgb.mk (UInt8.ofNat s) (UInt8.ofNat t.length) 0) }
  width := fun _ _ _ _ _ _ => rfl
  height := fun _ _ _ _ _ _ => rfl

def dump (i : Img) : String := Id.run do
  let n := i.width * i.height
  let mut out := s!"{i.width} {i.height} {i.bg.r},{i.bg.g},{i.bg.b}"
  for (k, c) in i.tab.toList do
    if k < n then out := out ++ s!" {k}:{c.r},{c.g},{c.b}"
    else out := out ++ s!" T{(k - n) % 100000000 / 10000},{(k - n) % 10000},{c.r},{c.g}"
  return out

def shw {α : Type} (f : α → String) : Prog α → String
  | .ok a => f a
  | .panic => "panic"
  | .ub => "ub"
  | .diverge => "diverge"

def exc {ε α : Type} (f : α → String) : Except ε α → String
  | .ok a => f a
  | .error _ => "Err"

def image {ε : Type} (p : Prog (Except ε Img)) : String := shw (exc dump) p
'''

def run(lines):
    with tempfile.TemporaryDirectory() as d:
        f = os.path.join(d, "Run.lean")
        open(f, "w").write(models() + DRIVER + "\ndef main : IO Unit := do\n" +
                           "".join("  IO.println (%s)\n" % l for l in lines))
        r = subprocess.run(["lake", "env", "lean", "--run", f], cwd=LEAN, capture_output=True, text=True)
        assert r.returncode == 0, r.stdout[-2000:] + r.stderr[-2000:]
        out = r.stdout.split("\n")[:-1]
        assert len(out) == len(lines), (len(out), len(lines))
        return out

bad = 0
def check(name, ok, extra=""):
    global bad
    bad += not ok
    print(("ok   " if ok else "FAIL ") + name, extra)

def compare(name, line, path):
    w, h, rows = png(path)
    t = line.split(" ")
    if (t[0], t[1]) != (str(w), str(h)): return check(name, False, "size %s, file %dx%d" % (t[:2], w, h))
    bg = tuple(map(int, t[2].split(",")))
    px, texts = {}, []
    for e in t[3:]:
        if e[0] == "T": texts.append(tuple(map(int, e[1:].split(","))))
        else:
            k, c = e.split(":"); px[int(k)] = tuple(map(int, c.split(",")))
    skip = set()
    for x, y, s, n in texts:
        box = [(u, v) for u in range(x, min(w, x + n * s * 3 // 5 + 2)) for v in range(y, min(h, y + s + 1))]
        if not any(rows[v][3 * u] < 128 for u, v in box): return check(name, False, "no text at %d,%d" % (x, y))
        skip.update(v * w + u for u, v in box)
    wrong = [(k % w, k // w) for k in range(w * h) if k not in skip
             and tuple(rows[k // w][3 * (k % w):3 * (k % w) + 3]) != px.get(k, bg)]
    check(name, not wrong, "%d of %d pixels compared, %d texts%s" %
          (w * h - len(skip), w * h, len(texts), "" if not wrong else ", wrong: %s" % wrong[:5]))

lst = lambda v: "[" + ", ".join(lst(x) if isinstance(x, list) else str(x).lower() for x in v) + "]"
S, N = sudoku_tests(), nonogram_tests()
jobs = []                                                    # (lean expression, what to do with the line it prints)
def eq(name, expected): return lambda l: check(name, l == expected, "" if l == expected else "%r, expected %r" % (l[:200], expected[:200]))
for n, (s, u, v) in S.items():
    low = n.lower()
    jobs += [('exc (fun v => toString v) (Sudoku.parseSudoku "%s")' % s, eq("parse_" + low, lst(u)))]
    for kind, g in [("unsolved", u), ("solved", v)]:
        if g: jobs += [("image (Sudoku.printSudoku true noText %s)" % lst(g),
                 lambda l, kind=kind, low=low: compare("print_%s (%s)" % (low, kind), l,
                    os.path.join(REPO, "tests/sudoku", kind, low + ".png")))]
    jobs += [("shw (fun r => exc (fun v => toString v) r.1) (Sudoku.solveSudoku %s)" % lst(u),
              eq("solve_" + low, lst(v) if v else "Err"))]
sq = lambda v: lst([".%s" % x.lower() for x in v])
for n, t in N.items():
    for what, st, val, bound in [("col", t["cs"], t["col"], t["h"]), ("row", t["rs"], t["row"], t["w"])]:
        jobs += [('shw (exc fun v => toString v) (Nonogram.parseNonogramRules true "%s".toList %d)' % (st, bound),
                  eq("parse_%s (%s)" % (n, what), lst(val)))]
    names = "fun q => match q with | .Filled => \"Filled\" | .Blocked => \"Blocked\" | .Blank => \"Blank\""
    jobs += [('shw (exc fun (v : List Nonogram.Square) => toString (v.map (%s))) (Nonogram.rightLeft true '
              '(List.replicate %d .Blank) %s %s)' % (names, t["w"] * t["h"], lst(t["col"]), lst(t["row"])),
              eq("right_left_" + n, "[" + ", ".join(t["rl"]) + "]"))]
    jobs += [("toString ((Nonogram.recursiveBacktrack %s %s %s).map (%s))" %
              ("[" + ", ".join("." + x for x in t["rl"]) + "]", lst(t["col"]), lst(t["row"]), names),
              eq("recursive_backtrack_" + n, "[" + ", ".join(t["bt"]) + "]"))]
    jobs += [("shw (exc fun v => toString v) (Nonogram.solveNonogram true %s %s)" % (lst(t["col"]), lst(t["row"])),
              eq("solve_" + n, lst(t["solved"])))]
    pr = "Nonogram.printNonogram true noText %d %d %s %s" % (t["w"], t["h"], lst(t["col"]), lst(t["row"]))
    jobs += [("image (%s)" % pr, lambda l, n=n: compare("print_%s (unsolved)" % n, l,
               os.path.join(REPO, "tests/nonogram/unsolved", n + ".png")))]
    jobs += [("image (do match ← %s with | .ok i => Nonogram.printNonogramSolution true %d %d i %s | .error e => pure (.error e))"
              % (pr, t["w"], t["h"], lst(t["solved"])), lambda l, n=n: compare("print_%s (solved)" % n, l,
               os.path.join(REPO, "tests/nonogram/solved", n + ".png")))]
K = "[[0, 1], [4, 5], [3, 4], [0, 1, 2], [2, 3], [3, 4], [0, 2, 4, 5]]"
SV = "exc (fun v => toString (v.mergeSort (· ≤ ·))) (← m.solve h).1"
new = "let (m, h) ← DancingLinks.Matrix.new DancingLinks.Heap.empty "
jobs += [("shw id (do %s[]; return %s)" % (new, SV), eq("miri_empty", "[]")),
         ("shw id (do %s%s; return %s)" % (new, K, SV), eq("miri_basic", "[1, 3, 5]")),
         ("shw id (do %s%s; let (_, m, h) ← DancingLinks.addSolution m h 1; return toString (repr (← DancingLinks.addSolution m h 0).1))"
          % (new, K), lambda l: check("miri_remove_empty_row", "invalidRow" in l, l)),
         ("shw id (do %s%s; let (_, m, h) ← DancingLinks.addSolution m h 3; return %s)" % (new, K, SV),
          eq("miri_add_solution", "[1, 3, 5]"))]
# disjoint_set.rs:88-209 and util.rs:17-31, transcribed by hand
es = "(s.map fun e => (e.root, e.value))"
def dsu(n, ops, res): return "shw id (do let s ← DisjointSet.withSize %d; %sreturn toString %s)" % (
    n, "".join("let (_, s) ← DisjointSet.%s; " % o for o in ops), res)
U = lambda *ps: ["union s %d %d" % p for p in ps]
jobs += [(dsu(10, [], es), eq("with_size", "[" + ", ".join(["(true, 1)"] * 10) + "]")),
         ("toString ((DisjointSet.add DisjointSet.new).map fun e => (e.root, e.value))", eq("add", "[(true, 1)]")),
         (dsu(2, U((0, 1)), es), eq("union", "[(true, 2), (false, 0)]")),
         (dsu(5, U((0, 1), (2, 1)), "((s.map fun e => (e.root, e.value)).take 3)"),
          lambda l: check("union_by_size (1)", l == "[(true, 3), (false, 0), (false, 0)]", l)),
         (dsu(5, U((0, 1), (2, 1), (3, 4), (4, 2)), es),
          eq("union_by_size (2)", "[(true, 5), (false, 0), (false, 0), (false, 0), (false, 3)]")),
         (dsu(5, U((0, 1), (2, 1), (3, 4), (4, 2)) + ["find s 4"], es),
          eq("find_path_compression", "[(true, 5), (false, 0), (false, 0), (false, 0), (false, 0)]"))]
grp = U((0, 1), (1, 2), (2, 3), (4, 5), (5, 6))
for i in range(9):
    exp = "none" if i == 8 else "(some %d)" % (0 if i < 4 else 4 if i < 7 else 7)
    jobs += [(dsu(8, grp, "(← DisjointSet.find s %d).1" % i), eq("find %d" % i, exp))]
    for j in range(9):
        same = i == j or i < 4 and j < 4 or 4 <= i < 7 and 4 <= j < 7
        exp = "none" if 8 in (i, j) else "(some %s)" % str(same).lower()
        jobs += [(dsu(8, grp, "(← DisjointSet.commonSet s %d %d).1" % (i, j)), eq("common_set %d %d" % (i, j), exp))]
for d in range(7):
    jobs += [("shw (fun r => toString (r.1.isSome && !r.2.contains (r.1.getD 0) && r.2.length == 4)) "
              "(Maze.chooseRandom %d [1, 2, 3, 4, 5])" % d, eq("removes_element_from_vec, draw %d" % d, "true"))]
jobs += [("shw (fun r => toString r.1.isNone) (Maze.chooseRandom 3 ([] : List Nat))", eq("returns_none_if_empty", "true"))]
for line, (_, f) in zip(run([j[0] for j in jobs]), jobs): f(line)
print("%d comparisons, %d failed" % (len(jobs), bad))
sys.exit(bad > 0)
