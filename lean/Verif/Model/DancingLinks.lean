import Verif.Base

/-!
Pointer-level model of /repo/src/structures/dancing_links/{node,mod}.rs.

Memory is an explicit heap. Pointers are `Nat`, `0` is the null pointer. Every `(*p).field` of the Rust
code is a checked access: reading or writing a cell that is not live yields `Prog.ub`, freeing a cell that
is not allocated yields `Prog.ub`.

Simplifications:
* the allocator hands out fresh addresses 1, 2, 3, ... and never reuses one. The Rust code performs all its
  allocations in `DancingMatrix::new`, before the first deallocation, so no reuse can happen within one
  matrix. Allocation failure (null from `alloc`) is not modelled.
* the vector `rows` grows without limit; `Model/DancingLimit.lean` has the limit (C128).
* `usize` counters are `Nat`; the decrement of node.rs:127 is checked (`panic` on underflow). `Model/DancingWrap.lean` has the
  arithmetic of the two builds, which is the same as long as no constraint repeats a row (C131).
-/
namespace DancingLinks

/-- node.rs:6-13 `struct Node`. `header`, `left`, `right`, `up`, `down` are pointers. -/
structure Node where
  header : Nat
  left : Nat
  right : Nat
  up : Nat
  down : Nat
  row : Nat
  deriving DecidableEq, Repr, Inhabited

/-- State of one memory cell (one `Node`-sized allocation). -/
inductive Cell where
  | unalloc
  | uninit
  | live (n : Node)
  | freed
  deriving DecidableEq, Repr, Inhabited

/-- The heap: cell contents and the next fresh address. -/
structure Heap where
  mem : Nat → Cell
  next : Nat

/-- Heap before anything is allocated; address 0 is null and is never handed out. -/
def Heap.empty : Heap := { mem := fun _ => .unalloc, next := 1 }

/-- Overwrite one cell. -/
def Heap.put (h : Heap) (p : Nat) (c : Cell) : Heap :=
  { h with mem := fun q => if q = p then c else h.mem q }

/-- `alloc(NODE_LAYOUT)` (node.rs:29, 68): fresh uninitialised cell. -/
def Heap.alloc (h : Heap) : Nat × Heap :=
  (h.next, { mem := fun q => if q = h.next then .uninit else h.mem q, next := h.next + 1 })

/-- `dealloc(p, NODE_LAYOUT)` (node.rs:160, 163, 166; mod.rs:140). -/
def Heap.dealloc (h : Heap) (p : Nat) : Prog Heap :=
  match h.mem p with
  | .uninit => .ok (h.put p .freed)
  | .live _ => .ok (h.put p .freed)
  | _ => .ub

/-- Read `*p`. -/
def Heap.read (h : Heap) (p : Nat) : Prog Node :=
  match h.mem p with
  | .live n => .ok n
  | _ => .ub

/-- Whole-node write `*p = n` (node.rs:59, 88). -/
def Heap.write (h : Heap) (p : Nat) (n : Node) : Prog Heap :=
  match h.mem p with
  | .uninit => .ok (h.put p (.live n))
  | .live _ => .ok (h.put p (.live n))
  | _ => .ub

/-- `(*p).left = v` -/
def Heap.setLeft (h : Heap) (p v : Nat) : Prog Heap := do
  let n ← h.read p
  h.write p { n with left := v }
/-- `(*p).right = v` -/
def Heap.setRight (h : Heap) (p v : Nat) : Prog Heap := do
  let n ← h.read p
  h.write p { n with right := v }
/-- `(*p).up = v` -/
def Heap.setUp (h : Heap) (p v : Nat) : Prog Heap := do
  let n ← h.read p
  h.write p { n with up := v }
/-- `(*p).down = v` -/
def Heap.setDown (h : Heap) (p v : Nat) : Prog Heap := do
  let n ← h.read p
  h.write p { n with down := v }
/-- `(*p).row = v` -/
def Heap.setRow (h : Heap) (p v : Nat) : Prog Heap := do
  let n ← h.read p
  h.write p { n with row := v }

/-! ### node.rs -/

/-- node.rs:23-62 `Node::new`. -/
def Node.new (h : Heap) (header rowPrevious colPrevious row : Nat) : Prog (Nat × Heap) := do
  let (ptr, h) := h.alloc                                             -- 29
  let node : Node := { header, left := ptr, right := ptr, up := ptr, down := ptr, row }  -- 30-37
  let (node, h) ← if rowPrevious ≠ 0 then do                          -- 39
      let rp ← h.read rowPrevious
      let node := { node with left := rowPrevious, right := rp.right }  -- 40-41
      let rp ← h.read rowPrevious
      let h ← h.setLeft rp.right ptr                                  -- 44
      let h ← h.setRight rowPrevious ptr                              -- 45
      pure (node, h)
    else pure (node, h)
  let (node, h) ← if colPrevious ≠ 0 then do                          -- 49
      let cp ← h.read colPrevious
      let node := { node with up := colPrevious, down := cp.down }    -- 50-51
      let cp ← h.read colPrevious
      let h ← h.setUp cp.down ptr                                     -- 54
      let h ← h.setDown colPrevious ptr                               -- 55
      pure (node, h)
    else pure (node, h)
  let h ← h.write ptr node                                            -- 59
  return (ptr, h)

/-- node.rs:67-91 `Node::new_header`. -/
def Node.newHeader (h : Heap) (previous numRows : Nat) : Prog (Nat × Heap) := do
  let (ptr, h) := h.alloc                                             -- 68
  let node : Node := { header := 0, left := ptr, right := ptr, up := ptr, down := ptr, row := numRows }
  let (node, h) ← if previous ≠ 0 then do                             -- 78
      let pv ← h.read previous
      let node := { node with left := previous, right := pv.right }   -- 79-80
      let pv ← h.read previous
      let h ← h.setLeft pv.right ptr                                  -- 83
      let h ← h.setRight previous ptr                                 -- 84
      pure (node, h)
    else pure (node, h)
  let h ← h.write ptr node                                            -- 88
  return (ptr, h)

/-- The four link directions of the `node_iterator!` macro (node.rs:260-263). -/
inductive Dir where
  | left | right | up | down
  deriving DecidableEq, Repr

/-- `(*node).$direction` -/
def Node.get (n : Node) : Dir → Nat
  | .left => n.left
  | .right => n.right
  | .up => n.up
  | .down => n.down

/-- node.rs:220-223: iterator state. -/
structure Iter where
  original : Nat
  current : Nat

/-- node.rs:228-243 `Iterator::next`: reads the link of the node being yielded *before* it is yielded. -/
def Iter.next (d : Dir) (h : Heap) (it : Iter) : Prog (Option Nat × Iter) := do
  if it.current = 0 then                                              -- 229
    return (none, it)
  let node := it.current
  let n ← h.read node                                                 -- 234
  let next := n.get d
  let it := { it with current := if next = it.original then 0 else next }  -- 236-240
  return (some node, it)

/-- node.rs:250-255 `iter_left` / `iter_right` / `iter_up` / `iter_down`. -/
def iter (node : Nat) : Iter := { original := node, current := node }

/-- `.skip(1)`: the first item is produced and dropped. (`Skip` does this on its first `next`; no other code
runs between creating the iterator and its first `next` in the modelled loops.) -/
def iterSkip1 (d : Dir) (h : Heap) (node : Nat) : Prog Iter := do
  let (_, it) ← (iter node).next d h
  return it

/-- `for x in it { body }`, lazily advancing the iterator over the *current* heap. The loop state `σ`
carries the heap (`hp`). -/
def forIter {σ : Type} (hp : σ → Heap) (d : Dir) (it : Iter) (s : σ) (body : σ → Nat → Prog σ) : Prog σ := do
  let (x, it) ← it.next d (hp s)
  match x with
  | none => return s
  | some p =>
    let s ← body s p
    forIter hp d it s body
partial_fixpoint

/-- `for x in iter_<d>(node) { body }` over the heap only. -/
def forAll (d : Dir) (h : Heap) (node : Nat) (body : Heap → Nat → Prog Heap) : Prog Heap :=
  forIter id d (iter node) h body

/-- `for x in iter_<d>(node).skip(1) { body }` over the heap only. -/
def forSkip1 (d : Dir) (h : Heap) (node : Nat) (body : Heap → Nat → Prog Heap) : Prog Heap := do
  let it ← iterSkip1 d h node
  forIter id d it h body

/-- node.rs:172-179 `cover_horizontal`. -/
def coverHorizontal (h : Heap) (node : Nat) : Prog Heap := do
  let n ← h.read node
  let h ← h.setRight n.left n.right
  h.setLeft n.right n.left

/-- node.rs:184-191 `cover_vertical`. -/
def coverVertical (h : Heap) (node : Nat) : Prog Heap := do
  let n ← h.read node
  let h ← h.setDown n.up n.down
  h.setUp n.down n.up

/-- node.rs:196-203 `uncover_horizontal`. -/
def uncoverHorizontal (h : Heap) (node : Nat) : Prog Heap := do
  let n ← h.read node
  let h ← h.setRight n.left node
  h.setLeft n.right node

/-- node.rs:208-215 `uncover_vertical`. -/
def uncoverVertical (h : Heap) (node : Nat) : Prog Heap := do
  let n ← h.read node
  let h ← h.setDown n.up node
  h.setUp n.down node

/-- node.rs:118-120, 136-138, 154-156: go from a node to its column header. -/
def toHeader (h : Heap) (node : Nat) : Prog Nat := do
  let n ← h.read node
  if n.header ≠ 0 then
    let n ← h.read node
    return n.header
  return node

/-- node.rs:126-127: body of the inner loop of `cover_column`. -/
def coverCell (h : Heap) (col : Nat) : Prog Heap := do
  let h ← coverVertical h col                                         -- 126
  let n ← h.read col                                                  -- 127
  let hd ← h.read n.header
  if hd.row = 0 then .panic                                           -- usize underflow
  else h.setRow n.header (hd.row - 1)

/-- node.rs:117-130 `cover_column`. -/
def coverColumn (h : Heap) (node : Nat) : Prog Heap := do
  let node ← toHeader h node                                          -- 118-120
  let h ← coverHorizontal h node                                      -- 122
  forSkip1 .down h node fun h row =>                                  -- 124
    forSkip1 .right h row coverCell                                   -- 125-128

/-- node.rs:142-143: body of the inner loop of `uncover_column`. -/
def uncoverCell (h : Heap) (col : Nat) : Prog Heap := do
  let n ← h.read col                                                  -- 142
  let hd ← h.read n.header
  let h ← h.setRow n.header (hd.row + 1)
  uncoverVertical h col                                               -- 143

/-- node.rs:135-148 `uncover_column`. -/
def uncoverColumn (h : Heap) (node : Nat) : Prog Heap := do
  let node ← toHeader h node                                          -- 136-138
  let h ← forSkip1 .up h node fun h row =>                            -- 140
    forSkip1 .left h row uncoverCell                                  -- 141-144
  uncoverHorizontal h node                                            -- 147

/-- node.rs:159-163: free all other nodes of a row, then the row's node in this column. -/
def freeRow (h : Heap) (row : Nat) : Prog Heap := do
  let h ← forSkip1 .right h row fun h col => h.dealloc col            -- 159-161
  h.dealloc row                                                       -- 163

/-- node.rs:153-167 `free_chain`. -/
def freeChain (h : Heap) (node : Nat) : Prog Heap := do
  let node ← toHeader h node                                          -- 154-156
  let h ← forSkip1 .down h node freeRow                               -- 158-164
  h.dealloc node                                                      -- 166

/-! ### mod.rs -/

/-- mod.rs:9-16 `enum DancingLinksError`. -/
inductive DLError where
  | indexError
  | invalidRow
  | noSolution
  deriving DecidableEq, Repr

/-- mod.rs:18-22 `struct DancingMatrix`. -/
structure Matrix where
  root : Nat
  rows : List Nat
  partialSolution : List Nat
  deriving DecidableEq, Repr

/-- mod.rs:36-45: one iteration of the inner loop of `new`; state is (heap, rows, col_curr). -/
def newCell (header : Nat) (s : Heap × List Nat × Nat) (index : Nat) : Prog (Heap × List Nat × Nat) := do
  let (h, rows, colCurr) := s
  let rows := if index ≥ rows.length then                              -- 37-39 `resize(index + 1, null)`
      rows ++ List.replicate (index + 1 - rows.length) 0 else rows
  let rp ← getP rows index
  let (new, h) ← Node.new h header rp colCurr index                    -- 41
  let rows ← setP rows index new                                       -- 43
  return (h, rows, new)                                                -- 44

/-- mod.rs:32-48: one iteration of the outer loop of `new`; state is (heap, rows, curr). -/
def newColumn (s : Heap × List Nat × Nat) (constraint : List Nat) : Prog (Heap × List Nat × Nat) := do
  let (h, rows, curr) := s
  let (new, h) ← Node.newHeader h curr constraint.length               -- 33
  let (h, rows, _) ← forIn' constraint (h, rows, new) (newCell new)    -- 35-45
  return (h, rows, new)                                                -- 47

/-- mod.rs:25-55 `DancingMatrix::new`. The iterator of iterators is a list of lists. -/
def Matrix.new (h : Heap) (constraints : List (List Nat)) : Prog (Matrix × Heap) := do
  let (root, h) ← Node.newHeader h 0 0                                 -- 30
  let (h, rows, _) ← forIn' constraints (h, [], root) newColumn        -- 31-48
  return ({ root, rows, partialSolution := [] }, h)                    -- 50-54

/-- mod.rs:70: `self.rows[Node::row(node)] = null_mut()`; state is (heap, rows). -/
def nullRow (s : Heap × List Nat) (node : Nat) : Prog (Heap × List Nat) := do
  let n ← s.1.read node
  let rows ← setP s.2 n.row 0
  return (s.1, rows)

/-- mod.rs:57-83 `add_solution`. -/
def addSolution (m : Matrix) (h : Heap) (row : Nat) : Prog (Except DLError Unit × Matrix × Heap) := do
  if row ≥ m.rows.length then                                          -- 58-60
    return (.error .indexError, m, h)
  let m := { m with partialSolution := m.partialSolution ++ [row] }    -- 62
  let row ← getP m.rows row                                            -- 63
  if row = 0 then                                                      -- 65-67
    return (.error .invalidRow, m, h)
  let n ← h.read row                                                   -- 69 `Node::header(row)`
  let it ← iterSkip1 .down h n.header
  let s ← forIter Prod.fst .down it (h, m.rows) nullRow                -- 69-71
  let m := { m with rows := s.2 }
  let h ← forAll .right h row coverColumn                              -- 73-75
  let h ← forSkip1 .right h row freeChain                              -- 77-79
  let h ← freeChain h row                                              -- 80
  return (.ok (), m, h)                                                -- 82

/-- mod.rs:131-133 `is_empty`. -/
def isEmpty (h : Heap) (root : Nat) : Prog Bool := do
  let n ← h.read root
  return n.right = root

/-- mod.rs:100: one step of `min_by`, which keeps the first of several minima. -/
def pickMin (s : Heap × Option Nat) (p : Nat) : Prog (Heap × Option Nat) :=
  match s.2 with
  | none => pure (s.1, some p)
  | some b => do
    let nb ← s.1.read b
    let np ← s.1.read p
    if nb.row ≤ np.row then pure (s.1, some b) else pure (s.1, some p)

/-- mod.rs:98-101: `iter_right(root).skip(1).min_by(..).expect(..)`. -/
def chooseColumn (h : Heap) (root : Nat) : Prog Nat := do
  let it ← iterSkip1 .right h root
  let s ← forIter Prod.fst .right it (h, none) pickMin
  expectP s.2

mutual
/-- mod.rs:93-129 `solve_helper`; returns (found, heap, partial_solution). -/
def solveHelper (root : Nat) (h : Heap) (ps : List Nat) : Prog (Bool × Heap × List Nat) := do
  if ← isEmpty h root then                                             -- 94-96
    return (true, h, ps)
  let constraint ← chooseColumn h root                                 -- 98-101
  let h ← coverColumn h constraint                                     -- 103
  let it ← iterSkip1 .down h constraint                                -- 104
  solveRows root constraint it h ps
partial_fixpoint
/-- mod.rs:104-128: the `for row in ..` loop of `solve_helper` and the code after it. -/
def solveRows (root constraint : Nat) (it : Iter) (h : Heap) (ps : List Nat) :
    Prog (Bool × Heap × List Nat) := do
  let (x, it) ← it.next .down h
  match x with
  | none =>
    let h ← uncoverColumn h constraint                                 -- 126
    return (false, h, ps)                                              -- 128
  | some row =>
    let n ← h.read row
    let ps := ps ++ [n.row]                                            -- 105
    let h ← forSkip1 .right h row coverColumn                          -- 107-109
    let (found, h, ps) ← solveHelper root h ps                         -- 111
    if found then
      let h ← forSkip1 .right h row freeChain                          -- 112-114
      let h ← freeChain h constraint                                   -- 115
      return (true, h, ps)                                             -- 117
    let h ← forSkip1 .left h row uncoverColumn                         -- 120-122
    let ps := ps.dropLast                                              -- 124 `pop`
    solveRows root constraint it h ps
partial_fixpoint
end

/-- mod.rs:136-144 `Drop::drop`. -/
def Matrix.drop (m : Matrix) (h : Heap) : Prog Heap :=
  forAll .right h m.root fun h header =>
    forAll .down h header fun h node => h.dealloc node

/-- mod.rs:85-91 `solve(mut self)`; `self` is dropped on return. -/
def Matrix.solve (m : Matrix) (h : Heap) : Prog (Except DLError (List Nat) × Heap) := do
  let (found, h, ps) ← solveHelper m.root h m.partialSolution
  let h ← m.drop h
  if found then return (.ok ps, h)
  else return (.error .noSolution, h)

end DancingLinks
