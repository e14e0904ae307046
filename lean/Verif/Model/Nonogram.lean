import Verif.Model.Image

/-!
Model of `src/puzzles/nonogram/mod.rs` and `src/puzzles/nonogram/right_left.rs`.

Simplifications: `Vec` growth is only checked against the allocation limit where a vector of requested size is
built; iterators over `&mut Square` are lists of squares (line step) or of positions (propagation); loops that
consume one iterator item per round are recursion on the list of remaining items.
-/
namespace Nonogram

/-- mod.rs:20-32 `NonogramError`. -/
inductive NonogramError
  | EmptyPuzzle
  | InvalidRule (field : List Char)
  | InvalidRuleDimension
  | NoSolution
  | InvalidDimensions
  deriving DecidableEq

/-- mod.rs:64-69 `Square`. -/
inductive Square
  | Blank
  | Filled
  | Blocked
  deriving DecidableEq, Repr

/-! ### Parsing -/

/-- `str::split(sep)`: the pieces between separators; always at least one. -/
def splitOn (sep : Char) : List Char → List (List Char)
  | [] => [[]]
  | c :: cs =>
    if c = sep then [] :: splitOn sep cs
    else
      match splitOn sep cs with
      | [] => [[c]]
      | p :: ps => (c :: p) :: ps

/-- The digits of `usize::from_str`, most significant first: `checked_mul(10)`, then `checked_add`. -/
def parseDigits : Nat → List Char → Option Nat
  | acc, [] => some acc
  | acc, c :: cs =>
    if 48 ≤ c.toNat ∧ c.toNat ≤ 57 then
      if acc * 10 < 2 ^ 64 then
        if acc * 10 + (c.toNat - 48) < 2 ^ 64 then parseDigits (acc * 10 + (c.toNat - 48)) cs else none
      else none
    else none

/-- `usize::from_str` (core::num): empty input and a lone sign are errors, one leading `+` is skipped. -/
def parseUsize : List Char → Option Nat
  | [] => none
  | ['+'] => none
  | '+' :: cs => parseDigits 0 cs
  | cs => parseDigits 0 cs

/-- mod.rs:41-51: the closure over the fields of one rule and its `collect`, with `size` threaded through. -/
def parseFields (oc : Bool) : Nat → List (List Char) → Prog (Except NonogramError (List Nat × Nat))
  | size, [] => .ok (.ok ([], size))
  | size, x :: xs =>
    match parseUsize x with
    | none => .ok (.error (.InvalidRule x))                           -- 43-45
    | some value => do
      let size ← addW oc 64 size value                                -- 47
      match ← parseFields oc size xs with
      | .error e => .ok (.error e)
      | .ok (values, size) => .ok (.ok (value :: values, size))

/-- mod.rs:37-60: the closure over one rule. -/
def parseRule (oc : Bool) (bound : Nat) (rule : List Char) : Prog (Except NonogramError (List Nat)) := do
  match ← parseFields oc 0 (splitOn ',' rule) with                    -- 38-51
  | .error e => .ok (.error e)
  | .ok (values, size) =>
    let n ← subW oc 64 values.length 1                                -- 53
    let size ← addW oc 64 size n
    if values.isEmpty ∨ bound < size then .ok (.error .InvalidRuleDimension)   -- 55-57
    else .ok (.ok values)

/-- mod.rs:35-61: the outer `map` and `collect`, which stops at the first error. -/
def parseAll (oc : Bool) (bound : Nat) : List (List Char) → Prog (Except NonogramError (List (List Nat)))
  | [] => .ok (.ok [])
  | rule :: rules => do
    match ← parseRule oc bound rule with
    | .error e => .ok (.error e)
    | .ok values =>
      match ← parseAll oc bound rules with
      | .error e => .ok (.error e)
      | .ok vs => .ok (.ok (values :: vs))

/-- mod.rs:34-62 `parse_nonogram_rules`. -/
def parseNonogramRules (oc : Bool) (rules : List Char) (bound : Nat) :
    Prog (Except NonogramError (List (List Nat))) :=
  parseAll oc bound (splitOn ';' rules)

/-! ### The rule automaton -/

/-- right_left.rs:5-11 `Node`. -/
inductive Node
  | Start
  | Fill
  | Space
  | End
  deriving DecidableEq, Repr

/-- right_left.rs:13-16 `RuleMachine`. -/
structure RuleMachine where
  leftStates : List Node
  rightStates : List Node

/-- right_left.rs:22-25: one iteration of the construction loop. -/
def pushBlock (states : List Node) (value : Nat) : Prog (List Node) := do
  let fills ← vecRepeat 1 Node.Fill value
  if states.length + value + 1 < 2 ^ 63 then .ok (states ++ fills ++ [Node.Space]) else .panic

/-- right_left.rs:20-27 (and 29-36 for the reversed rule). -/
def ruleStates (rule : List Nat) : Prog (List Node) := do
  let states ← forIn' rule [Node.Start, Node.End] pushBlock
  setP states (states.length - 1) Node.End                            -- 27: `last_mut().expect(..)`

/-- right_left.rs:19-42 `RuleMachine::new`. -/
def RuleMachine.new (rule : List Nat) : Prog RuleMachine := do
  let leftStates ← ruleStates rule
  let rightStates ← ruleStates rule.reverse
  return ⟨leftStates, rightStates⟩

/-! ### find_left -/

/-- The `Vec<Option<Vec<usize>>>` of right_left.rs:93-94. -/
abbrev Matches := List (Option (List Nat))

/-- right_left.rs:148-161: the look-ahead of the accepting state; `none` is `continue 'matches`. The squares are
the current one and all later ones. -/
def lookahead (last : Nat) : List Square → List Nat → Option (List Nat)
  | [], m => some m
  | q :: qs, m => if q = .Filled then none else lookahead last qs (m ++ [last])

/-- Outcome of one iteration of the `'matches` loop. -/
inductive Visit
  | next (new : Matches)
  | breakOuter (new : Matches)

/-- right_left.rs:109-118: staying in a space. -/
def stay (curr : Node) (square : Option Square) (state : Nat) (m : List Nat) (new : Matches) :
    Prog Matches :=
  match curr with
  | .Start | .Fill => .ok new
  | .Space | .End =>
    if square ≠ some .Filled then setP new state (some (m ++ [state])) else .ok new

/-- right_left.rs:106-167: the body of the `'matches` loop for one state with its trace `m`; `square` is the
current square and `rest` the squares left in the iterator. -/
def visitState (states : List Node) (square : Option Square) (rest : List Square) (state : Nat) (m : List Nat)
    (new : Matches) : Prog Visit := do
  let curr ← getP states state                                        -- 106
  let next ← getP states (state + 1)                                  -- 107
  let new ← stay curr square state m new                              -- 109-118
  match next with
  | .Start => .panic                                                  -- 121
  | .Fill =>                                                          -- 122-127
    if square ≠ some .Blocked then do
      let new ← setP new (state + 1) (some (m ++ [state + 1]))
      return .next new
    else return .next new
  | .Space =>                                                         -- 128-133
    if square ≠ some .Filled then do
      let new ← setP new (state + 1) (some (m ++ [state + 1]))
      return .next new
    else return .next new
  | .End =>
    match states[state + 2]? with
    | some .Fill => do                                                -- 135-145
      let new ← if square ≠ some .Filled then setP new (state + 1) (some (m ++ [state + 1])) else .ok new
      let new ← if square ≠ some .Blocked then setP new (state + 2) (some (m ++ [state + 2])) else .ok new
      return .next new
    | some _ => .panic                                                -- 146
    | none =>                                                         -- 147-165
      match (match square with
        | some q => lookahead (state + 1) (q :: rest) m
        | none => some m) with
      | none => return .next new
      | some m' => do
        let new ← setP new (state + 2) (some m')
        return .breakOuter new

/-- right_left.rs:101-168: the `'matches` loop over the occupied states in increasing order. -/
def visitStates (states : List Node) (square : Option Square) (rest : List Square) :
    List (Option (List Nat) × Nat) → Matches → Prog Visit
  | [], new => .ok (.next new)
  | (none, _) :: l, new => visitStates states square rest l new
  | (some m, state) :: l, new => do
    match ← visitState states square rest state m new with
    | .next new => visitStates states square rest l new
    | .breakOuter new => return .breakOuter new

/-- right_left.rs:98-175: the outer loop; returns the final `new_state`. Every item of `old_state` has been
taken when the two vectors are swapped. -/
def findLoop (states : List Node) : List Square → Matches → Matches → Prog Matches
  | [], old, new => do                                                -- `square` is `None`
    match ← visitStates states none [] old.zipIdx new with
    | .next new => return new                                         -- 170-172
    | .breakOuter new => return new
  | q :: rest, old, new => do
    match ← visitStates states (some q) rest old.zipIdx new with
    | .next new => findLoop states rest new (old.map fun _ => none)   -- 174
    | .breakOuter new => return new

/-- right_left.rs:181-185: the closure over the states of the trace. -/
def stateFilled (states : List Node) (state : Nat) : Prog Bool := do
  match ← getP states state with
  | .Start => .panic
  | .Fill => return true
  | .Space => return false
  | .End => return false

/-- `iter().map(f).collect()` for a closure that can panic. -/
def mapP {α β : Type} (f : α → Prog β) : List α → Prog (List β)
  | [] => .ok []
  | x :: xs => do
    let y ← f x
    let ys ← mapP f xs
    return y :: ys

/-- right_left.rs:89-188 `find_left`. -/
def findLeft (states : List Node) (grid : List Square) : Prog (Option (List Bool)) := do
  let old ← vecRepeat 24 (none : Option (List Nat)) (states.length + 1)    -- 93
  let new ← vecRepeat 24 (none : Option (List Nat)) (states.length + 1)    -- 94
  let old ← setP old 0 (some [])                                      -- 96
  let new ← findLoop states grid old new                              -- 98-175
  match ← getP new states.length with                                 -- 178-179
  | none => return none
  | some m => do
    let bs ← mapP (stateFilled states) m                              -- 180-186
    return some bs

/-! ### The line step -/

/-- Local variables of right_left.rs:49-55 and the line. -/
structure LState where
  grid : List Square
  changed : Bool
  leftBlock : Nat
  rightBlock : Nat
  leftState : Bool
  rightState : Bool

/-- `x += 1` for the `i32` counters, as two's complement bit patterns. -/
def incI32 (oc : Bool) (a : Nat) : Prog Nat :=
  if oc = true ∧ a + 1 = 2 ^ 31 then .panic else .ok ((a + 1) % 2 ^ 32)

/-- right_left.rs:57-83: one iteration of the loop. -/
def lineBody (oc : Bool) (left right : List Bool) (s : LState) (i : Nat) : Prog LState := do
  let l ← getP left i                                                 -- 58
  let j ← subW oc 64 right.length 1
  let j ← subW oc 64 j i
  let r ← getP right j                                                -- 59
  let s ← (if l ≠ s.leftState then do                                 -- 61-64
      let b ← incI32 oc s.leftBlock
      return { s with leftBlock := b, leftState := l }
    else return s : Prog LState)
  let s ← (if r ≠ s.rightState then do                                -- 66-69
      let b ← incI32 oc s.rightBlock
      return { s with rightBlock := b, rightState := r }
    else return s : Prog LState)
  let sq ← getP s.grid i                                              -- 71-73
  if sq ≠ .Blank then return s
  else if s.leftBlock = s.rightBlock ∧ l = r then do                  -- 75-82
    let grid ← setP s.grid i (if l then .Filled else .Blocked)
    return { s with grid := grid, changed := true }
  else return s

/-- right_left.rs:44-86 `RuleMachine::right_left`; returns the changed line and the flag. -/
def RuleMachine.rightLeft (oc : Bool) (m : RuleMachine) (grid : List Square) :
    Prog (Except NonogramError (List Square × Bool)) := do
  match ← findLeft m.leftStates grid with                             -- 45
  | none => return .error .NoSolution
  | some left =>
    match ← findLeft m.rightStates grid.reverse with                  -- 46-47
    | none => return .error .NoSolution
    | some right => do
      let s ← _root_.forIn' (List.range left.length) ⟨grid, false, 0, 0, false, false⟩ (lineBody oc left right)
      return .ok (s.grid, s.changed)

/-! ### Propagation -/

/-- `Iterator::step_by(k)` on a list: the items at positions 0, k, 2k, ... The counter is the number of items
still to be skipped. -/
def stepBy {α : Type} (k : Nat) : Nat → List α → List α
  | _, [] => []
  | 0, x :: xs => x :: stepBy k (k - 1) xs
  | n + 1, _ :: xs => stepBy k n xs

/-- The squares seen through a list of `&mut Square`, given as positions. -/
def readAt (grid : List Square) (ps : List Nat) : List Square := ps.filterMap fun p => grid[p]?

/-- The effect of assigning through a list of `&mut Square`. -/
def writeAt (grid : List Square) : List Nat → List Square → List Square
  | p :: ps, q :: qs => writeAt (grid.set p q) ps qs
  | _, _ => grid

/-- `changed |= machine.right_left(..)?` on the squares at positions `ps` (mod.rs:100, 104-108). -/
def lineStep (oc : Bool) (m : RuleMachine) (ps : List Nat) (s : List Square × Bool) :
    Prog (Except NonogramError (List Square × Bool)) := do
  match ← m.rightLeft oc (readAt s.1 ps) with
  | .error e => return .error e
  | .ok (line, changed) => return .ok (writeAt s.1 ps line, s.2 || changed)

/-- `&mut grid[index..].iter_mut().step_by(width)` (mod.rs:100) as positions: the slice panics when
`index > len`, `step_by(0)` panics. -/
def colPositions (len width index : Nat) : Prog (List Nat) :=
  if index ≤ len ∧ width ≠ 0 then .ok (stepBy width 0 ((List.range len).drop index)) else .panic

/-- `&mut grid[width * index..width * (index + 1)]` (mod.rs:105) as positions. -/
def rowPositions (oc : Bool) (len width index : Nat) : Prog (List Nat) := do
  let a ← mulW oc 64 width index
  let i ← addW oc 64 index 1
  let b ← mulW oc 64 width i
  if a ≤ b ∧ b ≤ len then return (List.range' a (b - a)) else .panic

/-- mod.rs:99-101: the column loop. -/
def colLoop (oc : Bool) (width : Nat) :
    List (RuleMachine × Nat) → List Square × Bool → Prog (Except NonogramError (List Square × Bool))
  | [], s => .ok (.ok s)
  | (m, index) :: l, s => do
    let ps ← colPositions s.1.length width index
    match ← lineStep oc m ps s with
    | .error e => return .error e
    | .ok s => colLoop oc width l s

/-- mod.rs:103-109: the row loop. -/
def rowLoop (oc : Bool) (width : Nat) :
    List (RuleMachine × Nat) → List Square × Bool → Prog (Except NonogramError (List Square × Bool))
  | [], s => .ok (.ok s)
  | (m, index) :: l, s => do
    let ps ← rowPositions oc s.1.length width index
    match ← lineStep oc m ps s with
    | .error e => return .error e
    | .ok s => rowLoop oc width l s

/-- mod.rs:96-114: one iteration of the loop; `inr` leaves it. -/
def passBody (oc : Bool) (width : Nat) (cols rows : List RuleMachine) (grid : List Square) :
    Prog (List Square ⊕ Except NonogramError (List Square)) := do
  match ← colLoop oc width cols.zipIdx (grid, false) with             -- 97-101
  | .error e => return .inr (.error e)
  | .ok s =>
    match ← rowLoop oc width rows.zipIdx s with                       -- 103-109
    | .error e => return .inr (.error e)
    | .ok s => if s.2 then return .inl s.1 else return .inr (.ok s.1) -- 111-116

/-- mod.rs:86-117 `right_left`; returns the grid. -/
def rightLeft (oc : Bool) (grid : List Square) (col row : List (List Nat)) :
    Prog (Except NonogramError (List Square)) := do
  let width := col.length
  let cols ← mapP RuleMachine.new col                                 -- 93
  let rows ← mapP RuleMachine.new row                                 -- 94
  loop (passBody oc width cols rows) grid                             -- 96-114

/-- mod.rs:119 `recursive_backtrack`: the body is empty. -/
def recursiveBacktrack (grid : List Square) (_col _row : List (List Nat)) : List Square := grid

/-- mod.rs:71-84 `solve_nonogram`. -/
def solveNonogram (oc : Bool) (col row : List (List Nat)) : Prog (Except NonogramError (List Bool)) := do
  let width := col.length
  let height := row.length
  let n ← mulW oc 64 width height                                     -- 75
  let grid ← vecRepeat 1 Square.Blank n
  match ← rightLeft oc grid col row with                              -- 77
  | .error e => return .error e
  | .ok grid =>
    let grid := recursiveBacktrack grid col row                       -- 78
    return .ok (grid.map fun q => decide (q = .Filled))               -- 80-83

end Nonogram
