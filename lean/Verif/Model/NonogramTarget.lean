import Verif.Model.Nonogram

/-!
The nonogram solver for a target whose `usize` has `ws` bytes (`ws` = 2, 4 or 8). `Model/Nonogram.lean` is for 64-bit
targets. What depends on the target: the numbers `usize::from_str` accepts, the arithmetic on `usize`, the limit
`isize::MAX` of allocations and the size of an `Option<Vec<usize>>` (three words). The counters of right_left.rs:51-52 are
`i32` everywhere, and a `Square` and a `Node` take one byte everywhere.
-/
namespace Nonogram

/-- The digits of `usize::from_str`, as `parseDigits`. -/
def parseDigitsT (ws : Nat) : Nat → List Char → Option Nat
  | acc, [] => some acc
  | acc, c :: cs =>
    if 48 ≤ c.toNat ∧ c.toNat ≤ 57 then
      if acc * 10 < 2 ^ (8 * ws) then
        if acc * 10 + (c.toNat - 48) < 2 ^ (8 * ws) then parseDigitsT ws (acc * 10 + (c.toNat - 48)) cs else none
      else none
    else none

/-- `usize::from_str`, as `parseUsize`. -/
def parseUsizeT (ws : Nat) : List Char → Option Nat
  | [] => none
  | ['+'] => none
  | '+' :: cs => parseDigitsT ws 0 cs
  | cs => parseDigitsT ws 0 cs

/-- mod.rs:41-51, as `parseFields`. -/
def parseFieldsT (ws : Nat) (oc : Bool) : Nat → List (List Char) → Prog (Except NonogramError (List Nat × Nat))
  | size, [] => .ok (.ok ([], size))
  | size, x :: xs =>
    match parseUsizeT ws x with
    | none => .ok (.error (.InvalidRule x))                           -- 43-45
    | some value => do
      let size ← addW oc (8 * ws) size value                          -- 47
      match ← parseFieldsT ws oc size xs with
      | .error e => .ok (.error e)
      | .ok (values, size) => .ok (.ok (value :: values, size))

/-- mod.rs:37-60, as `parseRule`. -/
def parseRuleT (ws : Nat) (oc : Bool) (bound : Nat) (rule : List Char) : Prog (Except NonogramError (List Nat)) := do
  match ← parseFieldsT ws oc 0 (splitOn ',' rule) with                -- 38-51
  | .error e => .ok (.error e)
  | .ok (values, size) =>
    let n ← subW oc (8 * ws) values.length 1                          -- 53
    let size ← addW oc (8 * ws) size n
    if values.isEmpty ∨ bound < size then .ok (.error .InvalidRuleDimension)   -- 55-57
    else .ok (.ok values)

/-- mod.rs:35-61, as `parseAll`. -/
def parseAllT (ws : Nat) (oc : Bool) (bound : Nat) : List (List Char) → Prog (Except NonogramError (List (List Nat)))
  | [] => .ok (.ok [])
  | rule :: rules => do
    match ← parseRuleT ws oc bound rule with
    | .error e => .ok (.error e)
    | .ok values =>
      match ← parseAllT ws oc bound rules with
      | .error e => .ok (.error e)
      | .ok vs => .ok (.ok (values :: vs))

/-- mod.rs:34-62 `parse_nonogram_rules`. -/
def parseNonogramRulesT (ws : Nat) (oc : Bool) (rules : List Char) (bound : Nat) :
    Prog (Except NonogramError (List (List Nat))) :=
  parseAllT ws oc bound (splitOn ';' rules)

/-- `vec![x; n]`, as `vecRepeat`. -/
def vecRepeatT (ws : Nat) {α : Type} (elemSize : Nat) (x : α) (n : Nat) : Prog (List α) :=
  if n * elemSize < 2 ^ (8 * ws - 1) then .ok (List.replicate n x) else .panic

/-- right_left.rs:22-25, as `pushBlock`. -/
def pushBlockT (ws : Nat) (states : List Node) (value : Nat) : Prog (List Node) := do
  let fills ← vecRepeatT ws 1 Node.Fill value
  if states.length + value + 1 < 2 ^ (8 * ws - 1) then .ok (states ++ fills ++ [Node.Space]) else .panic

/-- right_left.rs:20-27, as `ruleStates`. -/
def ruleStatesT (ws : Nat) (rule : List Nat) : Prog (List Node) := do
  let states ← forIn' rule [Node.Start, Node.End] (pushBlockT ws)
  setP states (states.length - 1) Node.End                            -- 27

/-- right_left.rs:19-42 `RuleMachine::new`. -/
def RuleMachine.newT (ws : Nat) (rule : List Nat) : Prog RuleMachine := do
  let leftStates ← ruleStatesT ws rule
  let rightStates ← ruleStatesT ws rule.reverse
  return ⟨leftStates, rightStates⟩

/-- right_left.rs:89-188 `find_left`; its loop does no arithmetic that depends on the target. -/
def findLeftT (ws : Nat) (states : List Node) (grid : List Square) : Prog (Option (List Bool)) := do
  let old ← vecRepeatT ws (3 * ws) (none : Option (List Nat)) (states.length + 1)    -- 93
  let new ← vecRepeatT ws (3 * ws) (none : Option (List Nat)) (states.length + 1)    -- 94
  let old ← setP old 0 (some [])                                      -- 96
  let new ← findLoop states grid old new                              -- 98-175
  match ← getP new states.length with                                 -- 178-179
  | none => return none
  | some m => do
    let bs ← mapP (stateFilled states) m                              -- 180-186
    return some bs

/-- right_left.rs:57-83, as `lineBody`. -/
def lineBodyT (ws : Nat) (oc : Bool) (left right : List Bool) (s : LState) (i : Nat) : Prog LState := do
  let l ← getP left i                                                 -- 58
  let j ← subW oc (8 * ws) right.length 1
  let j ← subW oc (8 * ws) j i
  let r ← getP right j                                                -- 59
  let s ← (if l ≠ s.leftState then do                                 -- 61-64
      let b ← incI32 oc s.leftBlock
      return { s with leftBlock := b, leftState := l }
    else return s : Prog LState)
  let s ← (if r ≠ s.rightState then do                                -- 66-69
      let b ← incI32 oc s.rightBlock
      return { s with rightBlock := b, rightState := r }
    else return s : Prog LState)
  let sq ← getP s.grid i                                              -- 71-73
  if sq ≠ .Blank then return s
  else if s.leftBlock = s.rightBlock ∧ l = r then do                  -- 75-82
    let grid ← setP s.grid i (if l then .Filled else .Blocked)
    return { s with grid := grid, changed := true }
  else return s

/-- right_left.rs:44-86 `RuleMachine::right_left`. -/
def RuleMachine.rightLeftT (ws : Nat) (oc : Bool) (m : RuleMachine) (grid : List Square) :
    Prog (Except NonogramError (List Square × Bool)) := do
  match ← findLeftT ws m.leftStates grid with                         -- 45
  | none => return .error .NoSolution
  | some left =>
    match ← findLeftT ws m.rightStates grid.reverse with              -- 46-47
    | none => return .error .NoSolution
    | some right => do
      let s ← _root_.forIn' (List.range left.length) ⟨grid, false, 0, 0, false, false⟩ (lineBodyT ws oc left right)
      return .ok (s.grid, s.changed)

/-- mod.rs:100, 104-108, as `lineStep`. -/
def lineStepT (ws : Nat) (oc : Bool) (m : RuleMachine) (ps : List Nat) (s : List Square × Bool) :
    Prog (Except NonogramError (List Square × Bool)) := do
  match ← m.rightLeftT ws oc (readAt s.1 ps) with
  | .error e => return .error e
  | .ok (line, changed) => return .ok (writeAt s.1 ps line, s.2 || changed)

/-- mod.rs:105, as `rowPositions`. -/
def rowPositionsT (ws : Nat) (oc : Bool) (len width index : Nat) : Prog (List Nat) := do
  let a ← mulW oc (8 * ws) width index
  let i ← addW oc (8 * ws) index 1
  let b ← mulW oc (8 * ws) width i
  if a ≤ b ∧ b ≤ len then return (List.range' a (b - a)) else .panic

/-- mod.rs:99-101: the column loop. -/
def colLoopT (ws : Nat) (oc : Bool) (width : Nat) :
    List (RuleMachine × Nat) → List Square × Bool → Prog (Except NonogramError (List Square × Bool))
  | [], s => .ok (.ok s)
  | (m, index) :: l, s => do
    let ps ← colPositions s.1.length width index
    match ← lineStepT ws oc m ps s with
    | .error e => return .error e
    | .ok s => colLoopT ws oc width l s

/-- mod.rs:103-109: the row loop. -/
def rowLoopT (ws : Nat) (oc : Bool) (width : Nat) :
    List (RuleMachine × Nat) → List Square × Bool → Prog (Except NonogramError (List Square × Bool))
  | [], s => .ok (.ok s)
  | (m, index) :: l, s => do
    let ps ← rowPositionsT ws oc s.1.length width index
    match ← lineStepT ws oc m ps s with
    | .error e => return .error e
    | .ok s => rowLoopT ws oc width l s

/-- mod.rs:96-114, as `passBody`. -/
def passBodyT (ws : Nat) (oc : Bool) (width : Nat) (cols rows : List RuleMachine) (grid : List Square) :
    Prog (List Square ⊕ Except NonogramError (List Square)) := do
  match ← colLoopT ws oc width cols.zipIdx (grid, false) with         -- 97-101
  | .error e => return .inr (.error e)
  | .ok s =>
    match ← rowLoopT ws oc width rows.zipIdx s with                   -- 103-109
    | .error e => return .inr (.error e)
    | .ok s => if s.2 then return .inl s.1 else return .inr (.ok s.1) -- 111-116

/-- mod.rs:86-117 `right_left`. -/
def rightLeftT (ws : Nat) (oc : Bool) (grid : List Square) (col row : List (List Nat)) :
    Prog (Except NonogramError (List Square)) := do
  let width := col.length
  let cols ← mapP (RuleMachine.newT ws) col                           -- 93
  let rows ← mapP (RuleMachine.newT ws) row                           -- 94
  loop (passBodyT ws oc width cols rows) grid                         -- 96-114

/-- mod.rs:71-84 `solve_nonogram`. -/
def solveNonogramT (ws : Nat) (oc : Bool) (col row : List (List Nat)) : Prog (Except NonogramError (List Bool)) := do
  let width := col.length
  let height := row.length
  let n ← mulW oc (8 * ws) width height                               -- 75
  let grid ← vecRepeatT ws 1 Square.Blank n
  match ← rightLeftT ws oc grid col row with                          -- 77
  | .error e => return .error e
  | .ok grid =>
    let grid := recursiveBacktrack grid col row                       -- 78
    return .ok (grid.map fun q => decide (q = .Filled))               -- 80-83

end Nonogram
