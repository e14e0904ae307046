import Verif.Base

/-!
Model of /repo/src/structures/disjoint_set.rs.
-/
namespace DisjointSet

/-- disjoint_set.rs:5-9 `struct Element`. -/
structure Element where
  root : Bool
  value : Nat
  deriving DecidableEq, Repr

/-- disjoint_set.rs:1-3 `struct DisjointSet { elements: Vec<Element> }`.
Simplification: `usize` values are `Nat`; `DisjointSet.Props.size_le` shows every stored count is at most
the number of elements, so the `+=` of line 72 cannot overflow for a vector that fits in memory. -/
abbrev DSU := List Element

/-- disjoint_set.rs:12-17 `Element::new`. -/
def Element.new : Element := { root := true, value := 1 }

/-- disjoint_set.rs:19-24 `Element::from_parent`. -/
def Element.fromParent (parent : Nat) : Element := { root := false, value := parent }

/-- disjoint_set.rs:29-33 `DisjointSet::new`. -/
def new : DSU := []

/-- disjoint_set.rs:35-39 `DisjointSet::with_size` (`Element` is 16 bytes). -/
def withSize (size : Nat) : Prog DSU := vecRepeat 16 Element.new size

/-- disjoint_set.rs:42-44 `add`. -/
def add (s : DSU) : DSU := s ++ [Element.new]

/-- disjoint_set.rs:77-85 `find_helper`: recursive, with path compression. -/
def findHelper (s : DSU) (idx : Nat) : Prog (Nat × DSU) := do
  let e ← getP s idx                                  -- line 78
  if e.root then
    return (idx, s)                                   -- line 79
  let e ← getP s idx                                  -- line 82: self.elements[idx].value
  let (root, s) ← findHelper s e.value                -- line 82
  let e ← getP s idx
  let s ← setP s idx { e with value := root }         -- line 83
  return (root, s)                                    -- line 84
partial_fixpoint

/-- disjoint_set.rs:46-52 `find`. -/
def find (s : DSU) (idx : Nat) : Prog (Option Nat × DSU) := do
  if idx ≥ s.length then
    return (none, s)
  let (r, s) ← findHelper s idx
  return (some r, s)

/-- disjoint_set.rs:54-56 `common_set`: `Some(self.find(idx_one)? == self.find(idx_two)?)`. -/
def commonSet (s : DSU) (idxOne idxTwo : Nat) : Prog (Option Bool × DSU) := do
  let (r1, s) ← find s idxOne
  match r1 with
  | none => return (none, s)
  | some r1 =>
    let (r2, s) ← find s idxTwo
    match r2 with
    | none => return (none, s)
    | some r2 => return (some (r1 == r2), s)

/-- disjoint_set.rs:58-75 `union`. -/
def union (s : DSU) (idxOne idxTwo : Nat) : Prog (Option Nat × DSU) := do
  let (r1, s) ← find s idxOne                         -- line 59
  match r1 with
  | none => return (none, s)
  | some rootOne =>
    let (r2, s) ← find s idxTwo                       -- line 60
    match r2 with
    | none => return (none, s)
    | some rootTwo =>
      if rootOne = rootTwo then                       -- line 62
        return (some rootOne, s)
      let e1 ← getP s rootOne
      let e2 ← getP s rootTwo
      let (smaller, larger) :=                        -- lines 66-71
        if e1.value < e2.value then (rootOne, rootTwo) else (rootTwo, rootOne)
      let es ← getP s smaller
      let el ← getP s larger
      let s ← setP s larger { el with value := el.value + es.value }   -- line 72
      let s ← setP s smaller (Element.fromParent larger)               -- line 73
      return (some smaller, s)                        -- line 74

/-- The public operations of `DisjointSet`, for histories. -/
inductive Op where
  | add
  | find (i : Nat)
  | commonSet (i j : Nat)
  | union (i j : Nat)
  deriving DecidableEq, Repr

/-- Run one operation, discarding its return value. -/
def step (s : DSU) : Op → Prog DSU
  | .add => .ok (add s)
  | .find i => do let (_, s) ← find s i; return s
  | .commonSet i j => do let (_, s) ← commonSet s i j; return s
  | .union i j => do let (_, s) ← union s i j; return s

/-- Run a history of operations. -/
def run (s : DSU) : List Op → Prog DSU
  | [] => .ok s
  | op :: ops => do
    let s ← step s op
    run s ops

end DisjointSet
