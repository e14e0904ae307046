import Verif.Model.DisjointSet
import Mathlib.Logic.Function.Iterate

/-!
Counting the calls of `find_helper`: the code of disjoint_set.rs with a counter, the number of finds of a history, and the
hierarchy of fast growing functions whose inverse bounds the running time.
-/
namespace DisjointSet.Spec
open DisjointSet

/-- `find_helper` (disjoint_set.rs:77-85); `t` counts the calls. -/
def countedHelper (s : DSU) (t idx : Nat) : Prog (Nat × DSU × Nat) := do
  let t := t + 1
  let e ← getP s idx
  if e.root then
    return (idx, s, t)
  let e ← getP s idx
  let (root, s, t) ← countedHelper s t e.value
  let e ← getP s idx
  let s ← setP s idx { e with value := root }
  return (root, s, t)
partial_fixpoint

/-- `find` (disjoint_set.rs:46-52) with the counter. -/
def countedFind (s : DSU) (t idx : Nat) : Prog (Option Nat × DSU × Nat) := do
  if idx ≥ s.length then
    return (none, s, t)
  let (r, s, t) ← countedHelper s t idx
  return (some r, s, t)

/-- `common_set` (disjoint_set.rs:54-56) with the counter. -/
def countedCommonSet (s : DSU) (t idxOne idxTwo : Nat) : Prog (Option Bool × DSU × Nat) := do
  let (r1, s, t) ← countedFind s t idxOne
  match r1 with
  | none => return (none, s, t)
  | some r1 =>
    let (r2, s, t) ← countedFind s t idxTwo
    match r2 with
    | none => return (none, s, t)
    | some r2 => return (some (r1 == r2), s, t)

/-- `union` (disjoint_set.rs:58-75) with the counter. -/
def countedUnion (s : DSU) (t idxOne idxTwo : Nat) : Prog (Option Nat × DSU × Nat) := do
  let (r1, s, t) ← countedFind s t idxOne
  match r1 with
  | none => return (none, s, t)
  | some rootOne =>
    let (r2, s, t) ← countedFind s t idxTwo
    match r2 with
    | none => return (none, s, t)
    | some rootTwo =>
      if rootOne = rootTwo then
        return (some rootOne, s, t)
      let e1 ← getP s rootOne
      let e2 ← getP s rootTwo
      let (smaller, larger) :=
        if e1.value < e2.value then (rootOne, rootTwo) else (rootTwo, rootOne)
      let es ← getP s smaller
      let el ← getP s larger
      let s ← setP s larger { el with value := el.value + es.value }
      let s ← setP s smaller (Element.fromParent larger)
      return (some smaller, s, t)

/-- One operation with the counter. -/
def countedStep (s : DSU) (t : Nat) : Op → Prog (DSU × Nat)
  | .add => .ok (add s, t)
  | .find i => do let (_, s, t) ← countedFind s t i; return (s, t)
  | .commonSet i j => do let (_, s, t) ← countedCommonSet s t i j; return (s, t)
  | .union i j => do let (_, s, t) ← countedUnion s t i j; return (s, t)

/-- A history with the counter. -/
def countedRun (s : DSU) (t : Nat) : List Op → Prog (DSU × Nat)
  | [] => .ok (s, t)
  | op :: ops => do
    let (s, t) ← countedStep s t op
    countedRun s t ops

/-- The number of calls of `find` that an operation can make. -/
def opFinds : Op → Nat
  | .add => 0
  | .find _ => 1
  | .commonSet _ _ => 2
  | .union _ _ => 2

/-- The number of calls of `find` that the operations of a history can make. -/
def finds (ops : List Op) : Nat := (ops.map opFinds).sum

/-- Fast growing functions: the first is the successor, each other one iterates the one before. So `fast 1 j = 2j + 1`,
`fast 2 j = 2^(j+1) (j+1) - 1`, and `fast 4 1` exceeds a tower of 2047 twos. The inverse of `k ↦ fast k 1` is the
inverse Ackermann function. -/
def fast : Nat → Nat → Nat
  | 0, j => j + 1
  | k + 1, j => (fast k)^[j + 1] j

example : fast 1 5 = 11 ∧ fast 2 1 = 7 ∧ fast 2 2 = 23 := by decide

end DisjointSet.Spec
