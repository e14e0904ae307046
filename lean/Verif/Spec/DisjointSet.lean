import Verif.Model.DisjointSet
import Mathlib.Logic.Relation

/-!
Specification of a disjoint-set structure: it mentions only the *history of calls* (`DisjointSet.Op` is
just the call syntax), never the forest that implements it.
-/
namespace DisjointSet.Spec
open DisjointSet

/-- Number of elements after a history started with `n` elements: one more per `add`. -/
def size (n : Nat) : List Op → Nat
  | [] => n
  | .add :: ops => size (n + 1) ops
  | _ :: ops => size n ops

/-- The pairs passed to `union` while both indices were in range. -/
def links (n : Nat) : List Op → List (Nat × Nat)
  | [] => []
  | .add :: ops => links (n + 1) ops
  | .union i j :: ops => if i < n ∧ j < n then (i, j) :: links n ops else links n ops
  | _ :: ops => links n ops

/-- `a` and `b` are linked by a chain of earlier in-range unions (reflexive-symmetric-transitive closure). -/
def Linked (n : Nat) (ops : List Op) (a b : Nat) : Prop :=
  Relation.EqvGen (fun x y => (x, y) ∈ links n ops) a b

/-- The parent links followed by `find_helper` (for the two properties about the shape of the forest). -/
def ParentStep (s : DSU) (a b : Nat) : Prop := ∃ e, s[a]? = some e ∧ e.root = false ∧ e.value = b

/-- `Chain s a k b`: following `k` parent links from `a` leads to `b`. -/
inductive Chain (s : DSU) : Nat → Nat → Nat → Prop
  | nil (a : Nat) : Chain s a 0 a
  | cons {a b c k : Nat} : ParentStep s a b → Chain s b k c → Chain s a (k + 1) c

/-- `find_helper` (disjoint_set.rs:77-85) with a stack of at most `n` frames: the call at depth `n` fails. -/
def boundedFind : Nat → DSU → Nat → Prog (Nat × DSU)
  | 0, _, _ => .panic
  | n + 1, s, idx => do
    let e ← getP s idx
    if e.root then
      return (idx, s)
    let e ← getP s idx
    let (root, s) ← boundedFind n s e.value
    let e ← getP s idx
    let s ← setP s idx { e with value := root }
    return (root, s)

/-- What a call returns. -/
inductive Answer
  | nothing
  | index (r : Option Nat)
  | truth (b : Option Bool)
  deriving DecidableEq

/-- One call with its return value. -/
def call (s : DSU) : Op → Prog (Answer × DSU)
  | .add => .ok (.nothing, add s)
  | .find i => do let (r, s) ← find s i; return (.index r, s)
  | .commonSet i j => do let (b, s) ← commonSet s i j; return (.truth b, s)
  | .union i j => do let (r, s) ← union s i j; return (.index r, s)

/-- Calls one after the other, with all their return values. -/
def calls (s : DSU) : List Op → Prog (List Answer × DSU)
  | [] => .ok ([], s)
  | op :: ops => do
    let (a, s) ← call s op
    let (as, s) ← calls s ops
    return (a :: as, s)

end DisjointSet.Spec
