import Verif.Model.DancingWrap
import Verif.Spec.DancingLinks

/-! Histories of `add_solution` calls with a given arithmetic of the counters. -/
namespace DancingLinks.Spec
open DancingLinks

/-- The states reachable by `new` followed by any sequence of `add_solution` calls that return, with the log of the
calls. -/
inductive HistG (A : Arith) (M : List (List Nat)) : List (Nat × Except DLError Unit) → Matrix → Heap → Prop
  | new {m h} : Matrix.new Heap.empty M = .ok (m, h) → HistG A M [] m h
  | add {log m h r res m' h'} : HistG A M log m h → addSolutionG A m h r = .ok (res, m', h') →
      HistG A M (log ++ [(r, res)]) m' h'

/-- The rows `S` are distinct rows of the matrix and every constraint has at most one entry among them: none is
satisfied twice, by two rows or by one row that it repeats. -/
structure AtMostOnce (M : List (List Nat)) (S : List Nat) : Prop where
  nodup : S.Nodup
  occurs : ∀ r ∈ S, Occurs M r
  once : ∀ col ∈ M, (col.filter (· ∈ S)).length ≤ 1

end DancingLinks.Spec
