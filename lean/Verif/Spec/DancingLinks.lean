import Verif.Model.DancingLinks

/-! Specification of exact cover over a matrix given as a list of constraints, each constraint being the
list of rows that satisfy it. Nothing here mentions pointers. -/
namespace DancingLinks.Spec
open DancingLinks

/-- `r` occurs in some constraint. -/
def Occurs (M : List (List Nat)) (r : Nat) : Prop := ∃ col ∈ M, r ∈ col

/-- `S` selects rows of the matrix so that every constraint contains exactly one of them. -/
structure ExactCover (M : List (List Nat)) (S : List Nat) : Prop where
  nodup : S.Nodup
  occurs : ∀ r ∈ S, Occurs M r
  once : ∀ col ∈ M, ∃ r ∈ S, r ∈ col ∧ ∀ r' ∈ S, r' ∈ col → r' = r

/-- Two rows conflict when some constraint contains both. -/
def conflict (M : List (List Nat)) (r a : Nat) : Bool := M.any fun col => decide (r ∈ col ∧ a ∈ col)

/-- The matrix that is left when the rows `A` are selected: the constraints none of them satisfies, in order, without
the rows that conflict with one of them. -/
def residual (M : List (List Nat)) (A : List Nat) : List (List Nat) :=
  (M.filter fun col => A.all fun a => decide (a ∉ col)).map
    fun col => col.filter fun x => A.all fun a => !conflict M x a

/-- The first of the shortest constraints. -/
def firstShortest : List (List Nat) → Option (List Nat)
  | [] => none
  | col :: M =>
    match firstShortest M with
    | none => some col
    | some best => if col.length ≤ best.length then some col else some best

/-- Knuth's Algorithm X with the rule "first constraint with fewest rows, rows in their given order", as a recursion on
at most `n` levels. -/
def search : Nat → List (List Nat) → Option (List Nat)
  | 0, M => if M = [] then some [] else none
  | n + 1, M =>
    match firstShortest M with
    | none => some []
    | some col => col.findSome? fun r => (search n (residual M [r])).map (r :: ·)

/-- Algorithm X: every level removes at least one constraint, so `M.length` levels are enough. -/
def algorithmX (M : List (List Nat)) : Option (List Nat) := search M.length M

/-- The last constraint that contains row `a`. -/
def lastCol (M : List (List Nat)) (a : Nat) : List Nat := ((M.filter fun col => a ∈ col).getLast?).getD []

/-- What `add_solution(r)` does after the rows `A` have been accepted, in this order. -/
inductive Expected
  /-- `Err(IndexError)`, nothing changes -/
  | index
  /-- `Err(InvalidRow)` -/
  | invalid
  /-- `Ok(())` -/
  | accepted
  /-- a freed node is dereferenced: undefined behaviour -/
  | dangling
  deriving DecidableEq, Repr

def expected (M : List (List Nat)) (A : List Nat) (r : Nat) : Expected :=
  if ∀ col ∈ M, ∀ x ∈ col, x < r then .index
  else if ∀ col ∈ M, r ∉ col then .invalid
  else match A.find? (conflict M r) with
    | none => .accepted
    | some a => if r ∈ lastCol M a then .invalid else .dangling

/-- The rows accepted in a log of `add_solution` calls and their results. -/
def accepted (log : List (Nat × Except DLError Unit)) : List Nat :=
  log.filterMap fun (r, res) => match res with | .ok _ => some r | .error _ => none

/-- The rows pushed onto `partial_solution`: every call that got past the index check. -/
def pushed (log : List (Nat × Except DLError Unit)) : List Nat :=
  log.filterMap fun (r, res) => match res with | .error .indexError => none | _ => some r

/-- The states reachable by `new` followed by any sequence of `add_solution` calls that return,
with the log of the calls. -/
inductive Hist (M : List (List Nat)) : List (Nat × Except DLError Unit) → Matrix → Heap → Prop
  | new {m h} : Matrix.new Heap.empty M = .ok (m, h) → Hist M [] m h
  | add {log m h r res m' h'} : Hist M log m h → addSolution m h r = .ok (res, m', h') →
      Hist M (log ++ [(r, res)]) m' h'

/-- No cell was leaked: all cells ever allocated have been freed. -/
def AllFreed (h : Heap) : Prop := ∀ p, (0 < p ∧ p < h.next → h.mem p = .freed) ∧ (p = 0 ∨ h.next ≤ p → h.mem p = .unalloc)

/-- `p ≠ s` is met when following the `d` links from `s` until coming back to `s`. -/
inductive Walk (h : Heap) (d : Dir) (s : Nat) : Nat → Prop
  | first {n} : h.mem s = .live n → n.get d ≠ s → Walk h d s (n.get d)
  | next {p n} : Walk h d s p → h.mem p = .live n → n.get d ≠ s → Walk h d s (n.get d)

/-- `p` is an active column: a header on the root's ring, or a cell on the vertical ring of one. -/
def ActiveCol (h : Heap) (root p : Nat) : Prop :=
  Walk h .right root p ∨ ∃ c, Walk h .right root c ∧ Walk h .down c p

/-- Memories reachable by a history of `add_solution` calls and then covering any active columns, as
`solve_helper` does. -/
inductive Reach (M : List (List Nat)) (root : Nat) : Heap → Prop
  | hist {log m h} : Hist M log m h → m.root = root → Reach M root h
  | cover {h p h'} : Reach M root h → ActiveCol h root p → coverColumn h p = .ok h' → Reach M root h'

end DancingLinks.Spec
