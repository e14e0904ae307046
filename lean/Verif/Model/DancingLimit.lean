import Verif.Model.DancingLinks

/-!
`DancingMatrix::new` once more, with the capacity of the vector `rows` and with unwinding: a panic inside `new` drops the local
vector but no node, so the memory at that moment is part of the outcome. Row numbers are `usize` values; a `usize` and a pointer have `ws` bytes (2, 4 or 8).
-/
namespace DancingLinks

/-- The local variable `rows : Vec<*mut Node>` (mod.rs:28) with its capacity. -/
structure RowVec where
  items : List Nat
  cap : Nat

/-- `Vec::resize(n, null_mut())`: `none` is the panic "capacity overflow". A full vector grows to twice its capacity, at least to 4 and
at least to what is needed; a pointer has `ws` bytes and no allocation has more than `isize::MAX`. -/
def RowVec.resize (v : RowVec) (ws n : Nat) : Option RowVec :=
  if n ≤ v.items.length then some { v with items := v.items.take n }
  else if n ≤ v.cap then some { v with items := v.items ++ List.replicate (n - v.items.length) 0 }
  else if max (max (2 * v.cap) n) 4 * ws < 2 ^ (8 * ws - 1) then
    some { items := v.items ++ List.replicate (n - v.items.length) 0, cap := max (max (2 * v.cap) n) 4 }
  else none

/-- mod.rs:37-39: `if index >= rows.len() { rows.resize(index + 1, null_mut()) }`; `none` is a panic. -/
def RowVec.grow (ws : Nat) (oc : Bool) (v : RowVec) (index : Nat) : Option RowVec :=
  if index ≥ v.items.length then
    if index + 1 < 2 ^ (8 * ws) then v.resize ws (index + 1)
    else if oc then none
    else v.resize ws ((index + 1) % 2 ^ (8 * ws))
  else some v

/-- mod.rs:36-45: one iteration of the inner loop of `new`. `.error h`: a panic, with the memory `h`. -/
def newCellL (ws : Nat) (oc : Bool) (header : Nat) (s : Heap × RowVec × Nat) (index : Nat) : Prog (Except Heap (Heap × RowVec × Nat)) :=
  match s.2.1.grow ws oc index with                                       -- 37-39
  | none => .ok (.error s.1)
  | some v =>
    match v.items[index]? with                                         -- 41 `rows[index]`
    | none => .ok (.error s.1)
    | some rp => do
      let (new, h) ← Node.new s.1 header rp s.2.2 index                -- 41
      let rows ← setP v.items index new                                -- 43
      return .ok (h, { v with items := rows }, new)                    -- 44

/-- `for x in xs { body }` with unwinding. -/
def forUnwind {σ α : Type} (xs : List α) (s : σ) (body : σ → α → Prog (Except Heap σ)) : Prog (Except Heap σ) :=
  match xs with
  | [] => .ok (.ok s)
  | x :: xs => do
    match ← body s x with
    | .error h => return .error h
    | .ok s => forUnwind xs s body

/-- mod.rs:32-48: one iteration of the outer loop of `new`. -/
def newColumnL (ws : Nat) (oc : Bool) (s : Heap × RowVec × Nat) (constraint : List Nat) : Prog (Except Heap (Heap × RowVec × Nat)) := do
  let (new, h) ← Node.newHeader s.1 s.2.2 constraint.length            -- 33
  match ← forUnwind constraint (h, s.2.1, new) (newCellL ws oc new) with  -- 35-45
  | .error h => return .error h
  | .ok (h, v, _) => return .ok (h, v, new)                            -- 47

/-- mod.rs:25-55 `DancingMatrix::new`. -/
def Matrix.newL (ws : Nat) (oc : Bool) (h : Heap) (constraints : List (List Nat)) : Prog (Except Heap (Matrix × Heap)) := do
  let (root, h) ← Node.newHeader h 0 0                                 -- 30
  match ← forUnwind constraints (h, (⟨[], 0⟩ : RowVec), root) (newColumnL ws oc) with     -- 31-48
  | .error h => return .error h
  | .ok (h, v, _) => return .ok ({ root, rows := v.items, partialSolution := [] }, h)  -- 50-54

end DancingLinks
