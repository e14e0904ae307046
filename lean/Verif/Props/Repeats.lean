import Verif.Props.DancingLinks
import Verif.Proofs.DL.Fuel
import Verif.Proofs.DL.NewAll
import Verif.Proofs.DL.RepAll

/-! C82: constraints that name a row twice. -/
namespace DancingLinks.Props
open DancingLinks DancingLinks.Spec

/-- `new(M)`, then `solve`. -/
def solveNew (M : List (List Nat)) : Prog (Except DLError (List Nat)) := do
  let (m, h) ← Matrix.new Heap.empty M
  let (res, _) ← m.solve h
  return res

/-- `new(M)`, then `add_solution(r)`. -/
def addNew (M : List (List Nat)) (r : Nat) : Prog (Except DLError Unit) := do
  let (m, h) ← Matrix.new Heap.empty M
  let (res, _) ← addSolution m h r
  return res

def solveNewF (n : Nat) (M : List (List Nat)) : Prog (Except DLError (List Nat)) := do
  let (m, h) ← Matrix.new Heap.empty M
  let (res, _) ← solveF n m h
  return res

def addNewF (n : Nat) (M : List (List Nat)) (r : Nat) : Prog (Except DLError Unit) := do
  let (m, h) ← Matrix.new Heap.empty M
  let (res, _) ← addSolutionF n m h r
  return res

theorem solveNew_eq (n : Nat) {M : List (List Nat)} {x : Prog (Except DLError (List Nat))} (h : solveNewF n M = x)
    (hx : x ≠ .diverge) : solveNew M = x := by
  have : Le (solveNewF n M) (solveNew M) := (Le.refl _).bind fun _ => (solveF_le _ _ _).bind fun _ => .refl _
  rw [← h]; exact this.eq (h ▸ hx)

theorem addNew_eq (n : Nat) {M : List (List Nat)} {r : Nat} {x : Prog (Except DLError Unit)} (h : addNewF n M r = x)
    (hx : x ≠ .diverge) : addNew M r = x := by
  have : Le (addNewF n M r) (addNew M r) := (Le.refl _).bind fun _ => (addSolutionF_le _ _ _ _).bind fun _ => .refl _
  rw [← h]; exact this.eq (h ▸ hx)

/-- `new` itself is memory-safe for every list of constraints: it returns, and every cell it allocated (the root, one
per constraint, one per entry) is initialised, with links to allocated cells only. -/
theorem C82_new (M : List (List Nat)) : ∃ m h, Matrix.new Heap.empty M = .ok (m, h) ∧
    h.next = 2 + M.length + M.flatten.length ∧
    ∀ p, 1 ≤ p → p < h.next → ∃ n, h.mem p = .live n ∧
      (1 ≤ n.left ∧ n.left < h.next) ∧ (1 ≤ n.right ∧ n.right < h.next) ∧
      (1 ≤ n.up ∧ n.up < h.next) ∧ (1 ≤ n.down ∧ n.down < h.next) := by
  obtain ⟨m, h, e, w, hn, _, _⟩ := new_all M
  refine ⟨m, h, e, hn, fun p h1 h2 => ?_⟩
  obtain ⟨n, e, l⟩ := w.2 p h1 h2
  exact ⟨n, e, by omega, by omega, by omega, by omega⟩

example : ∃ m h, Matrix.new Heap.empty [[0, 0], [1, 0, 1]] = .ok (m, h) ∧ h.next = 9 := by
  obtain ⟨m, h, e, hn, _⟩ := C82_new [[0, 0], [1, 0, 1]]
  exact ⟨m, h, e, hn⟩

/-- C82 as stated: `new` followed by `solve` returns for every list of constraints. -/
def C82 : Prop := ∀ M : List (List Nat), ∃ res, solveNew M = .ok res

/-- C82 is false: the constraints `{0}` and `{0, 0}` lead `solve` into freed memory, and so does the single constraint
`{0, 1, 0}`, although row 1 alone is an exact cover. -/
theorem C82_false : ¬ C82 ∧ solveNew [[0], [0, 0]] = .ub ∧ solveNew [[0, 1, 0]] = .ub := by
  have h1 : solveNew [[0], [0, 0]] = .ub := solveNew_eq 12 (by decide +kernel) (by simp)
  have h2 : solveNew [[0, 1, 0]] = .ub := solveNew_eq 12 (by decide +kernel) (by simp)
  refine ⟨fun h => ?_, h1, h2⟩
  obtain ⟨res, e⟩ := h [[0, 1, 0]]
  rw [h2] at e
  cases e

/-- `add_solution` of the repeated row also uses freed memory. -/
theorem C82_add_false : addNew [[0, 0]] 0 = .ub := addNew_eq 12 (by decide +kernel) (by simp)

/-- `new(M)`, then `solve`; the result and the contents of all addresses handed out. -/
def solveCells (n : Nat) (M : List (List Nat)) : Prog (Except DLError (List Nat) × List Bool) := do
  let (m, h) ← Matrix.new Heap.empty M
  let (res, h') ← solveF n m h
  return (res, (List.range h'.next).map fun p => match h'.mem p with | .live _ => true | _ => false)

/-- When `solve` does return on repeated rows its answer can be wrong and memory can be lost: on the single constraint
`{0, 0}`, which row 0 alone covers, it returns `Err(NoSolution)` and never frees two of the four nodes. -/
theorem C82_wrong : ∃ m h h', Matrix.new Heap.empty [[0, 0]] = .ok (m, h) ∧
    m.solve h = .ok (.error .noSolution, h') ∧ (∃ n, h'.mem 3 = .live n) ∧ ∃ n, h'.mem 4 = .live n := by
  obtain ⟨m, h, e, _⟩ := C82_new [[0, 0]]
  have hk : solveCells 12 [[0, 0]] = .ok (.error .noSolution, [false, false, false, true, true]) := by decide +kernel
  simp only [solveCells, e, Prog.ok_bind] at hk
  have hle := solveF_le 12 m h
  cases hs : solveF 12 m h with
  | ok x =>
    obtain ⟨res, h'⟩ := x
    rw [hs] at hle hk
    simp only [Prog.ok_bind, Prog.pure_eq, Prog.ok.injEq, Prod.mk.injEq] at hk
    obtain ⟨h1, h2⟩ := hk
    have hn : h'.next = 5 := by simpa using congrArg List.length h2
    rw [hn] at h2
    have h3 := congrArg (fun l => l[3]?) h2
    have h4 := congrArg (fun l => l[4]?) h2
    simp at h3 h4
    refine ⟨m, h, h', e, (hle.eq (by simp)).trans (by rw [h1]), ?_, ?_⟩
    · revert h3; cases h'.mem 3 <;> simp
    · revert h4; cases h'.mem 4 <;> simp
  | panic => rw [hs] at hk; cases hk
  | ub => rw [hs] at hk; cases hk
  | diverge => rw [hs] at hk; cases hk

/-- Dropping the matrix that `new` returns frees every node exactly once, for every list of constraints. -/
theorem C82_drop (M : List (List Nat)) : ∃ m h h', Matrix.new Heap.empty M = .ok (m, h) ∧ m.drop h = .ok h' ∧
    h'.next = 2 + M.length + M.flatten.length ∧ ∀ p, 0 < p → p < h'.next → h'.mem p = .freed := by
  obtain ⟨h, rows, HR, V, RW, e, B, C⟩ := new_bldR M
  obtain ⟨h', e', f, nx⟩ := B.drop C ⟨1, rows, []⟩ rfl
  obtain ⟨m2, h2, e2, hn, _⟩ := C82_new M
  rw [e] at e2
  simp only [Prog.ok.injEq, Prod.mk.injEq] at e2
  obtain ⟨_, rfl⟩ := e2
  exact ⟨_, h, h', e, e', nx.trans hn, fun p h1 h2 => (f p).1 ⟨h1, h2⟩⟩

example : ∃ m h h', Matrix.new Heap.empty [[0, 0], [1, 0, 1]] = .ok (m, h) ∧ m.drop h = .ok h' ∧ h'.mem 8 = .freed := by
  obtain ⟨m, h, h', e, e', hn, f⟩ := C82_drop [[0, 0], [1, 0, 1]]
  exact ⟨m, h, h', e, e', f 8 (by simp) (by rw [hn]; simp)⟩

/-- A row that occurs in no constraint is refused and the memory is left as it is, for every list of constraints:
`InvalidRow` when a larger row occurs, `IndexError` otherwise. -/
theorem C82_absent (M : List (List Nat)) (r : Nat) (hr : ∀ col ∈ M, r ∉ col) :
    ∃ m h, Matrix.new Heap.empty M = .ok (m, h) ∧
      ((∃ col ∈ M, ∃ s ∈ col, r < s) → ∃ m', addSolution m h r = .ok (.error .invalidRow, m', h)) ∧
      ((¬ ∃ col ∈ M, ∃ s ∈ col, r < s) → ∃ m', addSolution m h r = .ok (.error .indexError, m', h)) := by
  obtain ⟨h, rows, HR, V, RW, e, B, C⟩ := new_bldR M
  obtain ⟨m', e'⟩ := B.add_absent hr ⟨1, rows, []⟩ rfl
  refine ⟨_, h, e, fun hx => ⟨m', ?_⟩, fun hx => ⟨m', ?_⟩⟩
  · rw [e', if_pos hx]
  · rw [e', if_neg hx]

example : ∃ m h m', Matrix.new Heap.empty [[0, 0], [2, 0, 2]] = .ok (m, h) ∧
    addSolution m h 1 = .ok (.error .invalidRow, m', h) := by
  obtain ⟨m, h, e, h1, _⟩ := C82_absent [[0, 0], [2, 0, 2]] 1 (by decide)
  obtain ⟨m', e'⟩ := h1 ⟨[2, 0, 2], by simp, 2, by simp, by decide⟩
  exact ⟨m, h, m', e, e'⟩

/-- A constraint without rows makes `solve` return `Err(NoSolution)` and free every node, whatever the other
constraints repeat. -/
theorem C82_empty (M : List (List Nat)) (hM : [] ∈ M) : ∃ m h h', Matrix.new Heap.empty M = .ok (m, h) ∧
    m.solve h = .ok (.error .noSolution, h') ∧
    h'.next = 2 + M.length + M.flatten.length ∧ ∀ p, 0 < p → p < h'.next → h'.mem p = .freed := by
  obtain ⟨h, rows, HR, V, RW, e, B, C⟩ := new_bldR M
  obtain ⟨h', e', f, nx⟩ := B.drop C ⟨1, rows, []⟩ rfl
  obtain ⟨m2, h2, e2, hn, _⟩ := C82_new M
  rw [e] at e2
  simp only [Prog.ok.injEq, Prod.mk.injEq] at e2
  obtain ⟨_, rfl⟩ := e2
  refine ⟨_, h, h', e, ?_, nx.trans hn, fun p h1 h2 => (f p).1 ⟨h1, h2⟩⟩
  unfold Matrix.solve
  simp only [B.solve_empty C hM, Prog.ok_bind, e']
  rfl

example : ∃ m h h', Matrix.new Heap.empty [[0, 1, 0], [], [1, 1]] = .ok (m, h) ∧
    m.solve h = .ok (.error .noSolution, h') := by
  obtain ⟨m, h, h', e, e', _⟩ := C82_empty [[0, 1, 0], [], [1, 1]] (by decide)
  exact ⟨m, h, h', e, e'⟩

/-- What C82 lacks: constraints must not repeat a row. Then `new` and `solve` return, for every list of constraints. -/
theorem C82_partial (M : List (List Nat)) (hM : ∀ col ∈ M, col.Nodup) : ∃ res, solveNew M = .ok res := by
  obtain ⟨m, h, res, h', e, e', _⟩ := C13_solve_sound M hM
  exact ⟨res, by simp [solveNew, e, e']⟩

example : ∃ res, solveNew [[0, 1], [2, 0], [1]] = .ok res := C82_partial _ (by decide)

end DancingLinks.Props
