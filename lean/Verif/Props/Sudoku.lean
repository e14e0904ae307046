import Verif.Proofs.Sudoku.Index
import Verif.Proofs.Sudoku.Print
import Verif.Proofs.Sudoku.Refine

/-!
Property theorems C01-C12 (sudoku). `solveSudoku p = .ok (res, h)` says that `solve_sudoku(p)` returns `res`
and leaves the node memory `h`; `.ok` rules out panics, undefined behaviour and non-termination. Entries are
bytes (`UInt8`), as in the code.
-/
namespace Sudoku.Props
open DancingLinks DancingLinks.Spec Sudoku Sudoku.Spec

/-- A finished grid, used as a witness. -/
def sample : List UInt8 :=
  [2, 1, 3, 4, 5, 6, 7, 8, 9,
   4, 5, 6, 7, 8, 9, 2, 1, 3,
   7, 8, 9, 2, 1, 3, 4, 5, 6,
   1, 2, 4, 3, 6, 5, 8, 9, 7,
   3, 6, 5, 8, 9, 7, 1, 2, 4,
   8, 9, 7, 1, 2, 4, 3, 6, 5,
   5, 3, 1, 6, 4, 2, 9, 7, 8,
   6, 4, 2, 9, 7, 8, 5, 3, 1,
   9, 7, 8, 5, 3, 1, 6, 4, 2]

theorem sample_valid : Valid sample := by
  refine ⟨by decide +kernel, by decide +kernel, by decide +kernel, by decide +kernel⟩

/-- The sample grid with its first row erased. -/
def puzzle : List UInt8 := List.replicate 9 0 ++ sample.drop 9

/-- It is an ordinary puzzle with a completion. -/
theorem puzzle_ok : puzzle.length = 81 ∧ (∀ v ∈ puzzle, v.toNat ≤ 9) ∧ Completes puzzle sample := by
  refine ⟨by decide +kernel, by decide +kernel, sample_valid, ?_⟩
  intro i v hi h0
  have hlen : puzzle.length = 81 := by decide +kernel
  have hlt : i < 81 := by rw [← hlen]; exact (List.getElem?_eq_some_iff.1 hi).1
  have : ∀ i < 81, ∀ v ∈ puzzle[i]?, v ≠ 0 → sample[i]? = some v := by decide +kernel
  exact this i hlt v hi h0

/-- C01: whatever grid is returned is a finished sudoku that keeps the givens. -/
theorem C01_solve_sound (p g : List UInt8) (h : Heap) (hp : p.length = 81) (h9 : ∀ v ∈ p, v.toNat ≤ 9)
    (hr : solveSudoku p = .ok (.ok g, h)) : Completes p g := by
  have key := solveSudoku_spec p hp
  cases hv : verdict [] (clues p) with
  | search =>
    rw [hv] at key
    obtain ⟨res, h', e, _, ⟨g', rfl, V, M⟩ | ⟨rfl, _⟩⟩ := key
    · rw [e] at hr; cases hr
      exact ⟨V, (meets_digits h9).1 M⟩
    · rw [e] at hr; cases hr
  | reject => rw [hv] at key; obtain ⟨h', e, _⟩ := key; rw [e] at hr; cases hr
  | dangling => rw [hv] at key; simp only at key; rw [key] at hr; cases hr

/-- The sample puzzle gets a grid (C02), which by this theorem is a completion; it is also one of the sample grid. -/
example (g : List UInt8) (h : Heap) (hr : solveSudoku puzzle = .ok (.ok g, h)) : Valid g ∧ g[9]? = some 4 := by
  have := C01_solve_sound puzzle g h puzzle_ok.1 puzzle_ok.2.1 hr
  exact ⟨this.1, this.2 9 4 (by decide +kernel) (by decide)⟩

/-- C02: if a completion exists, the solver returns one. -/
theorem C02_solve_complete (p : List UInt8) (hp : p.length = 81) (h9 : ∀ v ∈ p, v.toNat ≤ 9)
    (hc : ∃ g, Completes p g) : ∃ g h, solveSudoku p = .ok (.ok g, h) ∧ Completes p g := by
  obtain ⟨g, V, M⟩ := hc
  have M' := (meets_digits h9).2 M
  have hv := (verdict_search_iff (clues p) [] calm_nil).2 (by simpa using completable_calm hp h9 V M')
  have key := solveSudoku_spec p hp
  rw [hv] at key
  obtain ⟨res, h', e, _, ⟨g', rfl, V', M''⟩ | ⟨rfl, hn⟩⟩ := key
  · exact ⟨g', h', e, V', (meets_digits h9).1 M''⟩
  · exact absurd ⟨g, V, M'⟩ hn

example : ∃ g h, solveSudoku puzzle = .ok (.ok g, h) ∧ Completes puzzle g :=
  C02_solve_complete puzzle puzzle_ok.1 puzzle_ok.2.1 ⟨sample, puzzle_ok.2.2⟩

/-- C03: `Err(NoSolution)` is only returned for puzzles without completion. -/
theorem C03_no_solution_truthful (p : List UInt8) (h : Heap) (hp : p.length = 81) (h9 : ∀ v ∈ p, v.toNat ≤ 9)
    (hr : solveSudoku p = .ok (.error .noSolution, h)) : ¬ ∃ g, Completes p g := by
  intro hc
  obtain ⟨g, h', e, _⟩ := C02_solve_complete p hp h9 hc
  rw [e] at hr; cases hr

/-- `NoSolution` is returned for a puzzle with 1 twice in a box. -/
example : ∃ h, solveSudoku (1 :: 0 :: 1 :: List.replicate 78 0) = .ok (.error .noSolution, h) := by
  have key := solveSudoku_spec (1 :: 0 :: 1 :: List.replicate 78 0) (by decide +kernel)
  rw [show verdict [] (clues (1 :: 0 :: 1 :: List.replicate 78 0)) = .reject by decide +kernel] at key
  obtain ⟨h, e, _⟩ := key
  exact ⟨h, e⟩

/-- C04: a uniquely completable puzzle is answered with its completion. -/
theorem C04_unique (p g : List UInt8) (hp : p.length = 81) (h9 : ∀ v ∈ p, v.toNat ≤ 9)
    (hg : Completes p g) (hu : ∀ g', Completes p g' → g' = g) : ∃ h, solveSudoku p = .ok (.ok g, h) := by
  obtain ⟨g', h, e, hc⟩ := C02_solve_complete p hp h9 ⟨g, hg⟩
  rw [hu g' hc] at e
  exact ⟨h, e⟩

/-- A uniquely completable puzzle: the sample grid without its first cell. -/
theorem first_cell (g : List UInt8) (hg : Completes (sample.set 0 0) g) : g = sample := by
  obtain ⟨V, M⟩ := hg
  have all : ∀ i, 0 < i → i < 81 → g[i]? = sample[i]? := by
    intro i h0 hi
    have : ∀ i < 81, 0 < i → ∃ v ∈ sample[i]?, v ≠ 0 ∧ (sample.set 0 0)[i]? = some v := by decide +kernel
    obtain ⟨v, h1, h2, h3⟩ := this i hi h0
    rw [M i v h3 h2]; exact h1.symm
  have first : g[0]? = some 2 := by
    have hm := (V.rows 0 (by omega)).mem_iff (a := some 2)
    have e : row g 0 = g[0]? :: (List.range 8).map fun j => sample[j + 1]? := by
      simp only [row, List.range_succ_eq_map (n := 8), List.map_cons, List.map_map]
      congr 1
      apply List.map_congr_left
      intro j hj
      have := List.mem_range.1 hj
      simpa [Nat.add_comm] using all (j + 1) (by omega) (by omega)
    rw [e] at hm
    have h2 : some 2 ∈ g[0]? :: (List.range 8).map fun j => sample[j + 1]? := hm.mpr (by decide)
    rcases List.mem_cons.1 h2 with h | h
    · exact h.symm
    · exact absurd h (by decide +kernel)
  apply List.ext_getElem?
  intro i
  by_cases hi : i < 81
  · rcases Nat.eq_zero_or_pos i with rfl | h0
    · rw [first]; rfl
    · exact all i h0 hi
  · rw [List.getElem?_eq_none (by rw [V.size]; omega), List.getElem?_eq_none (by rw [sample_valid.size]; omega)]

example : ∃ h, solveSudoku (sample.set 0 0) = .ok (.ok sample, h) :=
  C04_unique _ _ (by decide +kernel) (by decide +kernel) ⟨sample_valid, by
    intro i v hi h0
    have hlt : i < 81 := (List.getElem?_eq_some_iff.1 hi).1
    have : ∀ i < 81, ∀ v ∈ (sample.set 0 0)[i]?, v ≠ 0 → sample[i]? = some v := by decide +kernel
    exact this i hlt v hi h0⟩ first_cell

theorem valid_entries {g : List UInt8} (V : Valid g) : ∀ v ∈ g, v ≠ 0 ∧ v.toNat ≤ 9 := by
  obtain ⟨f, G, rfl⟩ := valid_good V
  intro v hv
  simp only [gridOf, List.mem_map, List.mem_range] at hv
  obtain ⟨c, hc, rfl⟩ := hv
  have := G.lt c hc
  generalize f c = n at this
  have : ∀ n < 9, UInt8.ofNat n + 1 ≠ 0 ∧ (UInt8.ofNat n + 1).toNat ≤ 9 := by decide
  exact this n (by assumption)

/-- C04: finished grids are fixed points. -/
theorem C04_fixed_point (g : List UInt8) (V : Valid g) : ∃ h, solveSudoku g = .ok (.ok g, h) := by
  have hent := valid_entries V
  apply C04_unique g g V.size (fun v hv => (hent v hv).2) ⟨V, fun i v h _ => h⟩
  rintro g' ⟨V', hag⟩
  apply List.ext_getElem?
  intro i
  by_cases h : i < 81
  · have hi : g[i]? = some (g[i]'(by rw [V.size]; exact h)) := List.getElem?_eq_getElem _
    rw [hag i _ hi (hent _ (List.mem_of_getElem? hi)).1, hi]
  · rw [List.getElem?_eq_none (by rw [V'.size]; omega), List.getElem?_eq_none (by rw [V.size]; omega)]

example : ∃ h, solveSudoku sample = .ok (.ok sample, h) := C04_fixed_point sample sample_valid

/-- The clue lists that make the solver dereference a freed node: the first clue `x` that excludes an
earlier one excludes, as the earliest, a clue that is not the same digit in the same box. -/
def BadClues (cs : List Clue) : Prop :=
  ∃ pre x post a, cs = pre ++ x :: post ∧ (pre.Pairwise fun b c => clash c b = false) ∧
    pre.find? (clash x) = some a ∧ ¬ (x.digit = a.digit ∧ sameBox x a)

/-- C05, exact characterisation over all byte slices: undefined behaviour happens exactly on 81-entry inputs
whose clues are `BadClues`. -/
theorem C05_use_after_free_iff (p : List UInt8) : solveSudoku p = .ub ↔ p.length = 81 ∧ BadClues (clues p) := by
  by_cases hp : p.length = 81
  · have key := solveSudoku_spec p hp
    have hd := verdict_stop_iff (clues p) Not .dangling (.inr ⟨rfl, rfl⟩) [] calm_nil
    simp only [List.nil_append] at hd
    unfold BadClues
    constructor
    · intro h
      refine ⟨hp, hd.1 ?_⟩
      cases hv : verdict [] (clues p) with
      | search => rw [hv] at key; obtain ⟨res, h', e, _⟩ := key; rw [e] at h; cases h
      | reject => rw [hv] at key; obtain ⟨h', e, _⟩ := key; rw [e] at h; cases h
      | dangling => rfl
    · rintro ⟨_, h⟩
      rw [hd.2 h] at key
      exact key
  · have : solveSudoku p = .ok (.error (.invalidSize p.length), Heap.empty) := by
      unfold solveSudoku; rw [if_pos (by unfold gridSize; omega)]
    rw [this]; simp [hp]

/-- The clues 1 at cell 0 and 1 at cell 3 (same row, different boxes) are bad. -/
example : BadClues (clues (1 :: 0 :: 0 :: 1 :: List.replicate 77 0)) := by
  rw [show clues (1 :: 0 :: 0 :: 1 :: List.replicate 77 0) = [⟨0, 1⟩] ++ ⟨3, 1⟩ :: [] by decide +kernel]
  exact ⟨[⟨0, 1⟩], ⟨3, 1⟩, [], ⟨0, 1⟩, rfl, by simp, by decide, by decide⟩

/-- C05 for ordinary puzzles (entries 0 to 9), in terms of cell indices. The solver dereferences a freed node
exactly when: `j` is the first cell whose digit repeats an earlier one of its row, column or box, and the
earliest cell `i` with that digit in the row, column or box of `j` is not in the box of `j`. -/
theorem C05_use_after_free_digits (p : List UInt8) (h9 : ∀ v ∈ p, v.toNat ≤ 9) : solveSudoku p = .ub ↔
    p.length = 81 ∧ ∃ (i j : Nat) (d : UInt8), i < j ∧ d ≠ 0 ∧ p[i]? = some d ∧ p[j]? = some d ∧ linked i j ∧
      ¬ boxed i j ∧ (∀ k < i, p[k]? = some d → ¬ linked k j) ∧ (∀ k l, k < l → l < j → ¬ Twin p k l) := by
  rw [C05_use_after_free_iff]
  apply and_congr_right
  intro _
  exact dangling_index h9

/-- For the same puzzle, and not for two equal digits in one box. -/
example : solveSudoku (1 :: 0 :: 0 :: 1 :: List.replicate 77 0) = .ub ∧
    solveSudoku (1 :: 0 :: 1 :: List.replicate 78 0) ≠ .ub := by
  constructor
  · refine (C05_use_after_free_digits _ (by decide +kernel)).mpr ⟨by decide +kernel, 0, 3, 1, by decide, by decide,
      rfl, rfl, .inl rfl, by unfold boxed; decide, by intro k hk; omega, ?_⟩
    rintro k l h1 h2 ⟨d, h0, _, h3, _⟩
    obtain rfl | rfl : l = 1 ∨ l = 2 := by omega
    all_goals simp at h3; exact h0 h3.symm
  · have key := solveSudoku_spec (1 :: 0 :: 1 :: List.replicate 78 0) (by decide +kernel)
    rw [show verdict [] (clues (1 :: 0 :: 1 :: List.replicate 78 0)) = .reject by decide +kernel] at key
    obtain ⟨h, e, _⟩ := key
    rw [e]; intro h; cases h

/-- C05 as stated is false: a puzzle with the digit 1 twice in the first row, in different boxes. -/
theorem C05_false : ∃ p : List UInt8, p.length = 81 ∧ (∀ v ∈ p, v.toNat ≤ 9) ∧ solveSudoku p = .ub := by
  refine ⟨1 :: 0 :: 0 :: 1 :: List.replicate 77 0, by decide +kernel, by decide +kernel, ?_⟩
  have key := solveSudoku_spec (1 :: 0 :: 0 :: 1 :: List.replicate 77 0) (by decide +kernel)
  have hv : verdict [] (clues (1 :: 0 :: 0 :: 1 :: List.replicate 77 0)) = .dangling := by decide +kernel
  rw [hv] at key
  exact key

/-- C05, what is left of it (full statement: no byte slice triggers the use-after-free): inputs of any other
size, and inputs none of whose clues exclude each other, never do. In particular completable puzzles do not.
What is missing is false of the code, see `C05_false` and `C05_use_after_free_iff`. -/
theorem C05_partial (p : List UInt8)
    (hp : p.length ≠ 81 ∨ (clues p).Pairwise (fun b c => clash c b = false) ∨
      ((∀ v ∈ p, v.toNat ≤ 9) ∧ ∃ g, Completes p g)) :
    solveSudoku p ≠ .ub := by
  have calm : (clues p).Pairwise (fun b c => clash c b = false) → solveSudoku p ≠ .ub := by
    intro hc h
    obtain ⟨hl, pre, x, post, a, e, _, hf, _⟩ := (C05_use_after_free_iff p).1 h
    rw [e, List.pairwise_append] at hc
    have := hc.2.2 a (List.mem_of_find?_eq_some hf) x (by simp)
    rw [List.find?_some hf] at this; cases this
  rcases hp with h | h | ⟨h9, g, V, M⟩
  · rw [Ne, C05_use_after_free_iff]; exact fun hh => h hh.1
  · exact calm h
  · by_cases hl : p.length = 81
    · exact calm (completable_calm hl h9 V ((meets_digits h9).2 M))
    · rw [Ne, C05_use_after_free_iff]; exact fun hh => hl hh.1

example : solveSudoku puzzle ≠ .ub := C05_partial puzzle (.inr (.inr ⟨puzzle_ok.2.1, sample, puzzle_ok.2.2⟩))

/-- C06: whenever `solve_sudoku` returns, whatever the input and the result, every node it allocated has
been freed (a second free would have been undefined behaviour). -/
theorem C06_no_leak (p : List UInt8) (res) (h : Heap) (hr : solveSudoku p = .ok (res, h)) : AllFreed h := by
  by_cases hp : p.length = 81
  · have key := solveSudoku_spec p hp
    cases hv : verdict [] (clues p) with
    | search => rw [hv] at key; obtain ⟨res, h', e, f, _⟩ := key; rw [e] at hr; cases hr; exact f
    | reject => rw [hv] at key; obtain ⟨h', e, f⟩ := key; rw [e] at hr; cases hr; exact f
    | dangling => rw [hv] at key; simp only at key; rw [key] at hr; cases hr
  · have : solveSudoku p = .ok (.error (.invalidSize p.length), Heap.empty) := by
      unfold solveSudoku; rw [if_pos (by unfold gridSize; omega)]
    rw [this] at hr; cases hr
    intro q
    constructor
    · rintro ⟨h1, h2⟩; simp only [Heap.empty] at h2; omega
    · intro _; rfl

example : ∃ g h, solveSudoku puzzle = .ok (.ok g, h) ∧ AllFreed h := by
  obtain ⟨g, h, e, _⟩ := C02_solve_complete puzzle puzzle_ok.1 puzzle_ok.2.1 ⟨sample, puzzle_ok.2.2⟩
  exact ⟨g, h, e, C06_no_leak puzzle _ h e⟩

/-- C07 for `solve_sudoku`: `InvalidSize(n)` exactly on slices of length `n ≠ 81`. -/
theorem C07_solve_size (p : List UInt8) (n : Nat) :
    (∃ h, solveSudoku p = .ok (.error (.invalidSize n), h)) ↔ p.length = n ∧ n ≠ 81 := by
  by_cases hp : p.length = 81
  · constructor
    · rintro ⟨h, hr⟩
      exfalso
      have key := solveSudoku_spec p hp
      cases hv : verdict [] (clues p) with
      | search =>
        rw [hv] at key
        obtain ⟨res, h', e, _, ⟨g', rfl, V, M⟩ | ⟨rfl, _⟩⟩ := key <;> rw [e] at hr <;> cases hr
      | reject => rw [hv] at key; obtain ⟨h', e, f⟩ := key; rw [e] at hr; cases hr
      | dangling => rw [hv] at key; simp only at key; rw [key] at hr; cases hr
    · rintro ⟨h1, h2⟩; omega
  · have : solveSudoku p = .ok (.error (.invalidSize p.length), Heap.empty) := by
      unfold solveSudoku; rw [if_pos (by unfold gridSize; omega)]
    rw [this]
    constructor
    · rintro ⟨h, hr⟩; cases hr; exact ⟨rfl, hp⟩
    · rintro ⟨rfl, _⟩; exact ⟨_, rfl⟩

example : ∃ h, solveSudoku (List.replicate 80 5) = .ok (.error (.invalidSize 80), h) :=
  (C07_solve_size _ 80).mpr ⟨by simp, by omega⟩

/-- C07 for `print_sudoku`. -/
theorem C07_print_size (oc : Bool) (text : TextFn) (p : List UInt8) (n : Nat) :
    printSudoku oc text p = .ok (.error (.invalidSize n)) ↔ p.length = n ∧ n ≠ 81 := by
  by_cases hp : p.length = 81
  · rw [printSudoku_eq oc text p hp]
    constructor
    · intro h; cases h
    · rintro ⟨h1, h2⟩; omega
  · have : printSudoku oc text p = .ok (.error (.invalidSize p.length)) := by
      unfold printSudoku; rw [if_pos (by unfold gridSize; omega)]
    rw [this]
    constructor
    · intro hr; cases hr; exact ⟨rfl, hp⟩
    · rintro ⟨rfl, _⟩; rfl

example (text : TextFn) : printSudoku true text (List.replicate 82 5) = .ok (.error (.invalidSize 82)) :=
  (C07_print_size true text _ 82).mpr ⟨by simp, by omega⟩

/-- C08, what the code does with entries above 9: a grid is returned exactly when the clues (`Spec.clue`: an
entry above 9 is read as a clue for another cell, or dropped) do not exclude each other and some finished
grid meets them; the grid returned is one of those. -/
theorem C08_ok_iff (p : List UInt8) :
    ((∃ g h, solveSudoku p = .ok (.ok g, h)) ↔ p.length = 81 ∧
      (clues p).Pairwise (fun b c => clash c b = false) ∧ ∃ g, Valid g ∧ Meets g (clues p)) ∧
    ∀ g h, solveSudoku p = .ok (.ok g, h) → Valid g ∧ Meets g (clues p) := by
  by_cases hp : p.length = 81
  · have key := solveSudoku_spec p hp
    have hs := verdict_search_iff (clues p) [] calm_nil
    rw [List.nil_append] at hs
    unfold Calm at hs
    cases hv : verdict [] (clues p) with
    | search =>
      rw [hv] at key
      have hc := hs.1 hv
      obtain ⟨res, h', e, _, ⟨g', rfl, V, M⟩ | ⟨rfl, hn⟩⟩ := key
      · refine ⟨⟨fun _ => ⟨hp, hc, g', V, M⟩, fun _ => ⟨g', h', e⟩⟩, ?_⟩
        intro g h hr; rw [e] at hr; cases hr; exact ⟨V, M⟩
      · rw [e]
        refine ⟨⟨?_, fun h => absurd h.2.2 hn⟩, ?_⟩
        · rintro ⟨g, h, hr⟩; cases hr
        · intro g h hr; cases hr
    | reject =>
      rw [hv] at key
      have hc : ¬ _ := fun h => by have := hs.2 h; rw [hv] at this; cases this
      obtain ⟨h', e, f⟩ := key
      rw [e]
      refine ⟨⟨?_, fun h => absurd h.2.1 hc⟩, ?_⟩
      · rintro ⟨g, h, hr⟩; cases hr
      · intro g h hr; cases hr
    | dangling =>
      rw [hv] at key
      have hc : ¬ _ := fun h => by have := hs.2 h; rw [hv] at this; cases this
      simp only at key
      rw [key]
      refine ⟨⟨?_, fun h => absurd h.2.1 hc⟩, ?_⟩
      · rintro ⟨g, h, hr⟩; cases hr
      · intro g h hr; cases hr
  · have : solveSudoku p = .ok (.error (.invalidSize p.length), Heap.empty) := by
      unfold solveSudoku; rw [if_pos (by unfold gridSize; omega)]
    rw [this]
    refine ⟨⟨?_, fun h => absurd h.1 hp⟩, ?_⟩
    · rintro ⟨g, h, hr⟩; cases hr
    · intro g h hr; cases hr

/-- Entries above 9: a 10 at cell 0 is read as 1 at cell 1, a 19 at cell 80 is dropped. -/
example : clues ((10 :: List.replicate 79 0) ++ [19]) = [⟨1, 1⟩] := by decide +kernel

/-- C08 as stated is false: the puzzle whose only entry is the 10 at index 0 is "solved", with a grid whose
second cell is 1. -/
theorem C08_false : ∃ p : List UInt8, p.length = 81 ∧ (∃ v ∈ p, 9 < v.toNat) ∧
    ∃ g h, solveSudoku p = .ok (.ok g, h) ∧ g[1]? = some 1 := by
  have hc : clues (10 :: List.replicate 80 0) = [⟨1, 1⟩] := by decide +kernel
  have hM : Meets sample (clues (10 :: List.replicate 80 0)) := by
    rw [hc]; intro c h; rw [List.mem_singleton.1 h]; decide +kernel
  obtain ⟨k1, k2⟩ := C08_ok_iff (10 :: List.replicate 80 0)
  obtain ⟨g, h, e⟩ := k1.2 ⟨by decide +kernel, by rw [hc]; simp, sample, sample_valid, hM⟩
  refine ⟨_, by decide +kernel, ⟨10, by simp, by decide⟩, g, h, e, ?_⟩
  have := (k2 g h e).2
  rw [hc] at this
  simpa using this ⟨1, 1⟩ (by simp)

/-- C08, what is left of it (full statement: an entry above 9 never leads to `Ok`): if the clues the entries
are turned into exclude each other or fit no finished grid, the result is not `Ok`. What is missing is false
of the code, see `C08_false`. -/
theorem C08_partial (p : List UInt8)
    (hp : (∃ pre x post a, clues p = pre ++ x :: post ∧ a ∈ pre ∧ clash x a = true) ∨
      ¬ ∃ g, Valid g ∧ Meets g (clues p)) :
    ¬ ∃ g h, solveSudoku p = .ok (.ok g, h) := by
  rw [(C08_ok_iff p).1]
  rintro ⟨_, h1, h2⟩
  rcases hp with ⟨pre, x, post, a, e, ha, hc⟩ | h
  · rw [e, List.pairwise_append] at h1
    have := h1.2.2 a ha x (by simp)
    rw [hc] at this; cases this
  · exact h h2

/-- A puzzle with the entry 10 whose clues exclude each other: 1 at cell 1 (from the 10) and 1 at cell 2. -/
example : ¬ ∃ g h, solveSudoku (10 :: 0 :: 1 :: List.replicate 78 0) = .ok (.ok g, h) :=
  C08_partial _ (.inl ⟨[⟨1, 1⟩], ⟨2, 1⟩, [], ⟨1, 1⟩, by decide +kernel, by simp, by decide⟩)

/-- C09: the accepted strings are exactly those of 81 ASCII digits, and the result lists the digit values. -/
theorem C09_parse_ok_iff (s : String) (v : List UInt8) : parseSudoku s = .ok v ↔
    s.toList.length = 81 ∧ (∀ c ∈ s.toList, c.isDigit = true) ∧
      v = s.toList.map fun c => UInt8.ofNat (c.toNat - '0'.toNat) := by
  have key := collectDigits_spec s.toList
  unfold parseSudoku
  cases hf : s.toList.find? (fun c => !c.isDigit) with
  | some c =>
    rw [hf] at key
    simp only at key
    rw [key]
    constructor
    · intro h; cases h
    · rintro ⟨_, h, _⟩
      have h1 := h c (List.mem_of_find?_eq_some hf)
      have h2 := List.find?_some hf
      simp [h1] at h2
  | none =>
    rw [hf] at key
    simp only at key
    rw [key]
    have hall : ∀ c ∈ s.toList, c.isDigit = true := by simpa [List.find?_eq_none] using hf
    simp only [List.length_map]
    by_cases h : s.toList.length = 81
    · rw [if_neg (by unfold gridSize; omega)]
      constructor
      · intro e; cases e; exact ⟨h, hall, rfl⟩
      · rintro ⟨_, _, rfl⟩; rfl
    · rw [if_pos (by unfold gridSize; omega)]
      constructor
      · intro e; cases e
      · rintro ⟨h', _⟩; exact absurd h' h

example : ∃ v, parseSudoku (String.ofList (List.replicate 81 '7')) = .ok v :=
  ⟨_, (C09_parse_ok_iff _ _).2 ⟨by decide +kernel, by decide +kernel, rfl⟩⟩

/-- C09, second half: accepted strings parse to 81 entries 0 to 9, so every parsed puzzle is an ordinary one. -/
theorem C09_parsed_ordinary (s : String) (v : List UInt8) (h : parseSudoku s = .ok v) :
    v.length = 81 ∧ ∀ x ∈ v, x.toNat ≤ 9 := by
  obtain ⟨h1, h2, rfl⟩ := (C09_parse_ok_iff s v).1 h
  refine ⟨by simpa using h1, ?_⟩
  intro x hx
  obtain ⟨c, hc, rfl⟩ := List.mem_map.1 hx
  have := h2 c hc
  simp only [Char.isDigit, ge_iff_le, Bool.and_eq_true, decide_eq_true_eq, UInt32.le_iff_toNat_le] at this
  have e1 : '0'.toNat = 48 := rfl
  have e2 : '0'.val.toNat = 48 := rfl
  have e4 : '9'.val.toNat = 57 := rfl
  have e3 : c.val.toNat = c.toNat := rfl
  rw [UInt8.toNat_ofNat_of_lt' (by rw [e1]; simp only [UInt8.size]; omega), e1]
  omega

example : ∃ v, parseSudoku (String.ofList (List.replicate 80 '0' ++ ['9'])) = .ok v ∧ v[80]? = some 9 :=
  ⟨_, (C09_parse_ok_iff _ _).2 ⟨by decide +kernel, by decide +kernel, rfl⟩, by decide +kernel⟩

/-- C10: the first character that is not an ASCII digit is reported, whatever the length. -/
theorem C10_invalid_integer_iff (s : String) (c : Char) : parseSudoku s = .error (.invalidInteger c) ↔
    ∃ pre post, s.toList = pre ++ c :: post ∧ c.isDigit = false ∧ ∀ x ∈ pre, x.isDigit = true := by
  have hiff : (s.toList.find? fun c => !c.isDigit) = some c ↔
      ∃ pre post, s.toList = pre ++ c :: post ∧ c.isDigit = false ∧ ∀ x ∈ pre, x.isDigit = true := by
    rw [List.find?_eq_some_iff_append]
    constructor
    · rintro ⟨h1, pre, post, e, h2⟩
      exact ⟨pre, post, e, by simpa using h1, fun x hx => by simpa using h2 x hx⟩
    · rintro ⟨pre, post, e, h1, h2⟩
      exact ⟨by simpa using h1, pre, post, e, fun x hx => by simpa using h2 x hx⟩
  rw [← hiff]
  have key := collectDigits_spec s.toList
  unfold parseSudoku
  cases hf : s.toList.find? (fun c => !c.isDigit) with
  | some d =>
    rw [hf] at key
    simp only at key
    rw [key]
    constructor
    · intro e; cases e; rfl
    · intro e; cases e; rfl
  | none =>
    rw [hf] at key
    simp only at key
    rw [key]
    constructor
    · intro e; simp only at e; split at e <;> cases e
    · intro e; cases e

example : parseSudoku "12x4y" = .error (.invalidInteger 'x') :=
  (C10_invalid_integer_iff _ _).mpr ⟨['1', '2'], ['4', 'y'], by decide, by decide, by decide⟩

/-- C10, second half: a size complaint is made exactly for strings of digits of the wrong length, with that
length. -/
theorem C10_invalid_size_iff (s : String) (n : Nat) : parseSudoku s = .error (.invalidSize n) ↔
    (∀ c ∈ s.toList, c.isDigit = true) ∧ s.toList.length = n ∧ n ≠ 81 := by
  have key := collectDigits_spec s.toList
  unfold parseSudoku
  cases hf : s.toList.find? (fun c => !c.isDigit) with
  | some d =>
    rw [hf] at key
    simp only at key
    rw [key]
    constructor
    · intro e; cases e
    · rintro ⟨h, _⟩
      have h1 := h d (List.mem_of_find?_eq_some hf)
      have h2 := List.find?_some hf
      simp [h1] at h2
  | none =>
    rw [hf] at key
    simp only at key
    rw [key]
    have hall : ∀ c ∈ s.toList, c.isDigit = true := by simpa [List.find?_eq_none] using hf
    simp only [List.length_map]
    by_cases h : s.toList.length = 81
    · rw [if_neg (by unfold gridSize; omega)]
      constructor
      · intro e; cases e
      · rintro ⟨_, rfl, h'⟩; exact absurd h h'
    · rw [if_pos (by unfold gridSize; omega)]
      constructor
      · intro e; cases e; exact ⟨hall, rfl, h⟩
      · rintro ⟨_, rfl, _⟩; rfl

example : parseSudoku "1234" = .error (.invalidSize 4) :=
  (C10_invalid_size_iff _ _).mpr ⟨by decide, by decide, by decide⟩

/-- `parse_sudoku` never reports `NoSolution`: with C09 and C10 all its results are described. -/
theorem C10_no_other_error (s : String) : parseSudoku s ≠ .error .noSolution := by
  have key := collectDigits_spec s.toList
  unfold parseSudoku
  cases hf : s.toList.find? (fun c => !c.isDigit) with
  | some d => rw [hf] at key; simp only at key; rw [key]; intro e; cases e
  | none => rw [hf] at key; simp only at key; rw [key]; intro e; simp only at e; split at e <;> cases e

/-- C11: on every byte slice `solve_sudoku` returns, or the use-after-free of C05 occurs; it never panics
and never runs forever. -/
theorem C11_terminates (p : List UInt8) : (∃ r, solveSudoku p = .ok r) ∨ solveSudoku p = .ub := by
  by_cases hp : p.length = 81
  · have key := solveSudoku_spec p hp
    cases hv : verdict [] (clues p) with
    | search => rw [hv] at key; obtain ⟨res, h', e, f, _⟩ := key; exact .inl ⟨_, e⟩
    | reject => rw [hv] at key; obtain ⟨h', e, f⟩ := key; exact .inl ⟨_, e⟩
    | dangling => rw [hv] at key; exact .inr key
  · have : solveSudoku p = .ok (.error (.invalidSize p.length), Heap.empty) := by
      unfold solveSudoku; rw [if_pos (by unfold gridSize; omega)]
    exact .inl ⟨_, this⟩

/-- A puzzle rejected before the search (1 twice in a box), one with undefined behaviour, one that is searched. -/
example : verdict [] (clues (1 :: 0 :: 1 :: List.replicate 78 0)) = .reject := by decide +kernel
example : verdict [] (clues (1 :: 0 :: 0 :: 1 :: List.replicate 77 0)) = .dangling := by decide +kernel
example : verdict [] (clues puzzle) = .search := by decide +kernel

/-- The picture of the empty grid: black on the multiples of 100 and next to 300 and 600, else white. -/
def IsGrid (img : Img) : Prop :=
  img.width = 900 ∧ img.height = 900 ∧ ∀ x < 900, ∀ y < 900,
    img.px x y = if x % 100 = 0 ∨ y % 100 = 0 ∨ x ∈ [299, 301, 599, 601] ∨ y ∈ [299, 301, 599, 601]
      then ⟨0, 0, 0⟩ else ⟨255, 255, 255⟩

/-- The texts to draw, in order: for every non-zero entry its position and the number. -/
def texts (p : List UInt8) : List (Nat × Nat × String) :=
  p.zipIdx.filterMap fun (v, i) => if v = 0 then none else some (100 * (i % 9) + 25, 100 * (i / 9) + 5, toString v.toNat)

/-- C12: for every 81-entry puzzle `print_sudoku` succeeds with a 900x900 image, which is the picture of the
empty grid on which the texts were drawn in black, size 100, one for each non-zero entry. -/
theorem C12_print (oc : Bool) (text : TextFn) (p : List UInt8) (hp : p.length = 81) :
    ∃ base img, IsGrid base ∧ printSudoku oc text p = .ok (.ok img) ∧ img.width = 900 ∧ img.height = 900 ∧
      img = (texts p).foldl (fun i t => text.draw i ⟨0, 0, 0⟩ t.1 t.2.1 100 t.2.2) base := by
  refine ⟨gridImg 9 900, _, ⟨?_, ?_, ?_⟩, printSudoku_eq oc text p hp, ?_, ?_, ?_⟩
  · simp [gridImg]
  · simp [gridImg]
  · intro x hx y hy; exact gridImg_px hx hy
  · rw [(foldl_printNumber_dims text _ _).1]; simp [gridImg]
  · rw [(foldl_printNumber_dims text _ _).2]; simp [gridImg]
  · unfold texts
    generalize p.zipIdx = l
    generalize gridImg 9 900 = base
    induction l generalizing base with
    | nil => rfl
    | cons e l ih =>
      obtain ⟨v, i⟩ := e
      rw [List.foldl_cons, List.filterMap_cons, ih]
      by_cases h : v = 0
      · simp [h, printNumber]
      · simp only [h, if_false, printNumber, List.foldl_cons, gridSize, Nat.mul_comm 100]
        rfl

/-- The texts of a puzzle with a 7 in the second cell and a 3 in the last one. -/
example : texts ((0 :: 7 :: List.replicate 78 0) ++ [3]) = [(125, 5, "7"), (825, 805, "3")] := by decide +kernel

/-- C12, pixels: where the texts draw nothing (for instance when there are none) the image is the grid. -/
theorem C12_empty (oc : Bool) (text : TextFn) :
    ∃ img, printSudoku oc text (List.replicate 81 0) = .ok (.ok img) ∧ IsGrid img := by
  obtain ⟨base, img, hb, e, _, _, he⟩ := C12_print oc text (List.replicate 81 0) (by simp)
  have : texts (List.replicate 81 0) = [] := by decide +kernel
  rw [this] at he
  exact ⟨img, e, by rw [he]; exact hb⟩

/-- The whole chain: a string that parses and whose puzzle has a completion is solved. -/
theorem parse_solve (s : String) (v : List UInt8) (hs : parseSudoku s = .ok v) (hc : ∃ g, Completes v g) :
    ∃ g h, solveSudoku v = .ok (.ok g, h) ∧ Completes v g ∧ AllFreed h := by
  obtain ⟨h1, h2⟩ := C09_parsed_ordinary s v hs
  obtain ⟨g, h, e, c⟩ := C02_solve_complete v h1 h2 hc
  exact ⟨g, h, e, c, C06_no_leak v _ h e⟩

example : ∃ v, parseSudoku (String.ofList (List.replicate 81 '0')) = .ok v ∧ ∃ g, Completes v g := by
  refine ⟨_, (C09_parse_ok_iff _ _).2 ⟨by decide +kernel, by decide +kernel, rfl⟩, sample, sample_valid, ?_⟩
  intro i v hi h0
  have hl : (List.map (fun c => UInt8.ofNat (c.toNat - '0'.toNat)) (String.ofList (List.replicate 81 '0')).toList) =
    List.replicate 81 0 := by decide +kernel
  rw [hl, List.getElem?_replicate] at hi
  split at hi <;> simp at hi
  exact absurd hi.symm h0

/-- A grid is determined by its entries (a fact about the specification). -/
theorem shows_unique {g g' : List UInt8} {A : List Clue} (h : Shows g A) (h' : Shows g' A) : g = g' := by
  apply List.ext_getElem?
  intro i
  by_cases hi : i < 81
  · obtain ⟨x, hx, rfl⟩ := h.2.2 i hi
    rw [h.2.1 x hx, h'.2.1 x hx]
  · rw [List.getElem?_eq_none (by rw [h.1]; omega), List.getElem?_eq_none (by rw [h'.1]; omega)]

/-- C66: the result of `solve_sudoku`, also for puzzles with many completions, is the grid found by hand: answer the
first of the questions with fewest possible answers, trying its answers in order. -/
theorem C66_by_hand (p : List UInt8) (hp : p.length = 81)
    (hc : (clues p).Pairwise fun a x => clash x a = false) :
    ∃ h, match fill 324 (clues p) with
      | some A => ∃ g, Shows g A ∧ solveSudoku p = .ok (.ok g, h)
      | none => solveSudoku p = .ok (.error .noSolution, h) := by
  have hv := (verdict_search_iff (clues p) [] calm_nil).2 (by simpa [Calm] using hc)
  obtain ⟨h, ⟨A, g, h1, h2, h3⟩ | ⟨h1, h2⟩⟩ := solveSudoku_fill p hp hv 324 (Nat.le_refl _)
  · exact ⟨h, by rw [h1]; exact ⟨g, h2, h3⟩⟩
  · exact ⟨h, by rw [h1]; exact h2⟩

/-- The sample grid without the cells 0, 1, 27 and 28, which hold 2, 1, 1, 2 and might as well hold 1, 2, 2, 1. -/
def twoWays : List UInt8 := (((sample.set 0 0).set 1 0).set 27 0).set 28 0

/-- The solver answers the first question, cell 0, with 1, not with the 2 of the sample. -/
example : ((clues twoWays).Pairwise fun a x => clash x a = false) ∧
    fill 324 (clues twoWays) = some (clues twoWays ++ [⟨0, 1⟩, ⟨1, 2⟩, ⟨27, 2⟩, ⟨28, 1⟩]) := by
  constructor <;> decide +kernel

end Sudoku.Props
