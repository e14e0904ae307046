import Verif.Proofs.Nonogram.Closed

/-! C115: `solve_nonogram` against solving line by line. -/
namespace Nonogram.Props
open Nonogram Nonogram.Spec

/-- C115. Solving line by line finds everything that `solve_nonogram` finds: the squares it fills are filled in every grid in
which no line tells anything more. -/
theorem C115_filled (oc : Bool) (col row : List (List Nat)) (hf : Fits col row) (g : List Bool)
    (h : solveNonogram oc col row = .ok (.ok g)) (F : List Square) (hF : Closed col row F) (p : Nat)
    (hp : g[p]? = some true) : F[p]? = some .Filled := by
  obtain ⟨G, _, hle, rfl⟩ := ((C60_least oc col row hf).2 g).mp h
  rw [List.getElem?_map, Option.map_eq_some_iff] at hp
  obtain ⟨q, hq, hd⟩ := hp
  obtain rfl : q = .Filled := of_decide_eq_true hd
  exact (hle F (closed_stable hF)).2 p _ hq (by simp)

/-- C115. If it reports that there is no solution, then solving line by line meets a line that cannot be completed. -/
theorem C115_no_solution (oc : Bool) (col row : List (List Nat)) (hf : Fits col row)
    (h : solveNonogram oc col row = .ok (.error .NoSolution)) (F : List Square) : ¬ Closed col row F :=
  fun hF => (C60_least oc col row hf).1.mp h F (closed_stable hF)

/-- C115. If it solves the puzzle, then so does solving line by line: the solution is the only grid in which no line tells
anything more. -/
theorem C115_solved (oc : Bool) (col row : List (List Nat)) (hf : Fits col row) (g : List Bool)
    (h : solveNonogram oc col row = .ok (.ok g)) (hg : Solves col row g) (F : List Square) :
    Closed col row F ↔ F = squares g := by
  constructor
  · intro hF
    obtain ⟨G, hst, hle, rfl⟩ := ((C60_least oc col row hf).2 g).mp h
    have hB := (solves_iff_known hf hst.1 ((stable_iff hf hst.1).mp hst)).mp hg
    obtain ⟨hl, he⟩ := hle F (closed_stable hF)
    apply List.ext_getElem?
    intro p
    by_cases hp : p < G.length
    · have hne : G[p] ≠ .Blank := fun hb => hB (hb ▸ List.getElem_mem hp)
      rw [he p _ (List.getElem?_eq_getElem hp) hne]
      simp only [squares, List.map_map, List.getElem?_map, List.getElem?_eq_getElem hp, Option.map_some, Function.comp]
      cases hq : G[p] with
      | Blank => exact absurd hq hne
      | Filled => rfl
      | Blocked => rfl
    · rw [List.getElem?_eq_none (by omega), List.getElem?_eq_none (by simp [squares]; omega)]
  · rintro rfl
    exact closed_of_solves hg

/-- C115 on the first puzzle of the tests and on one without a solution. -/
example (oc : Bool) (F : List Square) (hF : Closed [[2], [1]] [[2], [1]] F) : F[0]? = some .Filled :=
  C115_filled oc _ _ fits_two_two _ (solve_two_two oc) F hF 0 rfl
example (F : List Square) : ¬ Closed [[1]] [[]] F :=
  C115_no_solution true _ _ ⟨⟨by unfold Spec.Small; decide, by decide, by decide, by decide, by decide⟩, by decide⟩
    (solve_clash true) F

/-- C115. The solutions are among the grids in which no line tells anything more. -/
theorem C115_solution (col row : List (List Nat)) (b : List Bool) (hb : Solves col row b) : Closed col row (squares b) :=
  closed_of_solves hb

/-! ### The converse is false -/

theorem known3 {a b c : Square} {rule : List Nat} (h : ClosedLine [a, b, c] rule) (hp : Positive rule) (i : Nat) (v : Bool)
    (hi : i < 3) (hf : ∀ x y z, Compat a x → Compat b y → Compat c z → runs [x, y, z] = rule → [x, y, z][i]? = some v) :
    [a, b, c][i]? = some (if v = true then .Filled else .Blocked) := by
  refine closedLine_forced h hp i v hi fun xs ha hr => ?_
  match xs, ha.1 with
  | [x, y, z], _ =>
    simp only [agrees_cons] at ha
    exact hf x y z ha.1 ha.2.1 ha.2.2.1 hr

theorem known5 {a b c d e : Square} {rule : List Nat} (h : ClosedLine [a, b, c, d, e] rule) (hp : Positive rule) (i : Nat)
    (v : Bool) (hi : i < 5) (hf : ∀ x y z u w, Compat a x → Compat b y → Compat c z → Compat d u → Compat e w →
      runs [x, y, z, u, w] = rule → [x, y, z, u, w][i]? = some v) :
    [a, b, c, d, e][i]? = some (if v = true then .Filled else .Blocked) := by
  refine closedLine_forced h hp i v hi fun xs ha hr => ?_
  match xs, ha.1 with
  | [x, y, z, u, w], _ =>
    simp only [agrees_cons] at ha
    exact hf x y z u w ha.1 ha.2.1 ha.2.2.1 ha.2.2.2.1 ha.2.2.2.2.1 hr

/-- Columns 2 | 1, 1 | 2, 1 and rows 1 | 1, 1 | 2 | 1 | 1. -/
def missedCol : List (List Nat) := [[2], [1, 1], [2, 1]]
def missedRow : List (List Nat) := [[1], [1, 1], [2], [1], [1]]

/-- Columns 1, 1 | 1, 1 and rows 1 | 1 | 2 | 1 | 1. -/
def clashCol : List (List Nat) := [[1, 1], [1, 1]]
def clashRow : List (List Nat) := [[1], [1], [2], [1], [1]]

local macro "lines" : tactic =>
  `(tactic| (simp only [Bool.forall_bool]; simp [Compat, runs, missedCol, missedRow, clashCol, clashRow]))

/-- Its solution. -/
def missedSolution : List Bool :=
  [false, false, true, true, false, true, true, true, false, false, false, true, false, true, false]

theorem missed_closed (F : List Square) (hF : Closed missedCol missedRow F) : F = squares missedSolution := by
  obtain ⟨hl, hc, hr⟩ := hF
  match F, hl with
  | [a, b, c, d, e, f, g, h, i, j, k, l, m, n, o], _ =>
    obtain rfl : d = .Filled := Option.some.inj
      (known3 (hr 1 _ rfl) (by unfold Positive; decide) 0 true (by decide) (by lines))
    obtain rfl : e = .Blocked := Option.some.inj
      (known3 (hr 1 _ rfl) (by unfold Positive; decide) 1 false (by decide) (by lines))
    obtain rfl : f = .Filled := Option.some.inj
      (known3 (hr 1 _ rfl) (by unfold Positive; decide) 2 true (by decide) (by lines))
    obtain rfl : h = .Filled := Option.some.inj
      (known3 (hr 2 _ rfl) (by unfold Positive; decide) 1 true (by decide) (by lines))
    obtain rfl : j = .Blocked := Option.some.inj
      (known5 (hc 0 _ rfl) (by unfold Positive; decide) 3 false (by decide) (by lines))
    obtain rfl : m = .Blocked := Option.some.inj
      (known5 (hc 0 _ rfl) (by unfold Positive; decide) 4 false (by decide) (by lines))
    obtain rfl : k = .Blocked := Option.some.inj
      (known5 (hc 1 _ rfl) (by unfold Positive; decide) 3 false (by decide) (by lines))
    obtain rfl : l = .Filled := Option.some.inj
      (known3 (hr 3 _ rfl) (by unfold Positive; decide) 2 true (by decide) (by lines))
    obtain rfl : c = .Filled := Option.some.inj
      (known5 (hc 2 _ rfl) (by unfold Positive; decide) 0 true (by decide) (by lines))
    obtain rfl : i = .Blocked := Option.some.inj
      (known5 (hc 2 _ rfl) (by unfold Positive; decide) 2 false (by decide) (by lines))
    obtain rfl : o = .Blocked := Option.some.inj
      (known5 (hc 2 _ rfl) (by unfold Positive; decide) 4 false (by decide) (by lines))
    obtain rfl : a = .Blocked := Option.some.inj
      (known3 (hr 0 _ rfl) (by unfold Positive; decide) 0 false (by decide) (by lines))
    obtain rfl : b = .Blocked := Option.some.inj
      (known3 (hr 0 _ rfl) (by unfold Positive; decide) 1 false (by decide) (by lines))
    obtain rfl : g = .Filled := Option.some.inj
      (known3 (hr 2 _ rfl) (by unfold Positive; decide) 0 true (by decide) (by lines))
    obtain rfl : n = .Filled := Option.some.inj
      (known3 (hr 4 _ rfl) (by unfold Positive; decide) 1 true (by decide) (by lines))

    rfl

theorem missed_solves : Solves missedCol missedRow missedSolution := by
  refine ⟨rfl, fun x r h => ?_, fun y r h => ?_⟩
  · match x with
    | 0 | 1 | 2 =>
      obtain rfl := Option.some.inj h
      exact (follows_iff_runs _ (by unfold Positive; decide) _).mpr (by decide)
    | n + 3 => simp [missedCol] at h
  · match y with
    | 0 | 1 | 2 | 3 | 4 =>
      obtain rfl := Option.some.inj h
      exact (follows_iff_runs _ (by unfold Positive; decide) _).mpr (by decide)
    | n + 5 => simp [missedRow] at h

/-- Where `solve_nonogram` gets stuck on it. -/
def missedStuck : List Square :=
  [.Blank, .Blank, .Blank, .Filled, .Blocked, .Filled, .Blank, .Filled, .Blank, .Blocked, .Blank, .Blank, .Blocked, .Blank, .Blank]

local macro "stuck" : tactic => `(tactic| exact stableB_all (by unfold Positive; decide) (by decide +kernel))

theorem missed_stable : Stable missedCol missedRow missedStuck := by
  refine ⟨rfl, fun x r h => ?_, fun y r h => ?_⟩
  · match x with
    | 0 | 1 | 2 => obtain rfl := Option.some.inj h; stuck
    | n + 3 => simp [missedCol] at h
  · match y with
    | 0 | 1 | 2 | 3 | 4 => obtain rfl := Option.some.inj h; stuck
    | n + 5 => simp [missedRow] at h

/-- C115, the converse fails: there is a puzzle that is solved by looking at one line at a time, but not by
`solve_nonogram`, which returns a grid that is not the solution. -/
theorem C115_misses : ∃ col row b, Fits col row ∧ Solves col row b ∧ (∀ F, Closed col row F ↔ F = squares b) ∧
    ∀ oc, ∃ g, solveNonogram oc col row = .ok (.ok g) ∧ ¬ Solves col row g := by
  have hf : Fits missedCol missedRow :=
    ⟨⟨by unfold Spec.Small; decide, by decide, by decide, by decide, by decide⟩, by decide⟩
  refine ⟨missedCol, missedRow, missedSolution, hf, missed_solves, fun F => ⟨missed_closed F, ?_⟩, fun oc => ?_⟩
  · rintro rfl; exact closed_of_solves missed_solves
  · rcases propagate_least oc hf with ⟨hno, _⟩ | ⟨G, hst, hle, _, hs⟩
    · exact absurd missed_stable (hno _)
    · refine ⟨_, hs, fun hg => ?_⟩
      have hB := (solves_iff_known hf hst.1 ((stable_iff hf hst.1).mp hst)).mp hg
      obtain ⟨hl, he⟩ := hle _ missed_stable
      have hp : 0 < G.length := by rw [← hl]; decide
      have := he 0 _ (List.getElem?_eq_getElem hp) (fun hb => hB (hb ▸ List.getElem_mem hp))
      exact hB (Option.some.inj this ▸ List.getElem_mem hp)

theorem known2 {a b : Square} {rule : List Nat} (h : ClosedLine [a, b] rule) (hp : Positive rule) (i : Nat) (v : Bool)
    (hi : i < 2) (hf : ∀ x y, Compat a x → Compat b y → runs [x, y] = rule → [x, y][i]? = some v) :
    [a, b][i]? = some (if v = true then .Filled else .Blocked) := by
  refine closedLine_forced h hp i v hi fun xs ha hr => ?_
  match xs, ha.1 with
  | [x, y], _ =>
    simp only [agrees_cons] at ha
    exact hf x y ha.1 ha.2.1 hr

theorem clash_closed (F : List Square) : ¬ Closed clashCol clashRow F := by
  rintro ⟨hl, hc, hr⟩
  match F, hl with
  | [a, b, c, d, e, f, g, h, i, j], _ =>
    obtain rfl : e = .Filled := Option.some.inj
      (known2 (hr 2 _ rfl) (by unfold Positive; decide) 0 true (by decide) (by lines))
    obtain rfl : f = .Filled := Option.some.inj
      (known2 (hr 2 _ rfl) (by unfold Positive; decide) 1 true (by decide) (by lines))
    obtain rfl : c = .Blocked := Option.some.inj
      (known5 (hc 0 _ rfl) (by unfold Positive; decide) 1 false (by decide) (by lines))
    have hd : d = .Filled := Option.some.inj
      (known2 (hr 1 _ rfl) (by unfold Positive; decide) 1 true (by decide) (by lines))
    have hd' : d = .Blocked := Option.some.inj
      (known5 (hc 1 _ rfl) (by unfold Positive; decide) 1 false (by decide) (by lines))
    exact absurd (hd.symm.trans hd') (by decide)

/-- Where `solve_nonogram` gets stuck on it. -/
def clashStuck : List Square :=
  [.Blank, .Blank, .Blank, .Blank, .Filled, .Filled, .Blank, .Blank, .Blank, .Blank]

theorem clash_stable : Stable clashCol clashRow clashStuck := by
  refine ⟨rfl, fun x r h => ?_, fun y r h => ?_⟩
  · match x with
    | 0 | 1 => obtain rfl := Option.some.inj h; stuck
    | n + 2 => simp [clashCol] at h
  · match y with
    | 0 | 1 | 2 | 3 | 4 => obtain rfl := Option.some.inj h; stuck
    | n + 5 => simp [clashRow] at h

/-- C115, the converse fails for `NoSolution` too: there is a puzzle in which looking at one line at a time ends with a line
that cannot be completed, and `solve_nonogram` returns a grid. -/
theorem C115_misses_clash : ∃ col row, Fits col row ∧ (∀ F, ¬ Closed col row F) ∧
    ∀ oc, ∃ g, solveNonogram oc col row = .ok (.ok g) := by
  have hf : Fits clashCol clashRow :=
    ⟨⟨by unfold Spec.Small; decide, by decide, by decide, by decide, by decide⟩, by decide⟩
  refine ⟨clashCol, clashRow, hf, clash_closed, fun oc => ?_⟩
  rcases propagate_least oc hf with ⟨hno, _⟩ | ⟨G, _, _, _, hs⟩
  · exact absurd clash_stable (hno _)
  · exact ⟨_, hs⟩

end Nonogram.Props
