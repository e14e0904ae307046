import Verif.Proofs.Nonogram.Crash
import Verif.Props.Nonogram

/-! Property theorems for the panics of `solve_nonogram` (C112). -/
namespace Nonogram.Props
open Nonogram Nonogram.Spec

theorem crashes_zero {col row : List (List Nat)} (h : Crashes col row) : ∃ r ∈ col ++ row, ¬ Framed r := by
  rcases h with ⟨x, r, hx, hn, _⟩ | ⟨_, y, r, hy, hn, _⟩
  · exact ⟨r, List.mem_append_left _ (List.mem_of_getElem? hx), hn⟩
  · exact ⟨r, List.mem_append_right _ (List.mem_of_getElem? hy), hn⟩

/-- C112. The puzzles on which `solve_nonogram` panics, exactly. -/
theorem C112_panics (oc : Bool) (col row : List (List Nat)) (hs : Sized col row) :
    solveNonogram oc col row = .panic ↔ Crashes col row := by
  by_cases hz : ∃ r ∈ col ++ row, ¬ Framed r
  · obtain ⟨b, h1, h2⟩ := solve_zero oc hs hz
    rw [h2, ← crash_iff hs hz h1]
    cases b
    · simp
    · simp
  · obtain ⟨r, h, _⟩ := C47_terminates oc col row ⟨hs, fun r hr => by
      by_contra hn
      exact hz ⟨r, hr, hn⟩⟩
    rw [h]
    exact ⟨fun h => (by cases h), fun h => absurd (crashes_zero h) hz⟩

/-- C112. The other puzzles with a rule that starts or ends with a zero are answered with `NoSolution`. -/
theorem C112_no_solution (oc : Bool) (col row : List (List Nat)) (hs : Sized col row) (hz : ∃ r ∈ col ++ row, ¬ Framed r) :
    solveNonogram oc col row = .ok (.error .NoSolution) ↔ ¬ Crashes col row := by
  rw [← C112_panics oc col row hs]
  rcases C67_zero oc col row hs hz with h | ⟨h, _⟩
  · rw [h]; simp
  · rw [h]; simp

/-- C112, for accepted rules: the solver panics exactly if some column rule starts or ends with a zero, or some row rule
does, all rows before the first such rule are open, and that rule starts with the zero or is open itself. -/
theorem C112_accepted (oc : Bool) (colText rowText : List Char) (col row : List (List Nat))
    (hc : parseNonogramRules oc colText row.length = .ok (.ok col))
    (hr : parseNonogramRules oc rowText col.length = .ok (.ok row)) (hl : Limits col row)
    (ho : oc = true ∨ ∀ r ∈ col ++ row, minLength r < 2 ^ 64) :
    solveNonogram oc col row = .panic ↔ (∃ r ∈ col, ¬ Framed r) ∨
      ∃ (y : Nat) (r : List Nat), row[y]? = some r ∧ ¬ Framed r ∧ (r.head? = some 0 ∨ Open col row.length y r) ∧
        ∀ (i : Nat) (s : List Nat), i < y → row[i]? = some s → Framed s ∧ Open col row.length i s := by
  obtain ⟨hs, kc, _⟩ := sized_of_parsed oc hc hr hl ho
  constructor
  · intro h
    rcases (C112_panics oc col row hs).1 h with ⟨x, r, hx, hn, _⟩ | ⟨_, h⟩
    · exact .inl ⟨r, List.mem_of_getElem? hx, hn⟩
    · exact .inr h
  · intro h
    by_cases hz : ∃ r ∈ col, ¬ Framed r
    · exact C67_column oc col row hs hz kc
    · refine (C112_panics oc col row hs).2 (.inr ⟨fun s hs' => ⟨?_, kc s hs'⟩, h.resolve_left hz⟩)
      by_contra hn
      exact hz ⟨s, hs', hn⟩

example (oc : Bool) : parseNonogramRules oc "2;0".toList 2 = .ok (.ok [[2], [0]]) ∧ parseNonogramRules oc "1;1".toList 2 = .ok (.ok [[1], [1]]) := by
  cases oc <;> decide
example (oc : Bool) : solveNonogram oc [[2], [0]] [[1], [1]] = .panic :=
  (C112_accepted oc "2;0".toList "1;1".toList _ _ (by cases oc <;> decide) (by cases oc <;> decide)
    (short_limits (by decide) (by decide))
    (.inr (by decide))).mpr (.inl ⟨[0], by decide, by decide⟩)

/-- C58, for empty lines: there the step finds every square that has the same value in all fillings. -/
theorem C58_empty (oc : Bool) (rule : List Nat) (hr : Framed rule) (hs : Small rule) (m : RuleMachine)
    (hm : RuleMachine.new rule = .ok m) (n : Nat) (hb : CountsFit n rule) (hx : minLength rule ≤ n) :
    ∃ line ch, m.rightLeft oc (List.replicate n .Blank) = .ok (.ok (line, ch)) ∧ line.length = n ∧
      ∀ i < n, ((∀ b, ¬ Forced n rule i b) ∧ line[i]? = some .Blank) ∨
        ∃ b, Forced n rule i b ∧ line[i]? = some (if b = true then .Filled else .Blocked) := by
  obtain ⟨m', h1, h2⟩ := machine_new hs
  obtain rfl := Prog.ok.inj (hm.symm.trans h1)
  rcases rightLeft_line oc hr hs h2 (line := List.replicate n .Blank) (by simpa using hb) with ⟨hn, _⟩ | ⟨L, R, hE, he⟩
  · obtain ⟨xs, hx⟩ := completes_blank.mpr hx
    exact absurd hx (hn xs)
  · refine ⟨_, _, he, by rw [deduce_length, List.length_replicate], fun i hi => ?_⟩
    rw [deduce_get (by simpa using hi)]
    rcases column_forced hi hE with ⟨h3, h4⟩ | ⟨b, h3, h4⟩
    · exact .inl ⟨h3, by rw [h4]⟩
    · exact .inr ⟨b, (h3 b).2 rfl, by rw [h4]⟩

/-- The rule `3` on an empty line of four forces the two middle squares only. -/
example : (∃ m, RuleMachine.new [3] = .ok m ∧
    m.rightLeft true (List.replicate 4 .Blank) = .ok (.ok ([.Blank, .Filled, .Filled, .Blank], true))) :=
  ⟨_, rfl, by decide⟩

/-- Columns `2`, `2`: every square is forced. The row rule `0` makes the solver panic although the puzzle has no
solution. -/
example (oc : Bool) : solveNonogram oc [[2], [2]] [[2], [0]] = .panic := by
  refine (C112_panics oc _ _ ⟨by unfold Small; decide, by decide, by decide, by decide, by decide⟩).2 (.inr ⟨by decide, 1, [0], rfl,
    by decide, .inl rfl, fun i s hi hs => ?_⟩)
  obtain rfl : i = 0 := by omega
  obtain rfl := Option.some.inj hs
  refine ⟨by decide, [true, true], ⟨rfl, 0, 0, rfl⟩, fun x r b hx hf => ?_⟩
  have key : ∀ r, r ∈ [[2], [2]] → Forced 2 r 0 b → b = true := by
    intro r hr hf
    have : r = [2] := by simpa using hr
    subst this
    have := hf [true, true] ⟨rfl, 0, 0, rfl⟩
    simpa using this.symm
  rw [key r (List.mem_of_getElem? hx) hf]
  match x, hx with
  | 0, _ => rfl
  | 1, _ => rfl

/-- The same with the first row `1`: the contradiction is found before the zero is reached. -/
example (oc : Bool) : solveNonogram oc [[2], [2]] [[1], [0]] = .ok (.error .NoSolution) := by
  refine (C112_no_solution oc _ _ ⟨by unfold Small; decide, by decide, by decide, by decide, by decide⟩ ⟨[0], by decide, by decide⟩).2 ?_
  have two : ∀ xs : List Bool, Filling 2 [2] xs → xs = [true, true] := by
    rintro xs ⟨h1, g, h, rfl⟩
    simp only [List.length_append, List.length_replicate] at h1
    obtain rfl : g = 0 := by omega
    obtain rfl : h = 0 := by omega
    rfl
  have notOpen : ¬ Open [[2], [2]] 2 0 [1] := by
    rintro ⟨xs, ⟨h1, h2⟩, h3⟩
    have f : Forced 2 [2] 0 true := fun xs hx => by rw [two xs hx]; rfl
    have a := h3 0 [2] true rfl f
    have b := h3 1 [2] true rfl f
    match xs, h1, a, b with
    | [_, _], _, a, b =>
      simp at a b
      subst a; subst b
      have := (follows_iff_runs _ (by unfold Positive; decide) _).1 h2
      revert this; decide
  rintro (⟨x, r, hx, hn, _⟩ | ⟨_, y, r, hy, hn, h4, h5⟩)
  · have : r = [2] := by simpa using List.mem_of_getElem? hx
    subst this
    exact hn (by decide)
  · match y, hy with
    | 0, hy =>
      obtain rfl := Option.some.inj hy
      exact hn (by decide)
    | 1, _ => exact notOpen (h5 0 [1] (by omega) rfl).2

end Nonogram.Props
