import Verif.Proofs.Nonogram.Margin
import Verif.Props.NonogramMirror

/-! C116: blank lines at the border of a puzzle. -/
namespace Nonogram.Props
open Nonogram Nonogram.Spec

theorem fits_swap {col row : List (List Nat)} (hf : Fits col row) (hc : 1 ≤ col.length) : Fits row col :=
  ⟨⟨fun r hr => hf.small r (List.mem_append.mpr (List.mem_append.mp hr).symm), hc, by rw [Nat.mul_comm]; exact hf.size,
    hf.height, hf.width⟩, fun r hr => hf.framed r (List.mem_append.mpr (List.mem_append.mp hr).symm)⟩

/-- C116. A blank row above the puzzle. -/
theorem C116_top (oc : Bool) (col row : List (List Nat)) (hf : Fits col row) (hf' : Fits col ([] :: row)) :
    (solveNonogram oc col ([] :: row) = .ok (.error .NoSolution) ↔ solveNonogram oc col row = .ok (.error .NoSolution)) ∧
    ∀ g, solveNonogram oc col ([] :: row) = .ok (.ok g) ↔
      ∃ g', solveNonogram oc col row = .ok (.ok g') ∧ g = List.replicate col.length false ++ g' := by
  have hc : ∀ r ∈ col, r.head? ≠ some 0 := fun r hr => (hf.framed r (List.mem_append_left _ hr)).1
  obtain ⟨a1, a2⟩ := C60_least oc col row hf
  obtain ⟨b1, b2⟩ := C60_least oc col ([] :: row) hf'
  constructor
  · rw [a1, b1]
    constructor
    · intro h F hF
      exact h _ ((stable_top hc hF.1).mpr hF)
    · intro h F hF
      obtain ⟨G, hl, rfl⟩ := stable_top_form hF
      exact h G ((stable_top hc hl).mp hF)
  · intro g
    rw [b2]
    constructor
    · rintro ⟨F, hF, hle, rfl⟩
      obtain ⟨G, hl, rfl⟩ := stable_top_form hF
      refine ⟨_, (a2 _).mpr ⟨G, (stable_top hc hl).mp hF, fun F' hF' => ?_, rfl⟩, ?_⟩
      · have := hle _ ((stable_top hc hF'.1).mpr hF')
        refine ⟨by rw [hF'.1, hl], fun p q hp hq => ?_⟩
        have := this.2 (col.length + p) q (by
          rw [List.getElem?_append_right (by simp), List.length_replicate, Nat.add_sub_cancel_left]; exact hp) hq
        rwa [List.getElem?_append_right (by simp), List.length_replicate, Nat.add_sub_cancel_left] at this
      · rw [List.map_append, List.map_replicate]; rfl
    · rintro ⟨g', hg, rfl⟩
      obtain ⟨G, hG, hle, rfl⟩ := (a2 _).mp hg
      refine ⟨List.replicate col.length .Blocked ++ G, (stable_top hc hG.1).mpr hG, fun F hF => ?_, ?_⟩
      · obtain ⟨F', hl, rfl⟩ := stable_top_form hF
        have := hle F' ((stable_top hc hl).mp hF)
        refine ⟨by simp [this.1], fun p q hp hq => ?_⟩
        by_cases hlt : p < col.length
        · rw [List.getElem?_append_left (by simpa using hlt)] at hp ⊢
          exact hp
        · rw [List.getElem?_append_right (by simpa using hlt)] at hp ⊢
          exact this.2 _ _ hp hq
      · rw [List.map_append, List.map_replicate]; rfl

theorem top_cells (oc : Bool) (col row : List (List Nat)) (hf : Fits col row) (hf' : Fits col ([] :: row)) (g : List Bool)
    (h : solveNonogram oc col row = .ok (.ok g)) : ∃ g', solveNonogram oc col ([] :: row) = .ok (.ok g') ∧
      (∀ x < col.length, cell col.length g' x 0 = false) ∧
      ∀ x < col.length, ∀ y, cell col.length g' x (y + 1) = cell col.length g x y := by
  refine ⟨_, ((C116_top oc col row hf hf').2 _).mpr ⟨g, h, rfl⟩, fun x hx => ?_, fun x hx y => ?_⟩
  · simp [cell, List.getElem?_append_left, hx]
  · simp only [cell, List.getD_eq_getElem?_getD]
    rw [List.getElem?_append_right (by rw [List.length_replicate, Nat.mul_succ]; omega), List.length_replicate, Nat.mul_succ,
      show col.length * y + col.length + x - col.length = col.length * y + x by omega]

/-- C116. A blank column to the left of the puzzle. -/
theorem C116_left (oc : Bool) (col row : List (List Nat)) (hf : Fits col row) (hc : 1 ≤ col.length)
    (hs : Fits ([] :: col) row) :
    (solveNonogram oc ([] :: col) row = .ok (.error .NoSolution) ↔ solveNonogram oc col row = .ok (.error .NoSolution)) ∧
    ∀ g, solveNonogram oc col row = .ok (.ok g) → ∃ g', solveNonogram oc ([] :: col) row = .ok (.ok g') ∧
      (∀ y < row.length, cell (col.length + 1) g' 0 y = false) ∧
      ∀ x < col.length, ∀ y < row.length, cell (col.length + 1) g' (x + 1) y = cell col.length g x y := by
  have hf' : Fits row col := fits_swap hf hc
  have ht : Fits row ([] :: col) := fits_swap hs (by simp)
  have t := C116_top oc row col hf' ht
  refine ⟨⟨fun h => ?_, fun h => ?_⟩, fun g hg => ?_⟩
  · exact (C62_transpose oc row col hf' hf).1 (t.1.mp ((C62_transpose oc _ row hs ht).1 h))
  · exact (C62_transpose oc row _ ht hs).1 (t.1.mpr ((C62_transpose oc _ row hf hf').1 h))
  · obtain ⟨g1, h1, c1⟩ := (C62_transpose oc col row hf hf').2 g hg
    obtain ⟨g2, h2, z2, c2⟩ := top_cells oc row col hf' ht g1 h1
    obtain ⟨g3, h3, c3⟩ := (C62_transpose oc row _ ht hs).2 g2 h2
    simp only [List.length_cons] at c3
    refine ⟨g3, h3, fun y hy => ?_, fun x hx y hy => ?_⟩
    · rw [c3 y hy 0 (by omega), z2 y hy]
    · rw [c3 y hy (x + 1) (by omega), c2 y hy x, c1 x hx y hy]

example (oc : Bool) : ∃ g, solveNonogram oc [[], [2], [1]] [[2], [1]] = .ok (.ok g) := by
  obtain ⟨g, h, _⟩ := (C116_left oc _ _ fits_two_two (by decide)
    ⟨⟨by unfold Spec.Small; decide, by decide, by decide, by decide, by decide⟩, by decide⟩).2 _ (solve_two_two oc)
  exact ⟨g, h⟩

/-- C116. A blank column to the right of the puzzle. -/
theorem C116_right (oc : Bool) (col row : List (List Nat)) (hf : Fits col row) (hc : 1 ≤ col.length)
    (hs : Fits (col ++ [[]]) row) :
    (solveNonogram oc (col ++ [[]]) row = .ok (.error .NoSolution) ↔ solveNonogram oc col row = .ok (.error .NoSolution)) ∧
    ∀ g, solveNonogram oc col row = .ok (.ok g) → ∃ g', solveNonogram oc (col ++ [[]]) row = .ok (.ok g') ∧
      (∀ y < row.length, cell (col.length + 1) g' col.length y = false) ∧
      ∀ x < col.length, ∀ y < row.length, cell (col.length + 1) g' x y = cell col.length g x y := by
  have hm := fits_mirror hf
  have hf' : Fits ([] :: col.reverse) (row.map List.reverse) :=
    by simpa using fits_mirror hs
  have l := C116_left oc _ _ hm (by rw [List.length_reverse]; exact hc) hf'
  have m1 := C74_mirror oc col row hf
  have m2 := C74_mirror oc _ _ hf'
  have e1 : ([] :: col.reverse).reverse = col ++ [[]] := by simp
  have e2 : (row.map List.reverse).map List.reverse = row := by simp [Function.comp_def]
  rw [e1, e2] at m2
  refine ⟨m2.1.trans (l.1.trans m1.1), fun g hg => ?_⟩
  obtain ⟨g1, h1, c1⟩ := m1.2 g hg
  obtain ⟨g2, h2, z2, c2⟩ := l.2 g1 h1
  obtain ⟨g3, h3, c3⟩ := m2.2 g2 h2
  simp only [List.length_cons, List.length_reverse, List.length_map, Nat.add_sub_cancel] at z2 c2 c3
  refine ⟨g3, h3, fun y hy => ?_, fun x hx y hy => ?_⟩
  · rw [c3 _ (by omega) y hy, Nat.sub_self, z2 y hy]
  · rw [c3 x (by omega) y hy, show col.length - x = (col.length - 1 - x) + 1 by omega, c2 _ (by omega) y hy,
      c1 _ (by omega) y hy, show col.length - 1 - (col.length - 1 - x) = x by omega]

/-- C116. A blank row below the puzzle. -/
theorem C116_bottom (oc : Bool) (col row : List (List Nat)) (hf : Fits col row) (hc : 1 ≤ col.length)
    (hb' : Fits col (row ++ [[]])) :
    (solveNonogram oc col (row ++ [[]]) = .ok (.error .NoSolution) ↔ solveNonogram oc col row = .ok (.error .NoSolution)) ∧
    ∀ g, solveNonogram oc col row = .ok (.ok g) → ∃ g', solveNonogram oc col (row ++ [[]]) = .ok (.ok g') ∧
      (∀ x < col.length, cell col.length g' x row.length = false) ∧
      ∀ x < col.length, ∀ y < row.length, cell col.length g' x y = cell col.length g x y := by
  have hf' : Fits row col := fits_swap hf hc
  have hr := C116_right oc row col hf' hf.rows (fits_swap hb' hc)
  have hb : Fits (row ++ [[]]) col := fits_swap hb' hc
  refine ⟨⟨fun h => ?_, fun h => ?_⟩, fun g hg => ?_⟩
  · exact (C62_transpose oc row col hf' hf).1 (hr.1.mp ((C62_transpose oc col _ hb' hb).1 h))
  · exact (C62_transpose oc _ col hb hb').1 (hr.1.mpr ((C62_transpose oc _ row hf hf').1 h))
  · obtain ⟨g1, h1, c1⟩ := (C62_transpose oc col row hf hf').2 g hg
    obtain ⟨g2, h2, z2, c2⟩ := hr.2 g1 h1
    obtain ⟨g3, h3, c3⟩ := (C62_transpose oc _ col hb hb').2 g2 h2
    simp only [List.length_append, List.length_singleton] at c3
    refine ⟨g3, h3, fun x hx => ?_, fun x hx y hy => ?_⟩
    · rw [c3 row.length (by omega) x hx, z2 x hx]
    · rw [c3 y (by omega) x hx, c2 y hy x hx, c1 x hx y hy]

/-- C116 on the first puzzle of the tests, with a blank line on one side. -/
example (oc : Bool) : solveNonogram oc [[2], [1]] [[], [2], [1]] = .ok (.ok [false, false, true, true, true, false]) :=
  ((C116_top oc _ _ fits_two_two
    ⟨⟨by unfold Spec.Small; decide, by decide, by decide, by decide, by decide⟩, by decide⟩).2 _).mpr ⟨_, solve_two_two oc, rfl⟩
example (oc : Bool) : ∃ g, solveNonogram oc [[2], [1], []] [[2], [1]] = .ok (.ok g) ∧ cell 3 g 1 0 = true := by
  obtain ⟨g, h, _, hc⟩ := (C116_right oc _ _ fits_two_two (by decide)
    ⟨⟨by unfold Spec.Small; decide, by decide, by decide, by decide, by decide⟩, by decide⟩).2 _ (solve_two_two oc)
  exact ⟨g, h, (hc 1 (by decide) 0 (by decide)).trans rfl⟩

end Nonogram.Props
