import Verif.Proofs.Nonogram.Mirror
import Verif.Props.Nonogram

/-!
Property theorems about mirrored puzzles (C74).
-/
namespace Nonogram.Props
open Nonogram Nonogram.Spec

/-! ### C74: left and right, top and bottom are treated alike -/

/-- C74, one direction of the first part. -/
theorem mirror_aux (oc : Bool) (col row : List (List Nat)) (hf : Fits col row) :
    (solveNonogram oc col row = .ok (.error .NoSolution) →
      solveNonogram oc col.reverse (row.map List.reverse) = .ok (.error .NoSolution)) ∧
    ∀ g, solveNonogram oc col row = .ok (.ok g) →
      ∃ g', solveNonogram oc col.reverse (row.map List.reverse) = .ok (.ok g') ∧
        ∀ x < col.length, ∀ y < row.length, cell col.length g' x y = cell col.length g (col.length - 1 - x) y := by
  have hinv : ∀ {F}, Stable col.reverse (row.map List.reverse) F → Stable col row (mirror col.length F) := by
    intro F hF
    have := stable_mirror hF
    simpa [Function.comp_def] using this
  obtain ⟨h1, h2⟩ := C60_least oc col row hf
  obtain ⟨h3, h4⟩ := C60_least oc _ _ (fits_mirror hf)
  constructor
  · intro h
    exact h3.mpr fun F hF => h1.mp h _ (hinv hF)
  · intro g hg
    obtain ⟨G, hst, hle, rfl⟩ := (h2 g).mp hg
    refine ⟨_, (h4 _).mpr ⟨_, stable_mirror hst, fun F hF => ?_, rfl⟩, fun x hx y hy => ?_⟩
    · have hl : F.length = col.length * row.length := by simpa using hF.1
      have := extends_mirror hst.1 (hle _ (hinv hF))
      rwa [mirror_mirror hl] at this
    · unfold cell
      rw [List.getD_eq_getElem?_getD, List.getD_eq_getElem?_getD, List.getElem?_map, List.getElem?_map,
        mirror_get hst.1 hx hy]
      have hi : col.length * y + (col.length - 1 - x) < G.length := by
        rw [hst.1]; exact index_lt' (by omega) hy
      simp [List.getD_eq_getElem?_getD, List.getElem?_eq_getElem hi]

/-- C74. Solving the puzzle seen in a mirror, columns in reverse order and every row rule reversed, gives the same
answer seen in a mirror. -/
theorem C74_mirror (oc : Bool) (col row : List (List Nat)) (hf : Fits col row) :
    (solveNonogram oc col.reverse (row.map List.reverse) = .ok (.error .NoSolution) ↔
      solveNonogram oc col row = .ok (.error .NoSolution)) ∧
    ∀ g, solveNonogram oc col row = .ok (.ok g) →
      ∃ g', solveNonogram oc col.reverse (row.map List.reverse) = .ok (.ok g') ∧
        ∀ x < col.length, ∀ y < row.length, cell col.length g' x y = cell col.length g (col.length - 1 - x) y := by
  refine ⟨⟨fun h => ?_, (mirror_aux oc col row hf).1⟩, (mirror_aux oc col row hf).2⟩
  have := (mirror_aux oc _ _ (fits_mirror hf)).1 h
  simpa [Function.comp_def] using this

/-- C74, upside down: rows in reverse order and every column rule reversed. -/
theorem C74_upside_down (oc : Bool) (col row : List (List Nat)) (hf : Fits col row) (hf' : Fits row col) :
    (solveNonogram oc (col.map List.reverse) row.reverse = .ok (.error .NoSolution) ↔
      solveNonogram oc col row = .ok (.error .NoSolution)) ∧
    ∀ g, solveNonogram oc col row = .ok (.ok g) →
      ∃ g', solveNonogram oc (col.map List.reverse) row.reverse = .ok (.ok g') ∧
        ∀ x < col.length, ∀ y < row.length, cell col.length g' x y = cell col.length g x (row.length - 1 - y) := by
  have hm := fits_mirror hf'
  have hm' : Fits (col.map List.reverse) row.reverse := by
    refine ⟨⟨?_, ?_, ?_, ?_, ?_⟩, ?_⟩
    · exact fun r hr => hm.small r (by rw [List.mem_append] at hr ⊢; exact hr.symm)
    · rw [List.length_reverse]; exact hf.rows
    · rw [List.length_map, List.length_reverse]; exact hf.size
    · rw [List.length_map]; exact ⟨hf.width.1, fun rule hr => hf.width.2 rule (List.mem_reverse.mp hr)⟩
    · have := hm.width
      rwa [List.length_reverse] at this ⊢
    · exact fun r hr => hm.framed r (by rw [List.mem_append] at hr ⊢; exact hr.symm)
  obtain ⟨a1, a2⟩ := C62_transpose oc col row hf hf'
  obtain ⟨b1, _⟩ := C62_transpose oc row col hf' hf
  obtain ⟨c1, c2⟩ := C74_mirror oc row col hf'
  obtain ⟨d1, d2⟩ := C62_transpose oc _ _ hm hm'
  obtain ⟨e1, _⟩ := C62_transpose oc _ _ hm' hm
  refine ⟨⟨fun h => b1 (c1.mp (e1 h)), fun h => d1 (c1.mpr (a1 h))⟩, fun g hg => ?_⟩
  obtain ⟨g1, h1, k1⟩ := a2 g hg
  obtain ⟨g2, h2, k2⟩ := c2 g1 h1
  obtain ⟨g3, h3, k3⟩ := d2 g2 h2
  refine ⟨g3, h3, fun x hx y hy => ?_⟩
  have k3' := k3 y (by simpa using hy) x (by simpa using hx)
  rw [List.length_map, List.length_reverse] at k3'
  rw [k3', k2 y hy x hx, k1 x hx _ (by omega)]

/-- The hypotheses of C74 are met by a puzzle that is neither square nor symmetric, and by a solved one. -/
example : Fits [[1], [1, 1], [2], [1]] [[3], [1], [1, 1]] ∧ Fits [[3], [1], [1, 1]] [[1], [1, 1], [2], [1]] := by
  constructor <;>
    exact ⟨⟨by unfold Small; decide, by decide, by decide, by decide, by decide⟩, by decide⟩
example : ∃ g, solveNonogram true [[1], [2]] [[2], [1]] = .ok (.ok g) := by
  obtain ⟨g, h, _⟩ := (C74_mirror true _ _ fits_two_two).2 _ (solve_two_two true)
  exact ⟨g, h⟩

end Nonogram.Props
