import Verif.Props.SudokuPicture
import Verif.Props.NonogramPicture
import Verif.Props.NonogramPrint

/-!
C120: from the text a user enters to the picture a user sees, for sudokus and for nonograms.
-/

namespace Sudoku.Props
open Sudoku Sudoku.Spec

/-- C120, sudokus. For a text of 81 digits that can be completed (0 standing for an empty cell), parsing, solving and
printing succeed, and with a readable font the picture shows, cell by cell, a finished sudoku that has the digits of the
text where the text is not 0. If the text cannot be completed, nothing is printed: the solver reports `NoSolution` or
uses freed memory (C52). -/
theorem C120_sudoku (oc : Bool) (text : TextFn) (shade : Nat → Nat → Nat → Rgb) (G : Glyphs text shade) (s : String)
    (h81 : s.toList.length = 81) (hd : ∀ c ∈ s.toList, c.isDigit = true) :
    ∃ p, parseSudoku s = .ok p ∧
      ((∃ g, Valid g ∧ ∀ (i : Nat) (c : Char), s.toList[i]? = some c → c ≠ '0' →
          g[i]? = some (UInt8.ofNat (c.toNat - '0'.toNat))) →
        ∃ g heap img, solveSudoku p = .ok (.ok g, heap) ∧ printSudoku oc text g = .ok (.ok img) ∧ Valid g ∧
          (∀ (i : Nat) (c : Char), s.toList[i]? = some c → c ≠ '0' → g[i]? = some (UInt8.ofNat (c.toNat - '0'.toNat))) ∧
          ∀ (k : Nat) (d : UInt8), g[k]? = some d → ∀ a < 70, ∀ b < 90,
            img.px (100 * (k % 9) + 25 + a) (100 * (k / 9) + 5 + b) = shade d.toNat a b) ∧
      ((¬ ∃ g, Valid g ∧ ∀ (i : Nat) (c : Char), s.toList[i]? = some c → c ≠ '0' →
          g[i]? = some (UInt8.ofNat (c.toNat - '0'.toNat))) →
        (∃ heap, solveSudoku p = .ok (.error .noSolution, heap)) ∨ solveSudoku p = .ub) := by
  have hp := (C09_parse_ok_iff s _).mpr ⟨h81, hd, rfl⟩
  obtain ⟨hl, h9⟩ := C09_parsed_ordinary s _ hp
  have hz : ∀ c : Char, c.isDigit = true → (UInt8.ofNat (c.toNat - '0'.toNat) = 0 ↔ c = '0') := by
    intro c hc
    simp only [Char.isDigit, ge_iff_le, Bool.and_eq_true, decide_eq_true_eq, UInt32.le_iff_toNat_le] at hc
    have e1 : '0'.toNat = 48 := rfl
    have e2 : '0'.val.toNat = 48 := rfl
    have e3 : c.val.toNat = c.toNat := rfl
    have e4 : '9'.val.toNat = 57 := rfl
    constructor
    · intro h
      have := congrArg UInt8.toNat h
      rw [UInt8.toNat_ofNat_of_lt' (by rw [e1]; simp only [UInt8.size]; omega)] at this
      refine Char.toNat_inj.mp ?_
      have h0 : (0 : UInt8).toNat = 0 := rfl
      omega
    · rintro rfl; rfl
  have hcomp : ∀ g, Completes (s.toList.map fun c => UInt8.ofNat (c.toNat - '0'.toNat)) g ↔
      Valid g ∧ ∀ (i : Nat) (c : Char), s.toList[i]? = some c → c ≠ '0' →
        g[i]? = some (UInt8.ofNat (c.toNat - '0'.toNat)) := by
    intro g
    refine and_congr_right fun _ => ⟨fun h i c hc h0 => ?_, fun h i v hv h0 => ?_⟩
    · exact h i _ (by rw [List.getElem?_map, hc]; rfl) fun he => h0 ((hz c (hd c (List.mem_of_getElem? hc))).mp he)
    · rw [List.getElem?_map, Option.map_eq_some_iff] at hv
      obtain ⟨c, hc, rfl⟩ := hv
      exact h i c hc fun he => h0 ((hz c (hd c (List.mem_of_getElem? hc))).mpr he)
  refine ⟨_, hp, fun hc => ?_, fun hn => ?_⟩
  · obtain ⟨g, heap, hs, hg⟩ := C02_solve_complete _ hl h9 (hc.imp fun g hg => (hcomp g).mpr hg)
    obtain ⟨_, img, _, hi, _, _, hcell, _⟩ :=
      C94_cells oc text shade G g hg.1.size fun v hv => (valid_entries hg.1 v hv).2
    exact ⟨g, heap, img, hs, hi, hg.1, ((hcomp g).mp hg).2, hcell⟩
  · have key := solveSudoku_spec _ hl
    cases hv : verdict [] (clues (s.toList.map fun c => UInt8.ofNat (c.toNat - '0'.toNat))) with
    | search =>
      rw [hv] at key
      obtain ⟨res, h', e, _, ⟨g', rfl, V, M⟩ | ⟨rfl, _⟩⟩ := key
      · exact absurd ⟨g', (hcomp g').mp ⟨V, (meets_digits h9).1 M⟩⟩ hn
      · exact .inl ⟨h', e⟩
    | reject => rw [hv] at key; obtain ⟨h', e, _⟩ := key; exact .inl ⟨h', e⟩
    | dangling => rw [hv] at key; exact .inr key

/-- A text with the clues of the sample puzzle, and one with two 1s in a box. -/
example : ∃ p g heap img, parseSudoku (String.ofList (puzzle.map fun v => Char.ofNat (48 + v.toNat))) = .ok p ∧
    solveSudoku p = .ok (.ok g, heap) ∧ printSudoku true dots g = .ok (.ok img) := by
  obtain ⟨p, h1, h2, _⟩ := C120_sudoku true dots _ dots_glyphs
    (String.ofList (puzzle.map fun v => Char.ofNat (48 + v.toNat))) (by decide +kernel) (by decide +kernel)
  obtain ⟨g, heap, img, h3, h4, _⟩ := h2 ⟨sample, puzzle_ok.2.2.1, fun i c hc h0 => by
    have key : ∀ i < 81, ((String.ofList (puzzle.map fun v => Char.ofNat (48 + v.toNat))).toList[i]?.all fun c =>
        c == '0' || sample[i]? == some (UInt8.ofNat (c.toNat - '0'.toNat))) = true := by decide +kernel
    have hi : i < 81 := lt_of_lt_of_eq (List.getElem?_eq_some_iff.mp hc).1 (by decide +kernel)
    have hk := key i hi
    rw [hc] at hk
    simpa [h0] using hk⟩
  exact ⟨p, g, heap, img, h1, h3, h4⟩

end Sudoku.Props

namespace Nonogram.Props
open Nonogram Nonogram.Spec

/-- C120, nonograms. Write down the rules of a picture without empty lines as texts. Then parsing both texts, solving,
printing the puzzle and printing the answer into it all succeed. In the final image only squares that are filled in the
picture are painted; all other squares are left as they were. If the answer satisfies the rules, exactly the filled
squares of the picture are painted. -/
theorem C120_nonogram (oc : Bool) (text : TextFn) (w h : Nat) (pic : List Bool) (hl : pic.length = w * h) (hw : 1 ≤ w)
    (hh : 1 ≤ h) (hw' : w ≤ 65535) (hh' : h ≤ 65535) (hn : NoEmptyLine w h pic) :
    ∃ col row a img img', parseNonogramRules oc (writeRules (colRules w h pic)) h = .ok (.ok col) ∧
      parseNonogramRules oc (writeRules (rowRules w h pic)) w = .ok (.ok row) ∧
      solveNonogram oc col row = .ok (.ok a) ∧ printNonogram oc text w h col row = .ok (.ok img) ∧
      printNonogramSolution oc w h img a = .ok (.ok img') ∧
      (∀ cx < w, ∀ cy < h, ∀ x y, Inside w cx x → Inside h cy y →
        img'.px x y = img.px x y ∨ pic[w * cy + cx]? = some true ∧ img'.px x y = ⟨0, 0, 0⟩) ∧
      (Solves col row a → ∀ cx < w, ∀ cy < h, ∀ x y, Inside w cx x → Inside h cy y →
        (pic[w * cy + cx]? = some true → img'.px x y = ⟨0, 0, 0⟩) ∧
        (pic[w * cy + cx]? = some false → img'.px x y = img.px x y)) := by
  obtain ⟨h1, h2, h3, _⟩ := C87_picture oc w h pic hl hw hh
    (short_limits (by simp [colRules]; omega) (by simp [rowRules]; omega))
  obtain ⟨a, h4, h5, h6, h7⟩ := h3 hn
  have hcl : (colRules w h pic).length = w := by simp [colRules]
  have hrl : (rowRules w h pic).length = h := by simp [rowRules]
  have hp : Printable w h := printable_of_le (by omega) (by omega)
  have hr : ∀ r ∈ colRules w h pic, 30 * r.length < 2 ^ 31 := by
    intro r hr
    obtain ⟨x, hx⟩ := List.getElem?_of_mem hr
    have := follows_length ((solves_rules hl).2.1 x r hx)
    simp [column, hrl, minLength] at this
    omega
  have hs : w * h < 2 ^ 32 := lt_of_le_of_lt (Nat.mul_le_mul hw' hh') (by decide)
  obtain ⟨img, h8, h9, h10, _⟩ := C50_print oc text (colRules w h pic) (rowRules w h pic) (by rwa [hcl, hrl]) hr
  rw [hcl, hrl] at h8
  rw [hcl] at h9
  rw [hrl] at h10
  obtain ⟨img', h11, _, _, h12⟩ := C51_fills oc w h img a hp.width hp.height hs h5 h9 h10
  have paint : ∀ cx < w, ∀ cy < h, ∀ x y, Inside w cx x → Inside h cy y →
      (a[w * cy + cx]? = some true → img'.px x y = ⟨0, 0, 0⟩) ∧
      (a[w * cy + cx]? ≠ some true → img'.px x y = img.px x y) := by
    intro cx hcx cy hcy x y hx hy
    refine ⟨fun ht => (h12 x y).1 ⟨cx, hcx, cy, hcy, ht, hx, hy⟩, fun hf => (h12 x y).2 ?_⟩
    rintro ⟨cx', _, cy', _, hb', hx', hy'⟩
    unfold Inside at hx hy hx' hy'
    obtain rfl : cx = cx' := by omega
    obtain rfl : cy = cy' := by omega
    exact hf hb'
  refine ⟨_, _, a, img, img', h1, h2, h4, h8, h11, fun cx hcx cy hcy x y hx hy => ?_, fun hsol cx hcx cy hcy x y hx hy => ?_⟩
  · obtain ⟨p1, p2⟩ := paint cx hcx cy hcy x y hx hy
    by_cases ht : a[w * cy + cx]? = some true
    · exact .inr ⟨h6 _ ht, p1 ht⟩
    · exact .inl (p2 ht)
  · obtain ⟨p1, p2⟩ := paint cx hcx cy hcy x y hx hy
    rw [h7.mp hsol] at p1 p2
    exact ⟨p1, fun hf => p2 (by rw [hf]; simp)⟩

/-- The letter L again: the answer satisfies the rules. -/
example (oc : Bool) (text : TextFn) : ∃ col row a img img',
    parseNonogramRules oc (writeRules (colRules 2 2 [true, true, true, false])) 2 = .ok (.ok col) ∧
    solveNonogram oc col row = .ok (.ok a) ∧ printNonogram oc text 2 2 col row = .ok (.ok img) ∧
    printNonogramSolution oc 2 2 img a = .ok (.ok img') := by
  obtain ⟨col, row, a, img, img', h1, _, h3, h4, h5, _⟩ := C120_nonogram oc text 2 2 [true, true, true, false] rfl
    (by decide) (by decide) (by decide) (by decide) (by unfold NoEmptyLine; decide)
  exact ⟨col, row, a, img, img', h1, h3, h4, h5⟩

end Nonogram.Props
