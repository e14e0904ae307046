import Verif.Model.Sudoku
import Verif.Proofs.Image

/-! `print_sudoku` and `parse_sudoku`. -/
namespace Sudoku

/-- Writes of one iteration of the grid loops. -/
def linePuts (g l : Nat) : List Put :=
  (if g % 3 = 0 ∧ g ≠ 0 ∧ g ≠ 8 then
    [⟨l, g * 100 + 1, blackPixel⟩, ⟨l, g * 100 - 1, blackPixel⟩, ⟨g * 100 + 1, l, blackPixel⟩,
     ⟨g * 100 - 1, l, blackPixel⟩] else []) ++ [⟨l, g * 100, blackPixel⟩, ⟨g * 100, l, blackPixel⟩]

theorem putPixel_ok {img : Img} {x y : Nat} {c : Rgb} (hx : x < img.width) (hy : y < img.height) :
    img.putPixel x y c = .ok (img.set x y c) := by simp [Img.putPixel, hx, hy]

theorem printLines_eq (oc : Bool) {img : Img} (hw : img.width = 900) (hh : img.height = 900) {g l : Nat}
    (hg : g < 9) (hl : l < 900) : printLines oc g img l = .ok (img.puts (linePuts g l)) := by
  have s1 : ∀ (i : Img) x y c, (i.set x y c).width = i.width := fun _ _ _ _ => rfl
  have s2 : ∀ (i : Img) x y c, (i.set x y c).height = i.height := fun _ _ _ _ => rfl
  unfold printLines linePuts gridSize
  by_cases h : g % 3 = 0 ∧ g ≠ 0 ∧ g ≠ 8
  · simp only [show (9 : Nat) - 1 = 8 from rfl, if_pos h]
    rw [subW_ok (by omega), putPixel_ok (by omega) (by omega)]
    simp only [Prog.ok_bind]
    rw [putPixel_ok (by rw [s1]; omega) (by rw [s2]; omega)]
    simp only [Prog.ok_bind]
    rw [putPixel_ok (by simp only [s1]; omega) (by simp only [s2]; omega)]
    simp only [Prog.ok_bind]
    rw [putPixel_ok (by simp only [s1]; omega) (by simp only [s2]; omega)]
    simp only [Prog.ok_bind]
    rw [putPixel_ok (by simp only [s1]; omega) (by simp only [s2]; omega)]
    simp only [Prog.ok_bind]
    rw [putPixel_ok (by simp only [s1]; omega) (by simp only [s2]; omega)]
    rfl
  · simp only [show (9 : Nat) - 1 = 8 from rfl, if_neg h, Prog.pure_eq, Prog.ok_bind]
    rw [putPixel_ok (by omega) (by omega)]
    simp only [Prog.ok_bind]
    rw [putPixel_ok (by rw [s1]; omega) (by rw [s2]; omega)]
    rfl

/-- All writes of the grid loops. -/
def gridPuts (n s : Nat) : List Put := (List.range n).flatMap fun g => (List.range s).flatMap (linePuts g)

theorem mem_gridPuts {p : Put} {n s : Nat} (h : p ∈ gridPuts n s) :
    p.c = blackPixel ∧ ∃ g < n, ∃ l < s, p ∈ linePuts g l := by
  simp only [gridPuts, List.mem_flatMap, List.mem_range] at h
  obtain ⟨g, hg, l, hl, hm⟩ := h
  refine ⟨?_, g, hg, l, hl, hm⟩
  simp only [linePuts] at hm
  split_ifs at hm <;> simp only [List.cons_append, List.nil_append, List.mem_cons, List.not_mem_nil, or_false] at hm
  · rcases hm with rfl | rfl | rfl | rfl | rfl | rfl <;> rfl
  · rcases hm with rfl | rfl <;> rfl

theorem painted_iff {x y : Nat} (hx : x < 900) (hy : y < 900) :
    (∃ p ∈ gridPuts 9 900, p.x = x ∧ p.y = y) ↔
    (x % 100 = 0 ∨ y % 100 = 0 ∨ x ∈ [299, 301, 599, 601] ∨ y ∈ [299, 301, 599, 601]) := by
  constructor
  · rintro ⟨p, hp, rfl, rfl⟩
    obtain ⟨_, g, hg, l, hl, hm⟩ := mem_gridPuts hp
    simp only [linePuts] at hm
    simp only [List.mem_cons, List.not_mem_nil, or_false]
    split_ifs at hm with h
    · have : g = 3 ∨ g = 6 := by omega
      simp only [List.cons_append, List.nil_append, List.mem_cons, List.not_mem_nil, or_false] at hm
      rcases this with rfl | rfl <;> rcases hm with rfl | rfl | rfl | rfl | rfl | rfl <;> dsimp only <;> omega
    · simp only [List.nil_append, List.mem_cons, List.not_mem_nil, or_false] at hm
      rcases hm with rfl | rfl <;> dsimp only <;> omega
  · have mk : ∀ g < 9, ∀ l < 900, ∀ p ∈ linePuts g l, p ∈ gridPuts 9 900 := by
      intro g hg l hl p hp
      simp only [gridPuts, List.mem_flatMap, List.mem_range]
      exact ⟨g, hg, l, hl, hp⟩
    intro h
    simp only [List.mem_cons, List.not_mem_nil, or_false] at h
    rcases h with h | h | (h | h | h | h) | (h | h | h | h)
    · exact ⟨⟨x / 100 * 100, y, blackPixel⟩, mk (x / 100) (by omega) y hy _ (by simp [linePuts]), by dsimp; omega, rfl⟩
    · exact ⟨⟨x, y / 100 * 100, blackPixel⟩, mk (y / 100) (by omega) x hx _ (by simp [linePuts]), rfl, by dsimp; omega⟩
    · exact ⟨⟨299, y, blackPixel⟩, mk 3 (by omega) y hy _ (by simp [linePuts]), h.symm, rfl⟩
    · exact ⟨⟨301, y, blackPixel⟩, mk 3 (by omega) y hy _ (by simp [linePuts]), h.symm, rfl⟩
    · exact ⟨⟨599, y, blackPixel⟩, mk 6 (by omega) y hy _ (by simp [linePuts]), h.symm, rfl⟩
    · exact ⟨⟨601, y, blackPixel⟩, mk 6 (by omega) y hy _ (by simp [linePuts]), h.symm, rfl⟩
    · exact ⟨⟨x, 299, blackPixel⟩, mk 3 (by omega) x hx _ (by simp [linePuts]), rfl, h.symm⟩
    · exact ⟨⟨x, 301, blackPixel⟩, mk 3 (by omega) x hx _ (by simp [linePuts]), rfl, h.symm⟩
    · exact ⟨⟨x, 599, blackPixel⟩, mk 6 (by omega) x hx _ (by simp [linePuts]), rfl, h.symm⟩
    · exact ⟨⟨x, 601, blackPixel⟩, mk 6 (by omega) x hx _ (by simp [linePuts]), rfl, h.symm⟩

/-- The image before the numbers are drawn. -/
def gridImg (n s : Nat) : Img := (Img.mk 900 900 fun _ _ => whitePixel).puts (gridPuts n s)

theorem gridImg_px {x y : Nat} (hx : x < 900) (hy : y < 900) :
    (gridImg 9 900).px x y = if x % 100 = 0 ∨ y % 100 = 0 ∨ x ∈ [299, 301, 599, 601] ∨ y ∈ [299, 301, 599, 601]
      then blackPixel else whitePixel := by
  have hp := painted_iff hx hy
  have hc : ∀ p ∈ gridPuts 9 900, p.c = blackPixel := fun p hp => (mem_gridPuts hp).1
  unfold gridImg
  generalize gridPuts 9 900 = G at hp hc
  have h := Img.puts_px_one (img := Img.mk 900 900 fun _ _ => whitePixel) hc x y
  split_ifs with hc
  · exact h.1 (hp.2 hc)
  · exact h.2 (fun hh => hc (hp.1 hh))

theorem printGrid_eq (oc : Bool) (n s : Nat) (hn : n ≤ 9) (hs : s ≤ 900) :
    printGrid oc n s (Img.mk 900 900 fun _ _ => whitePixel) = .ok (gridImg n s) := by
  apply forIn'_puts (f := fun g => (List.range s).flatMap (linePuts g))
  intro i hw1 hh1 g hg
  apply forIn'_puts
  intro j hw' hh' l hl
  have := List.mem_range.1 hg
  have := List.mem_range.1 hl
  exact printLines_eq oc (hw'.trans hw1) (hh'.trans hh1) (by omega) (by omega)

theorem printSudoku_eq (oc : Bool) (text : TextFn) (p : List UInt8) (hp : p.length = 81) :
    printSudoku oc text p = .ok (.ok (p.zipIdx.foldl (printNumber text) (gridImg 9 900))) := by
  have hlen : ¬ (p.length ≠ gridSize * gridSize) := by rw [hp]; decide
  have h1 : Img.fromPixel 900 900 whitePixel = .ok ⟨900, 900, fun _ _ => whitePixel⟩ := by
    simp [Img.fromPixel]
  unfold printSudoku
  rw [if_neg hlen]
  have e1 : gridSize * 100 = 900 := by unfold gridSize; omega
  have e2 : gridSize = 9 := rfl
  rw [e1, e2]
  dsimp only
  rw [h1, Prog.ok_bind, printGrid_eq oc 9 900 (by omega) (by omega), Prog.ok_bind]

theorem foldl_printNumber_dims (text : TextFn) (l : List (UInt8 × Nat)) (img : Img) :
    (l.foldl (printNumber text) img).width = img.width ∧ (l.foldl (printNumber text) img).height = img.height := by
  induction l generalizing img with
  | nil => exact ⟨rfl, rfl⟩
  | cons e l ih =>
    rw [List.foldl_cons]
    obtain ⟨h1, h2⟩ := ih (printNumber text img e)
    rw [h1, h2]
    unfold printNumber
    split
    · exact ⟨rfl, rfl⟩
    · exact ⟨text.width _ _ _ _ _ _, text.height _ _ _ _ _ _⟩

/-! ### parsing -/

theorem collectDigits_spec (cs : List Char) :
    match cs.find? (fun c => !c.isDigit) with
    | some c => collectDigits cs = .error (.invalidInteger c)
    | none => collectDigits cs = .ok (cs.map fun c => UInt8.ofNat (c.toNat - 48)) := by
  have hd : ∀ c : Char, c.isDigit = true ↔ 48 ≤ c.toNat ∧ c.toNat ≤ 57 := by
    intro c
    simp only [Char.isDigit, Char.toNat, ge_iff_le, Bool.and_eq_true, decide_eq_true_eq, UInt32.le_iff_toNat_le]
    rfl
  induction cs with
  | nil => rfl
  | cons c cs ih =>
    rw [List.find?_cons]
    by_cases h : c.isDigit
    · have h' := (hd c).1 h
      have ht : toDigit10 c = some (c.toNat - 48) := by simp [toDigit10, h']
      simp only [h, Bool.not_true]
      cases hf : cs.find? (fun c => !c.isDigit) with
      | none => rw [hf] at ih; simp only at ih; simp only [collectDigits, ht, ih, List.map_cons]
      | some d => rw [hf] at ih; simp only at ih; simp only [collectDigits, ht, ih]
    · have ht : toDigit10 c = none := by
        simp only [toDigit10]; rw [if_neg (fun hh => h ((hd c).2 hh))]
      simp only [h, Bool.not_false, collectDigits, ht]

end Sudoku
