import Verif.Props.Sudoku
import Verif.Spec.Glyphs

/-! C94: printed sudokus can be read. -/
namespace Sudoku.Props
open Sudoku Sudoku.Spec

namespace Picture

variable {text : TextFn} {shade : Nat → Nat → Nat → Rgb}

/-- One number leaves everything outside of its box unchanged. -/
theorem number_outside (G : Glyphs text shade) (img : Img) (hw : img.width = 900) (hh : img.height = 900) (e : UInt8 × Nat)
    (h9 : e.1.toNat ≤ 9) (hi : e.2 < 81) (u v : Nat)
    (ho : ¬ (100 * (e.2 % 9) + 25 ≤ u ∧ u < 100 * (e.2 % 9) + 25 + 70 ∧ 100 * (e.2 / 9) + 5 ≤ v ∧ v < 100 * (e.2 / 9) + 5 + 90)) :
    (printNumber text img e).px u v = img.px u v := by
  unfold printNumber
  split
  · rfl
  · rename_i h0
    have h1 : 1 ≤ e.1.toNat := Nat.pos_of_ne_zero fun h => h0 (UInt8.toNat_inj.mp h)
    exact G.outside img (e.2 % 9 * 100 + 25) (e.2 / 9 * 100 + 5) e.1.toNat (by omega) (by omega) h1 h9 u v (by omega)

/-- One number fills its white box with its picture. -/
theorem number_inside (G : Glyphs text shade) (img : Img) (hw : img.width = 900) (hh : img.height = 900) (e : UInt8 × Nat)
    (h9 : e.1.toNat ≤ 9) (hi : e.2 < 81) (a b : Nat) (ha : a < 70) (hb : b < 90)
    (hwh : img.px (100 * (e.2 % 9) + 25 + a) (100 * (e.2 / 9) + 5 + b) = ⟨255, 255, 255⟩) :
    (printNumber text img e).px (100 * (e.2 % 9) + 25 + a) (100 * (e.2 / 9) + 5 + b) = shade e.1.toNat a b := by
  unfold printNumber
  split
  · rename_i h0
    rw [hwh, h0]
    exact (G.white a b).symm
  · rename_i h0
    have h1 : 1 ≤ e.1.toNat := Nat.pos_of_ne_zero fun h => h0 (UInt8.toNat_inj.mp h)
    rw [Nat.mul_comm 100, Nat.mul_comm 100] at *
    exact G.inside img (e.2 % 9 * 100 + 25) (e.2 / 9 * 100 + 5) e.1.toNat a b (by omega) (by omega) h1 h9 ha hb hwh

theorem number_dims (img : Img) (e : UInt8 × Nat) :
    (printNumber text img e).width = img.width ∧ (printNumber text img e).height = img.height := by
  unfold printNumber
  split
  · exact ⟨rfl, rfl⟩
  · exact ⟨text.width .., text.height ..⟩

/-- Pixels outside of the boxes of the printed cells. -/
theorem fold_outside (G : Glyphs text shade) (l : List UInt8) (h9 : ∀ v ∈ l, v.toNat ≤ 9) (u v : Nat) :
    ∀ (n : Nat) (img : Img), img.width = 900 → img.height = 900 → n + l.length ≤ 81 →
    (∀ i, n ≤ i → i < n + l.length →
      ¬ (100 * (i % 9) + 25 ≤ u ∧ u < 100 * (i % 9) + 25 + 70 ∧ 100 * (i / 9) + 5 ≤ v ∧ v < 100 * (i / 9) + 5 + 90)) →
    ((l.zipIdx n).foldl (printNumber text) img).px u v = img.px u v := by
  induction l with
  | nil => intros; rfl
  | cons d l ih =>
    intro n img hw hh hn ho
    simp only [List.length_cons] at hn ho
    have h9d := h9 d (by simp)
    rw [List.zipIdx_cons, List.foldl_cons, ih (fun x hx => h9 x (by simp [hx])) (n + 1) _ ((number_dims img _).1.trans hw)
      ((number_dims img _).2.trans hh) (by omega) fun i h1 h2 => ho i (by omega) (by omega)]
    exact number_outside G img hw hh (d, n) h9d (by show n < 81; omega) u v (ho n (by omega) (by omega))

/-- Pixels inside of the boxes. -/
theorem fold_inside (G : Glyphs text shade) (l : List UInt8) (h9 : ∀ v ∈ l, v.toNat ≤ 9) (a b : Nat) (ha : a < 70) (hb : b < 90) :
    ∀ (n : Nat) (img : Img), img.width = 900 → img.height = 900 → n + l.length ≤ 81 → ∀ (k : Nat) (d : UInt8), l[k]? = some d →
    img.px (100 * ((n + k) % 9) + 25 + a) (100 * ((n + k) / 9) + 5 + b) = ⟨255, 255, 255⟩ →
    ((l.zipIdx n).foldl (printNumber text) img).px (100 * ((n + k) % 9) + 25 + a) (100 * ((n + k) / 9) + 5 + b) =
      shade d.toNat a b := by
  induction l with
  | nil => intro _ _ _ _ _ k d hd; simp at hd
  | cons e l ih =>
    intro n img hw hh hn k d hd hwh
    simp only [List.length_cons] at hn
    have h9e := h9 e (by simp)
    have h9l : ∀ v ∈ l, v.toNat ≤ 9 := fun x hx => h9 x (by simp [hx])
    have hw' := (number_dims (text := text) img (e, n)).1.trans hw
    have hh' := (number_dims (text := text) img (e, n)).2.trans hh
    rw [List.zipIdx_cons, List.foldl_cons]
    cases k with
    | zero =>
      simp only [List.getElem?_cons_zero, Option.some.injEq] at hd
      subst hd
      rw [fold_outside G l h9l _ _ (n + 1) _ hw' hh' (by omega) fun i h1 h2 => ?_]
      · exact number_inside G img hw hh (e, n) h9e (by show n < 81; omega) a b ha hb hwh
      · simp only [Nat.add_zero]
        omega
    | succ k =>
      simp only [List.getElem?_cons_succ] at hd
      have hk : k < l.length := (List.getElem?_eq_some_iff.mp hd).1
      rw [show n + (k + 1) = n + 1 + k by omega] at hwh ⊢
      refine ih h9l (n + 1) _ hw' hh' (by omega) k d hd ?_
      rw [number_outside G img hw hh (e, n) h9e (by show n < 81; omega)]
      · exact hwh
      · show ¬ (100 * (n % 9) + 25 ≤ _ ∧ _ < 100 * (n % 9) + 25 + 70 ∧ 100 * (n / 9) + 5 ≤ _ ∧ _ < 100 * (n / 9) + 5 + 90)
        omega

end Picture

/-- C94. With a readable font every cell of the printed image shows the picture of its own digit (white for an empty cell),
and the rest of the image is the grid. -/
theorem C94_cells (oc : Bool) (text : TextFn) (shade : Nat → Nat → Nat → Rgb) (G : Glyphs text shade) (p : List UInt8)
    (hp : p.length = 81) (p9 : ∀ v ∈ p, v.toNat ≤ 9) :
    ∃ base img, IsGrid base ∧ printSudoku oc text p = .ok (.ok img) ∧ img.width = 900 ∧ img.height = 900 ∧
      (∀ (k : Nat) (d : UInt8), p[k]? = some d → ∀ a < 70, ∀ b < 90,
        img.px (100 * (k % 9) + 25 + a) (100 * (k / 9) + 5 + b) = shade d.toNat a b) ∧
      ∀ x y : Nat, (x % 100 < 25 ∨ 95 ≤ x % 100 ∨ y % 100 < 5 ∨ 95 ≤ y % 100) → img.px x y = base.px x y := by
  have hb : IsGrid (gridImg 9 900) := ⟨by simp [gridImg], by simp [gridImg], fun x hx y hy => gridImg_px hx hy⟩
  refine ⟨gridImg 9 900, _, hb, printSudoku_eq oc text p hp, ?_, ?_, fun k d hk a ha b hb' => ?_, fun x y hxy => ?_⟩
  · rw [(foldl_printNumber_dims text _ _).1]; exact hb.1
  · rw [(foldl_printNumber_dims text _ _).2]; exact hb.2.1
  · have hlt : k < 81 := hp ▸ (List.getElem?_eq_some_iff.mp hk).1
    have := Picture.fold_inside G p p9 a b ha hb' 0 (gridImg 9 900) hb.1 hb.2.1 (by omega) k d hk
    rw [Nat.zero_add] at this
    refine this ?_
    rw [gridImg_px (by omega) (by omega), if_neg]
    · rfl
    · simp only [List.mem_cons, List.not_mem_nil, or_false]
      omega
  · refine Picture.fold_outside G p p9 x y 0 _ hb.1 hb.2.1 (by omega) fun i _ _ => ?_
    omega

/-- C94. With a readable font different puzzles have different images. -/
theorem C94_faithful (oc : Bool) (text : TextFn) (shade : Nat → Nat → Nat → Rgb) (G : Glyphs text shade) (p q : List UInt8)
    (hp : p.length = 81) (p9 : ∀ v ∈ p, v.toNat ≤ 9) (hq : q.length = 81) (q9 : ∀ v ∈ q, v.toNat ≤ 9) (imgp imgq : Img)
    (ep : printSudoku oc text p = .ok (.ok imgp)) (eq : printSudoku oc text q = .ok (.ok imgq))
    (h : ∀ x < 900, ∀ y < 900, imgp.px x y = imgq.px x y) : p = q := by
  obtain ⟨_, ip, _, h1, _, _, h2, _⟩ := C94_cells oc text shade G p hp p9
  obtain ⟨_, iq, _, h3, _, _, h4, _⟩ := C94_cells oc text shade G q hq q9
  obtain rfl : ip = imgp := by rw [h1] at ep; cases ep; rfl
  obtain rfl : iq = imgq := by rw [h3] at eq; cases eq; rfl
  refine List.ext_getElem (hp.trans hq.symm) fun k hk hk' => ?_
  by_contra hne
  obtain ⟨a, ha, b, hb, hs⟩ := G.distinct p[k].toNat (p9 _ (List.getElem_mem hk)) q[k].toNat (q9 _ (List.getElem_mem hk'))
    fun h => hne (UInt8.toNat_inj.mp h)
  refine hs ?_
  rw [← h2 k _ (List.getElem?_eq_getElem hk) a ha b hb, ← h4 k _ (List.getElem?_eq_getElem hk') a ha b hb]
  exact h _ (by omega) _ (by omega)

/-- C94. The image of an answer shows the clues of the puzzle where the image of the puzzle shows them. -/
theorem C94_answer (oc : Bool) (text : TextFn) (shade : Nat → Nat → Nat → Rgb) (G : Glyphs text shade) (p g : List UInt8)
    (h : DancingLinks.Heap) (hp : p.length = 81) (p9 : ∀ v ∈ p, v.toNat ≤ 9) (hs : solveSudoku p = .ok (.ok g, h)) :
    ∃ imgp imgg, printSudoku oc text p = .ok (.ok imgp) ∧ printSudoku oc text g = .ok (.ok imgg) ∧
      ∀ k < 81, p[k]? ≠ some 0 → ∀ a < 70, ∀ b < 90,
        imgg.px (100 * (k % 9) + 25 + a) (100 * (k / 9) + 5 + b) = imgp.px (100 * (k % 9) + 25 + a) (100 * (k / 9) + 5 + b) := by
  have C := C01_solve_sound p g h hp p9 hs
  obtain ⟨_, ip, _, h1, _, _, h2, _⟩ := C94_cells oc text shade G p hp p9
  obtain ⟨_, ig, _, h3, _, _, h4, _⟩ := C94_cells oc text shade G g C.1.size fun v hv => (valid_entries C.1 v hv).2
  refine ⟨ip, ig, h1, h3, fun k hk h0 a ha b hb => ?_⟩
  have hpk : p[k]? = some p[k] := List.getElem?_eq_getElem _
  rw [h2 k _ hpk a ha b hb, h4 k _ (C.2 k _ hpk fun e => h0 (by rw [hpk, e])) a ha b hb]

/-- A readable font: digit `d` is a dot `d` pixels from the left. -/
def dots : TextFn where
  draw img c x y _ s := { img with px := fun u v => if (∃ d ∈ List.range 10, s = toString d ∧ u = x + d) ∧ v = y then c else img.px u v }
  width := fun _ _ _ _ _ _ => rfl
  height := fun _ _ _ _ _ _ => rfl

theorem dots_glyphs : Glyphs dots fun d a b => if d ≠ 0 ∧ a = d ∧ b = 0 then ⟨0, 0, 0⟩ else ⟨255, 255, 255⟩ := by
  have key : ∀ d ≤ 9, ∀ x u : Nat, (∃ e ∈ List.range 10, toString d = toString e ∧ u = x + e) ↔ u = x + d := by
    intro d hd x u
    have inj : ∀ d ≤ 9, ∀ e ≤ 9, toString d = toString e → d = e := by decide +kernel
    constructor
    · rintro ⟨e, he, h1, h2⟩
      rw [inj d hd e (by simp at he; omega) h1, h2]
    · intro h
      exact ⟨d, by simp; omega, rfl, h⟩
  refine ⟨fun img x y d a b _ _ h1 h9 _ _ hw => ?_, fun img x y d _ _ h1 h9 u v ho => ?_, fun a b => by simp, fun d hd e he hne => ?_⟩
  · simp only [dots, key d h9, hw]
    by_cases h : a = d ∧ b = 0
    · rw [if_pos (by omega), if_pos (by omega)]
    · rw [if_neg (by omega), if_neg (by omega)]
  · simp only [dots, key d h9]
    rw [if_neg (by omega)]
  · by_cases h0 : d = 0
    · refine ⟨e, by omega, 0, by omega, ?_⟩
      simp [h0, show e ≠ 0 by omega]
    · refine ⟨d, by omega, 0, by omega, ?_⟩
      simp [h0, hne]

/-- The hypotheses of C94 are met. -/
example : ∃ img, printSudoku true dots sample = .ok (.ok img) ∧ img.px 27 5 = ⟨0, 0, 0⟩ ∧ img.px 126 5 = ⟨0, 0, 0⟩ ∧
    img.px 127 5 = ⟨255, 255, 255⟩ := by
  obtain ⟨_, img, _, e, _, _, h, _⟩ := C94_cells true dots _ dots_glyphs sample (by decide +kernel) (by decide +kernel)
  exact ⟨img, e, h 0 2 rfl 2 (by decide) 0 (by decide), h 1 1 rfl 1 (by decide) 0 (by decide),
    h 1 1 rfl 2 (by decide) 0 (by decide)⟩

example : ∃ g h imgp imgg, solveSudoku puzzle = .ok (.ok g, h) ∧ printSudoku true dots puzzle = .ok (.ok imgp) ∧
    printSudoku true dots g = .ok (.ok imgg) := by
  obtain ⟨g, h, e, _⟩ := C02_solve_complete puzzle puzzle_ok.1 puzzle_ok.2.1 ⟨sample, puzzle_ok.2.2⟩
  obtain ⟨i1, i2, h1, h2, _⟩ := C94_answer true dots _ dots_glyphs puzzle g h puzzle_ok.1 puzzle_ok.2.1 e
  exact ⟨g, h, i1, i2, e, h1, h2⟩

end Sudoku.Props
