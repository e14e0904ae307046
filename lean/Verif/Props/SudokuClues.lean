import Verif.Props.SudokuSymmetry
import Verif.Spec.SudokuClues

/-! C92: fewer and more clues, and puzzles with several completions. -/
namespace Sudoku.Props
open Sudoku Sudoku.Spec DancingLinks

/-- C92. A puzzle stays solvable if clues are erased. -/
theorem C92_erase (p q : List UInt8) (hq : q.length = 81) (p9 : ∀ v ∈ p, v.toNat ≤ 9) (q9 : ∀ v ∈ q, v.toNat ≤ 9)
    (hf : Fewer p q) (hs : ∃ g h, solveSudoku q = .ok (.ok g, h)) : ∃ g h, solveSudoku p = .ok (.ok g, h) := by
  obtain ⟨g, h, e⟩ := hs
  have C := C01_solve_sound q g h hq q9 e
  obtain ⟨g', h', e', _⟩ := C02_solve_complete p (hf.1.trans hq) p9 ⟨g, C.1, fun i v h1 h2 => C.2 i v (hf.2 i v h1 h2) h2⟩
  exact ⟨g', h', e'⟩

/-- C92. Entering digits of the only completion does not change the answer. -/
theorem C92_enter (p q g : List UInt8) (h : Heap) (hp : p.length = 81) (p9 : ∀ v ∈ p, v.toNat ≤ 9)
    (hs : solveSudoku p = .ok (.ok g, h)) (hu : ∀ g', Completes p g' → g' = g) (hf : Fewer p q) (hg : Fewer q g) :
    ∃ h', solveSudoku q = .ok (.ok g, h') := by
  have C := C01_solve_sound p g h hp p9 hs
  refine C04_unique q g (hf.1.symm.trans hp) (fun v hv => ?_) ⟨C.1, hg.2⟩ fun g' C' =>
    hu g' ⟨C'.1, fun i v h1 h2 => C'.2 i v (hf.2 i v h1 h2) h2⟩
  by_cases h0 : v = 0
  · subst h0; decide
  · obtain ⟨i, hi⟩ := List.getElem?_of_mem hv
    exact (valid_entries C.1 v (List.mem_of_getElem? (hg.2 i v hi h0))).2

/-- C92. Solving an answer again gives the same answer, whatever the puzzle was. -/
theorem C92_again (p g : List UInt8) (h : Heap) (hs : solveSudoku p = .ok (.ok g, h)) :
    ∃ h', solveSudoku g = .ok (.ok g, h') := by
  refine C04_fixed_point g ?_
  by_cases hp : p.length = 81
  · have key := solveSudoku_spec p hp
    cases hv : verdict [] (clues p) with
    | search =>
      rw [hv] at key
      obtain ⟨res, h', e, _, ⟨g', rfl, V, M⟩ | ⟨rfl, _⟩⟩ := key
      · rw [e] at hs; cases hs; exact V
      · rw [e] at hs; cases hs
    | reject => rw [hv] at key; obtain ⟨h', e, f⟩ := key; rw [e] at hs; cases hs
    | dangling => rw [hv] at key; simp only at key; rw [key] at hs; cases hs
  · obtain ⟨h', e⟩ := (C07_solve_size p p.length).mpr ⟨rfl, hp⟩
    rw [e] at hs; cases hs

example : ∃ g h h', solveSudoku puzzle = .ok (.ok g, h) ∧ solveSudoku g = .ok (.ok g, h') := by
  obtain ⟨g, h, e, _⟩ := C02_solve_complete puzzle puzzle_ok.1 puzzle_ok.2.1 ⟨sample, puzzle_ok.2.2⟩
  obtain ⟨h', e'⟩ := C92_again puzzle g h e
  exact ⟨g, h, h', e, e'⟩

theorem digit_bound {v : UInt8} (hv : v ∈ digits) : v.toNat ≤ 9 ∧ v ≠ 0 := by
  have : ∀ v ∈ digits, v.toNat ≤ 9 ∧ v ≠ 0 := by decide
  exact this v hv

theorem valid_digits {g : List UInt8} (V : Valid g) {i : Nat} (hi : i < 81) : ∃ d ∈ digits, g[i]? = some d := by
  have hl : i < g.length := V.size ▸ hi
  refine ⟨g[i], ?_, List.getElem?_eq_getElem hl⟩
  obtain ⟨h0, h9⟩ := valid_entries V g[i] (List.getElem_mem hl)
  have : ∀ n < 10, UInt8.ofNat n ≠ 0 → UInt8.ofNat n ∈ Spec.digits := by decide
  have := this g[i].toNat (by omega)
  rw [UInt8.ofNat_toNat] at this
  exact this h0

/-- C92. The solver can tell whether its answer is the only one: there is another completion exactly if some cell can be
given a digit different from the answer's such that the puzzle is still solved. -/
theorem C92_second (p g : List UInt8) (h : Heap) (hp : p.length = 81) (p9 : ∀ v ∈ p, v.toNat ≤ 9)
    (hs : solveSudoku p = .ok (.ok g, h)) :
    (∃ g', g' ≠ g ∧ Completes p g') ↔
      ∃ (i : Nat) (d : UInt8), p[i]? = some 0 ∧ d ∈ digits ∧ g[i]? ≠ some d ∧
        ∃ g' h', solveSudoku (p.set i d) = .ok (.ok g', h') := by
  have C := C01_solve_sound p g h hp p9 hs
  have set9 : ∀ (i : Nat) (d : UInt8), d ∈ digits → ∀ v ∈ p.set i d, v.toNat ≤ 9 := by
    intro i d hd v hv
    rcases List.mem_or_eq_of_mem_set hv with hv | rfl
    · exact p9 v hv
    · exact (digit_bound hd).1
  constructor
  · rintro ⟨g', hne, C'⟩
    obtain ⟨i, hi⟩ : ∃ i : Nat, g'[i]? ≠ g[i]? := by
      by_contra hn
      push Not at hn
      exact hne (List.ext_getElem? hn)
    have hlt : i < 81 := by
      by_contra hn
      exact hi (by rw [List.getElem?_eq_none (by rw [C'.1.size]; omega), List.getElem?_eq_none (by rw [C.1.size]; omega)])
    obtain ⟨d, hd, e⟩ := valid_digits C'.1 hlt
    have hpi : p[i]? = some p[i] := List.getElem?_eq_getElem _
    have h0 : p[i] = 0 := by
      by_contra h0
      rw [C.2 i _ hpi h0, C'.2 i _ hpi h0] at hi
      exact hi rfl
    refine ⟨i, d, by rw [hpi, h0], hd, fun hg => hi (by rw [e, hg]), ?_⟩
    have C2 : Completes (p.set i d) g' := by
      refine ⟨C'.1, fun j v hj hv => ?_⟩
      by_cases hij : i = j
      · subst hij
        rw [List.getElem?_set_self (by omega)] at hj
        rw [e, hj]
      · rw [List.getElem?_set_ne hij] at hj
        exact C'.2 j v hj hv
    obtain ⟨x, y, e', _⟩ := C02_solve_complete (p.set i d) (by simpa using hp) (set9 i d hd) ⟨g', C2⟩
    exact ⟨x, y, e'⟩
  · rintro ⟨i, d, h0, hd, hne, g', h', e⟩
    have hlt : i < p.length := (List.getElem?_eq_some_iff.mp h0).1
    have C' := C01_solve_sound _ g' h' (by simpa using hp) (set9 i d hd) e
    refine ⟨g', ?_, C'.1, fun j v hj hv => ?_⟩
    · rintro rfl
      exact hne (C'.2 i d (List.getElem?_set_self hlt) (digit_bound hd).2)
    · refine C'.2 j v ?_ hv
      rw [List.getElem?_set_ne]
      · exact hj
      · rintro rfl
        rw [h0] at hj
        exact hv (Option.some.inj hj).symm

/-- The sample without its first row has no second completion, so no other digit in the first cell can be completed. -/
example (d : UInt8) (hd : d ∈ digits) (h2 : d ≠ 2) : ¬ ∃ g' h', solveSudoku (puzzle.set 0 d) = .ok (.ok g', h') := by
  obtain ⟨h, e⟩ := C04_unique puzzle sample puzzle_ok.1 puzzle_ok.2.1 puzzle_unique.1 puzzle_unique.2
  have key := C92_second puzzle sample h puzzle_ok.1 puzzle_ok.2.1 e
  intro hx
  obtain ⟨g', hne, hg⟩ := key.mpr ⟨0, d, by decide +kernel, hd, fun hh => h2 (Option.some.inj hh).symm, hx⟩
  exact hne (puzzle_unique.2 g' hg)

/-- C92. If the clues of a puzzle are symmetric, the rearranged answer is a completion, too. -/
theorem C92_symmetric (S : Symmetry) (p g : List UInt8) (h : Heap) (hp : p.length = 81) (p9 : ∀ v ∈ p, v.toNat ≤ 9)
    (hS : S.move p = p) (hs : solveSudoku p = .ok (.ok g, h)) : Completes p (S.move g) := by
  have := S.move_completes hp (C01_solve_sound p g h hp p9 hs)
  rwa [hS] at this

/-- The exchange of two digits. -/
def swapDigits (d e : UInt8) (hd : d ∈ digits) (he : e ∈ digits) : Symmetry :=
  .ofDigits (fun x => if x = d then e else if x = e then d else x) (fun x => if x = d then e else if x = e then d else x) (by
    have h0 : ∀ v ∈ digits, (0 : UInt8) ≠ v := by decide
    refine ⟨by rw [if_neg (h0 d hd), if_neg (h0 e he)], by rw [if_neg (h0 d hd), if_neg (h0 e he)], fun x hx => ?_⟩
    by_cases h1 : x = d
    · subst h1
      by_cases h2 : e = x
      · subst h2; simp [hx]
      · simp [he, h2]
    · by_cases h2 : x = e
      · subst h2; simp [h1, hd]
      · simp [h1, h2, hx])

/-- C92. If two digits are missing from the clues, the answer is not the only completion; so a puzzle with one
completion shows at least eight different digits. -/
theorem C92_digits (p g : List UInt8) (h : Heap) (hp : p.length = 81) (p9 : ∀ v ∈ p, v.toNat ≤ 9)
    (hs : solveSudoku p = .ok (.ok g, h)) (d e : UInt8) (hd : d ∈ digits) (he : e ∈ digits) (hne : d ≠ e) (hdp : d ∉ p)
    (hep : e ∉ p) : ∃ g', g' ≠ g ∧ Completes p g' := by
  have C := C01_solve_sound p g h hp p9 hs
  have hS : (swapDigits d e hd he).move p = p := by
    apply List.ext_getElem?
    intro i
    by_cases hi : i < 81
    · obtain ⟨v, h1, h2⟩ := (swapDigits d e hd he).move_get hp hi
      have h1 : p[i]? = some v := h1
      rw [h2, h1]
      have hm := List.mem_of_getElem? h1
      have e1 : v ≠ d := by rintro rfl; exact hdp hm
      have e2 : v ≠ e := by rintro rfl; exact hep hm
      simp [swapDigits, Symmetry.ofDigits, e1, e2]
    · rw [List.getElem?_eq_none (by rw [Symmetry.move_length]; omega), List.getElem?_eq_none (by omega)]
  refine ⟨_, fun heq => ?_, C92_symmetric _ p g h hp p9 hS hs⟩
  obtain ⟨c, hc, e1⟩ := ((valid_iff g).mp C.1).2 (rowCells 0) (by decide +kernel) d hd
  have hc81 : c < 81 := units_lt _ (by decide +kernel : rowCells 0 ∈ units) c hc
  obtain ⟨v, h1, h2⟩ := (swapDigits d e hd he).move_get C.1.size hc81
  have h1 : g[c]? = some v := h1
  rw [e1] at h1
  obtain rfl := Option.some.inj h1
  rw [heq, e1] at h2
  simp [swapDigits, Symmetry.ofDigits] at h2
  exact hne h2

theorem swap_band {i j : Nat} (hi : i < 9) (hj : j < 9) (hb : i / 3 = j / 3) :
    BandPerm (fun x => if x = i then j else if x = j then i else x) (fun x => if x = i then j else if x = j then i else x) := by
  have h1 : ∀ x < 9, (if x = i then j else if x = j then i else x) / 3 = x / 3 := by
    intro x hx
    split
    · subst_vars; omega
    · split
      · subst_vars; omega
      · rfl
  refine ⟨fun x hx => ?_, fun x hx y hy h => by rw [h1 x hx, h1 y hy, h], fun x hx y hy h => by rw [h1 x hx, h1 y hy, h]⟩
  have e : (if (if x = i then j else if x = j then i else x) = i then j
      else if (if x = i then j else if x = j then i else x) = j then i else
        (if x = i then j else if x = j then i else x)) = x := by
    by_cases h1 : x = i
    · subst h1
      by_cases h2 : j = x
      · simp [h2]
      · simp [h2]
    · by_cases h2 : x = j
      · subst h2; simp [h1]
      · simp [h1, h2]
  have l : (if x = i then j else if x = j then i else x) < 9 := by
    split
    · exact hj
    · split
      · exact hi
      · exact hx
  exact ⟨l, l, e, e⟩

/-- C92. If two rows of one band are empty, the answer is not the only completion. -/
theorem C92_rows (p g : List UInt8) (h : Heap) (hp : p.length = 81) (p9 : ∀ v ∈ p, v.toNat ≤ 9)
    (hs : solveSudoku p = .ok (.ok g, h)) (i j : Nat) (hi : i < 9) (hj : j < 9) (hne : i ≠ j) (hb : i / 3 = j / 3)
    (ei : EmptyRow p i) (ej : EmptyRow p j) : ∃ g', g' ≠ g ∧ Completes p g' := by
  have C := C01_solve_sound p g h hp p9 hs
  have hmove : ∀ q : List UInt8, q.length = 81 → ∀ c < 81, ((Symmetry.ofRows (swap_band hi hj hb)).move q)[c]? =
      q[9 * (if c / 9 = i then j else if c / 9 = j then i else c / 9) + c % 9]? := by
    intro q hq c hc
    obtain ⟨v, h1, h2⟩ := (Symmetry.ofRows (swap_band hi hj hb)).move_get hq hc
    rw [h2]
    exact h1.symm
  have hS : (Symmetry.ofRows (swap_band hi hj hb)).move p = p := by
    apply List.ext_getElem?
    intro c
    by_cases hc : c < 81
    · rw [hmove p hp c hc]
      by_cases h1 : c / 9 = i
      · rw [if_pos h1, ej (c % 9) (by omega), show c = 9 * i + c % 9 by omega, ei (c % 9) (by omega)]
      · rw [if_neg h1]
        by_cases h2 : c / 9 = j
        · rw [if_pos h2, ei (c % 9) (by omega), show c = 9 * j + c % 9 by omega, ej (c % 9) (by omega)]
        · rw [if_neg h2, show 9 * (c / 9) + c % 9 = c by omega]
    · rw [List.getElem?_eq_none (by rw [Symmetry.move_length]; omega), List.getElem?_eq_none (by omega)]
  refine ⟨_, fun heq => ?_, C92_symmetric _ p g h hp p9 hS hs⟩
  have h1 := hmove g C.1.size (9 * i) (by omega)
  rw [heq, if_pos (by omega), show 9 * j + 9 * i % 9 = 9 * j by omega] at h1
  have hcol := (C.1.cols 0 (by omega)).nodup_iff.mpr (by decide)
  rw [List.nodup_iff_getElem?_ne_getElem?] at hcol
  have key : ∀ a b, a < b → b < 9 → g[9 * a]? ≠ g[9 * b]? := by
    intro a b hab hb9 he
    refine hcol a b hab (by simp [col]; exact hb9) ?_
    simp [col, hb9, (by omega : a < 9), he]
  rcases Nat.lt_or_gt_of_ne hne with hlt | hlt
  · exact key i j hlt hj h1
  · exact key j i hlt hi h1.symm

/-- C92. If two columns of one stack are empty, the answer is not the only completion. -/
theorem C92_cols (p g : List UInt8) (h : Heap) (hp : p.length = 81) (p9 : ∀ v ∈ p, v.toNat ≤ 9)
    (hs : solveSudoku p = .ok (.ok g, h)) (i j : Nat) (hi : i < 9) (hj : j < 9) (hne : i ≠ j) (hb : i / 3 = j / 3)
    (ei : EmptyCol p i) (ej : EmptyCol p j) : ∃ g', g' ≠ g ∧ Completes p g' := by
  have C := C01_solve_sound p g h hp p9 hs
  let T := transposition
  have empty : ∀ k < 9, EmptyCol p k → EmptyRow (T.move p) k := by
    intro k hk ek l hl
    obtain ⟨v, h1, h2⟩ := T.move_get hp (by omega : 9 * k + l < 81)
    have h1 : p[9 * ((9 * k + l) % 9) + (9 * k + l) / 9]? = some v := h1
    rw [show (9 * k + l) % 9 = l by omega, show (9 * k + l) / 9 = k by omega, ek l hl] at h1
    rw [h2, ← Option.some.inj h1]
    rfl
  have q9 := T.move_le p9
  have C' := T.move_completes hp C
  obtain ⟨g2, h2, e2, _⟩ := C02_solve_complete (T.move p) (T.move_length p) q9 ⟨_, C'⟩
  obtain ⟨g3, hne', C3⟩ := C92_rows (T.move p) g2 h2 (T.move_length p) q9 e2 i j hi hj hne hb (empty i hi ei) (empty j hj ej)
  have C2 := C01_solve_sound _ g2 h2 (T.move_length p) q9 e2
  have D2 := T.inv.move_completes (T.move_length p) C2
  have D3 := T.inv.move_completes (T.move_length p) C3
  rw [T.move_move hp p9] at D2 D3
  by_cases hg : T.inv.move g2 = g
  · refine ⟨_, fun hg3 => hne' ?_, D3⟩
    have b2 := T.inv.move_move C2.1.size fun v hv => (valid_entries C2.1 v hv).2
    have b3 := T.inv.move_move C3.1.size fun v hv => (valid_entries C3.1 v hv).2
    rw [← b2, ← b3, hg, hg3]
  · exact ⟨_, hg, D2⟩

/-- The empty puzzle has several completions; its answer is one of them. -/
example : ∃ g h g', solveSudoku (List.replicate 81 0) = .ok (.ok g, h) ∧ g' ≠ g ∧ Completes (List.replicate 81 0) g' := by
  have h9 : ∀ v ∈ List.replicate 81 (0 : UInt8), v.toNat ≤ 9 := by decide +kernel
  obtain ⟨g, h, e⟩ := C92_erase (List.replicate 81 0) sample (by decide +kernel) h9 (by decide +kernel)
    ⟨by decide +kernel, fun i v hi hv => by
      rw [List.getElem?_replicate] at hi
      split at hi
      · exact absurd (Option.some.inj hi).symm hv
      · cases hi⟩
    (by obtain ⟨h, e⟩ := C04_fixed_point sample sample_valid; exact ⟨_, h, e⟩)
  obtain ⟨g', h1, h2⟩ := C92_digits _ g h (by decide +kernel) h9 e 1 2 (by decide) (by decide) (by decide) (by decide +kernel)
    (by decide +kernel)
  exact ⟨g, h, g', e, h1, h2⟩

/-- Entering the 2 at the top left of `puzzle` does not change its answer. -/
example : ∃ h, solveSudoku (puzzle.set 0 2) = .ok (.ok sample, h) := by
  have hp : puzzle.length = 81 := by decide +kernel
  have p9 : ∀ v ∈ puzzle, v.toNat ≤ 9 := by decide +kernel
  obtain ⟨h, e⟩ := C04_unique puzzle sample hp p9 puzzle_unique.1 puzzle_unique.2
  have lt : ∀ {q : List UInt8} {i : Nat} {v : UInt8}, q.length = 81 → q[i]? = some v → i < 81 := fun hq hi =>
    hq ▸ (List.getElem?_eq_some_iff.1 hi).1
  have h1 : ∀ i < 81, ∀ v ∈ puzzle[i]?, v ≠ 0 → (puzzle.set 0 2)[i]? = some v := by decide +kernel
  have h2 : ∀ i < 81, ∀ v ∈ (puzzle.set 0 2)[i]?, v ≠ 0 → sample[i]? = some v := by decide +kernel
  exact C92_enter puzzle (puzzle.set 0 2) sample h hp p9 e puzzle_unique.2
    ⟨by decide +kernel, fun i v hi hv => h1 i (lt hp hi) v hi hv⟩
    ⟨by decide +kernel, fun i v hi hv => h2 i (lt (by decide +kernel) hi) v hi hv⟩

/-- With the first two rows of `sample` erased there are several completions. -/
example : ∃ g h g', solveSudoku (List.replicate 18 0 ++ sample.drop 18) = .ok (.ok g, h) ∧ g' ≠ g ∧
    Completes (List.replicate 18 0 ++ sample.drop 18) g' := by
  have hp : (List.replicate 18 0 ++ sample.drop 18).length = 81 := by decide +kernel
  have p9 : ∀ v ∈ List.replicate 18 0 ++ sample.drop 18, v.toNat ≤ 9 := by decide +kernel
  have h1 : ∀ i < 81, ∀ v ∈ (List.replicate 18 0 ++ sample.drop 18)[i]?, v ≠ 0 → sample[i]? = some v := by decide +kernel
  obtain ⟨g, h, e⟩ := C92_erase (List.replicate 18 0 ++ sample.drop 18) sample (by decide +kernel) p9 (by decide +kernel)
    ⟨by decide +kernel, fun i v hi hv => h1 i (hp ▸ (List.getElem?_eq_some_iff.1 hi).1) v hi hv⟩
    (by obtain ⟨h, e⟩ := C04_fixed_point sample sample_valid; exact ⟨_, h, e⟩)
  obtain ⟨g', h1, h2⟩ := C92_rows _ g h hp p9 e 0 1 (by decide) (by decide) (by decide) (by decide)
    (by unfold EmptyRow; decide +kernel) (by unfold EmptyRow; decide +kernel)
  exact ⟨g, h, g', e, h1, h2⟩

end Sudoku.Props
