import Verif.Proofs.Nonogram.Dims

/-! C117: the dimensions for which `solve_nonogram` is right about all puzzles. -/
namespace Nonogram.Props
open Nonogram Nonogram.Spec

/-- C117. Puzzles with a single row or a single column (or none) are answered correctly: with the solution if there is
one, with `NoSolution` otherwise. -/
theorem C117_line (oc : Bool) (col row : List (List Nat)) (hf : Fits col row) (h : col.length ≤ 1 ∨ row.length = 1) :
    (∀ b, Solves col row b → solveNonogram oc col row = .ok (.ok b)) ∧
    ((∀ b, ¬ Solves col row b) → solveNonogram oc col row = .ok (.error .NoSolution)) := by
  refine full_answer oc hf ?_
  rintro ⟨F, hF, hb⟩
  obtain ⟨p, hp⟩ := List.getElem?_of_mem (of_decide_eq_true hb)
  have hlt := (List.getElem?_eq_some_iff.mp hp).1
  have hget : F.getD p .Blank = .Blank := by rw [List.getD_eq_getElem?_getD, hp]; rfl
  rw [hF.1] at hlt
  rcases h with h | h
  · have h1 : col.length = 1 := by
      rcases Nat.le_one_iff_eq_zero_or_eq_one.mp h with h | h
      · rw [h, Nat.zero_mul] at hlt; omega
      · exact h
    rw [h1, Nat.one_mul] at hlt
    have hy : row[p]? = some row[p] := List.getElem?_eq_getElem hlt
    have := hF.2.2 p _ hy
    rw [h1] at this
    simp only [rowSq, List.range_one, List.map_cons, List.map_nil, Nat.one_mul, Nat.add_zero] at this
    exact stableLine_one (hf.framed _ (List.mem_append_right _ (List.mem_of_getElem? hy))) this hget
  · rw [h, Nat.mul_one] at hlt
    have hx : col[p]? = some col[p] := List.getElem?_eq_getElem hlt
    have := hF.2.1 p _ hx
    rw [h] at this
    simp only [columnSq, List.range_one, List.map_cons, List.map_nil, Nat.mul_zero, Nat.zero_add] at this
    exact stableLine_one (hf.framed _ (List.mem_append_left _ (List.mem_of_getElem? hx))) this hget

/-- The hypotheses of C117_line are met by one row of a hundred squares with fifty blocks. -/
example : Fits ((List.range 100).map fun i => if i % 2 = 0 then [1] else []) [List.replicate 50 1] :=
  ⟨⟨by unfold Spec.Small; decide +kernel, by decide, by decide, by decide, by decide⟩, by decide +kernel⟩

/-- A puzzle whose rules are all `[1]`, with blank lines to the left and above. -/
theorem fits_margins {col row : List (List Nat)} (n m : Nat) (hc : ∀ r ∈ col ++ row, r = [1]) (h1 : 1 ≤ row.length)
    (hn : LineFits (n + col.length)) (hm' : LineFits (m + row.length)) (hs : (n + col.length) * (m + row.length) < 2 ^ 63) :
    Fits (List.replicate n [] ++ col) (List.replicate m [] ++ row) := by
  have hm : ∀ r ∈ List.replicate n [] ++ col ++ (List.replicate m [] ++ row), r = [] ∨ r = [1] := by
    intro r hr
    simp only [List.mem_append] at hr hc
    rcases hr with (hr | hr) | (hr | hr)
    · exact .inl (List.eq_of_mem_replicate hr)
    · exact .inr (hc r (.inl hr))
    · exact .inl (List.eq_of_mem_replicate hr)
    · exact .inr (hc r (.inr hr))
  refine ⟨⟨fun r hr => ?_, ?_, ?_, ?_, ?_⟩, fun r hr => ?_⟩
  · rcases hm r hr with rfl | rfl <;> unfold Spec.Small <;> decide
  · rw [List.length_append]; omega
  · rw [List.length_append, List.length_append, List.length_replicate, List.length_replicate]
    exact hs
  · rw [List.length_append, List.length_replicate]
    refine ⟨hn, fun r hr => ⟨hn, .inr ?_⟩⟩
    rcases hm r (List.mem_append_right _ hr) with rfl | rfl <;> decide
  · rw [List.length_append, List.length_replicate]
    refine ⟨hm', fun r hr => ⟨hm', .inr ?_⟩⟩
    rcases hm r (List.mem_append_left _ hr) with rfl | rfl <;> decide
  · rcases hm r hr with rfl | rfl <;> decide

/-- All lines of the puzzle whose rules are all `[1]` are undecided. -/
theorem blank_stable {col row : List (List Nat)} (hc : ∀ r ∈ col ++ row, r = [1]) (hw : 2 ≤ col.length) (hh : 2 ≤ row.length) :
    HasStable true col row := by
  have key : ∀ n, 2 ≤ n → StableLine (List.replicate n .Blank) [1] := by
    intro n hn
    have hcomp : ∀ i < n, Completes (List.replicate n .Blank) [1]
        (List.replicate i false ++ (List.replicate 1 true ++ List.replicate (n - 1 - i) false)) := by
      intro i hi
      refine ⟨⟨by simp; omega, fun j q b hq _ => ?_⟩, i, n - 1 - i, rfl⟩
      rw [List.eq_of_mem_replicate (List.mem_of_getElem? hq)]
      exact ⟨fun h => (by cases h), fun h => (by cases h)⟩
    refine ⟨⟨_, hcomp 0 (by omega)⟩, fun i hi hs => ?_⟩
    have hi : i < n := by
      have := (List.getElem?_eq_some_iff.mp hi).1
      rwa [List.length_replicate] at this
    by_cases h0 : i = 0
    · subst h0
      have := (hs _ _ (hcomp 0 (by omega)) (hcomp 1 (by omega))).1
      simp at this
    · have := (hs _ _ (hcomp 0 (by omega)) (hcomp i hi)).1
      rw [List.getElem?_append_right (by simp)] at this
      simp only [List.replicate_zero] at this
      rw [List.getElem?_append_right (by simp; omega)] at this
      simp [List.getElem?_replicate] at this
  refine ⟨List.replicate (col.length * row.length) .Blank, ⟨by simp, fun x r hx => ?_, fun y r hy => ?_⟩, ?_⟩
  · rw [hc r (List.mem_append_left _ (List.mem_of_getElem? hx))]
    have : columnSq col.length row.length (List.replicate (col.length * row.length) .Blank) x = List.replicate row.length .Blank := by
      refine List.eq_replicate_iff.mpr ⟨by simp [columnSq], fun q hq => ?_⟩
      obtain ⟨y, _, rfl⟩ := List.mem_map.mp hq
      simp only [List.getD_eq_getElem?_getD, List.getElem?_replicate]
      split <;> rfl
    rw [this]
    exact key _ hh
  · rw [hc r (List.mem_append_right _ (List.mem_of_getElem? hy))]
    have : rowSq col.length (List.replicate (col.length * row.length) .Blank) y = List.replicate col.length .Blank := by
      refine List.eq_replicate_iff.mpr ⟨by simp [rowSq], fun q hq => ?_⟩
      obtain ⟨x, _, rfl⟩ := List.mem_map.mp hq
      simp only [List.getD_eq_getElem?_getD, List.getElem?_replicate]
      split <;> rfl
    rw [this]
    exact key _ hw
  · refine decide_eq_true (List.mem_replicate.mpr ⟨?_, rfl⟩)
    have := Nat.mul_le_mul hw hh
    omega

theorem ones_solvable : HasStable false [[1], [1]] [[1], [1]] := by
  refine ⟨[.Filled, .Blocked, .Blocked, .Filled], ⟨rfl, fun x r h => ?_, fun y r h => ?_⟩, by decide⟩
  · match x with
    | 0 | 1 => obtain rfl := Option.some.inj h; exact stableB_all (by unfold Positive; decide) (by decide)
    | n + 2 => simp at h
  · match y with
    | 0 | 1 => obtain rfl := Option.some.inj h; exact stableB_all (by unfold Positive; decide) (by decide)
    | n + 2 => simp at h

/-- C117. With at least two rows and two columns there is a puzzle that has a solution and is answered with a grid that is
none. -/
theorem C117_wrong (w h : Nat) (hw : 2 ≤ w) (hh : 2 ≤ h) (hw' : LineFits w) (hh' : LineFits h)
    (hs : w * h < 2 ^ 63) :
    ∃ col row, col.length = w ∧ row.length = h ∧ Fits col row ∧ (∃ b, Solves col row b) ∧
      ∀ oc, ∃ g, solveNonogram oc col row = .ok (.ok g) ∧ ¬ Solves col row g := by
  have hm : ∀ r ∈ ([[1], [1]] ++ [[1], [1]] : List (List Nat)), r = [1] := by decide
  have hl : ∀ r ∈ ([[1], [1]] : List (List Nat)), r.head? ≠ some 0 := by decide
  have hf := fits_margins (col := [[1], [1]]) (row := [[1], [1]]) (w - 2) (h - 2) hm (by decide)
    (by simp only [List.length_cons, List.length_nil]; omega) (by simp only [List.length_cons, List.length_nil]; omega)
    (by simp only [List.length_cons, List.length_nil]; rwa [show w - 2 + (0 + 1 + 1) = w by omega, show h - 2 + (0 + 1 + 1) = h by omega])
  refine ⟨_, _, by simp; omega, by simp; omega, hf, ?_, fun oc => stuck_answer oc hf ?_⟩
  · exact (solvable_iff hf).mpr ((hasStable_margins _ _ hl hl).mpr ones_solvable)
  · exact (hasStable_margins _ _ hl hl).mpr (blank_stable hm (by decide) (by decide))

example : ∃ col row, col.length = 30 ∧ row.length = 20 ∧ (∃ b, Solves col row b) ∧
    ∃ g, solveNonogram true col row = .ok (.ok g) ∧ ¬ Solves col row g := by
  obtain ⟨col, row, h1, h2, _, h3, h4⟩ := C117_wrong 30 20 (by omega) (by omega) (by omega) (by omega) (by omega)
  exact ⟨col, row, h1, h2, h3, h4 true⟩

theorem three_unsolvable : ∀ b, ¬ Solves [[1], [1], [1]] [[1], [1]] b := by
  rintro b ⟨hl, hc, hr⟩
  match b, hl with
  | [a, b, c, d, e, f], _ =>
    have one := fun xs => (follows_iff_runs [1] (by unfold Positive; decide) xs).mp
    have h0 := one _ (hc 0 [1] rfl)
    have h1 := one _ (hc 1 [1] rfl)
    have h2 := one _ (hc 2 [1] rfl)
    have h3 := one _ (hr 0 [1] rfl)
    have h4 := one _ (hr 1 [1] rfl)
    revert h0 h1 h2 h3 h4
    cases a <;> cases b <;> cases c <;> cases d <;> cases e <;> cases f <;> decide

/-- C117. With at least two rows and two columns, and not just two of each, there is a puzzle that has no solution and is
answered with a grid. -/
theorem C117_undetected (w h : Nat) (hw : 2 ≤ w) (hh : 2 ≤ h) (hn : ¬ (w = 2 ∧ h = 2)) (hw' : LineFits w)
    (hh' : LineFits h) (hs : w * h < 2 ^ 63) :
    ∃ col row, col.length = w ∧ row.length = h ∧ Fits col row ∧ (∀ b, ¬ Solves col row b) ∧
      ∀ oc, ∃ g, solveNonogram oc col row = .ok (.ok g) := by
  have hm : ∀ r ∈ ([[1], [1], [1]] ++ [[1], [1]] : List (List Nat)), r = [1] := by decide
  have hm' : ∀ r ∈ ([[1], [1]] ++ [[1], [1], [1]] : List (List Nat)), r = [1] := by decide
  have hl2 : ∀ r ∈ ([[1], [1]] : List (List Nat)), r.head? ≠ some 0 := by decide
  have hl3 : ∀ r ∈ ([[1], [1], [1]] : List (List Nat)), r.head? ≠ some 0 := by decide
  have h0 : Fits [[1], [1], [1]] [[1], [1]] :=
    ⟨⟨by unfold Spec.Small; decide, by decide, by decide, by decide, by decide⟩, by decide⟩
  have hno : ¬ HasStable false [[1], [1], [1]] [[1], [1]] := fun h => by
    obtain ⟨b, hb⟩ := (solvable_iff h0).mpr h
    exact three_unsolvable b hb
  by_cases h3 : 3 ≤ w
  · have hf := fits_margins (col := [[1], [1], [1]]) (row := [[1], [1]]) (w - 3) (h - 2) hm (by decide)
      (by simp only [List.length_cons, List.length_nil]; omega) (by simp only [List.length_cons, List.length_nil]; omega)
      (by simp only [List.length_cons, List.length_nil]; rwa [show w - 3 + (0 + 1 + 1 + 1) = w by omega, show h - 2 + (0 + 1 + 1) = h by omega])
    refine ⟨_, _, by simp; omega, by simp; omega, hf, fun b hb => ?_, fun oc => ?_⟩
    · exact hno ((hasStable_margins _ _ hl3 hl2).mp ((solvable_iff hf).mp ⟨b, hb⟩))
    · obtain ⟨g, hg, _⟩ := stuck_answer oc hf ((hasStable_margins _ _ hl3 hl2).mpr (blank_stable hm (by decide) (by decide)))
      exact ⟨g, hg⟩
  · have hf := fits_margins (col := [[1], [1]]) (row := [[1], [1], [1]]) (w - 2) (h - 3) hm' (by decide)
      (by simp only [List.length_cons, List.length_nil]; omega) (by simp only [List.length_cons, List.length_nil]; omega)
      (by simp only [List.length_cons, List.length_nil]; rwa [show w - 2 + (0 + 1 + 1) = w by omega, show h - 3 + (0 + 1 + 1 + 1) = h by omega])
    refine ⟨_, _, by simp; omega, by simp; omega, hf, fun b hb => ?_, fun oc => ?_⟩
    · exact hno (hasStable_swap ((hasStable_margins _ _ hl2 hl3).mp ((solvable_iff hf).mp ⟨b, hb⟩)))
    · obtain ⟨g, hg, _⟩ := stuck_answer oc hf ((hasStable_margins _ _ hl2 hl3).mpr (blank_stable hm' (by decide) (by decide)))
      exact ⟨g, hg⟩

example : ∃ col row, col.length = 3 ∧ row.length = 2 ∧ (∀ b, ¬ Solves col row b) ∧
    ∃ g, solveNonogram true col row = .ok (.ok g) := by
  obtain ⟨col, row, h1, h2, _, h3, h4⟩ := C117_undetected 3 2 (by omega) (by omega) (by omega) (by omega) (by omega) (by omega)
  exact ⟨col, row, h1, h2, h3, h4 true⟩

/-- C117. With two rows and two columns, puzzles without a solution are recognised. -/
theorem C117_two_two (oc : Bool) (col row : List (List Nat)) (hf : Fits col row) (hw : col.length = 2) (hh : row.length = 2)
    (hn : ∀ b, ¬ Solves col row b) : solveNonogram oc col row = .ok (.error .NoSolution) := by
  match col, row, hw, hh with
  | [c0, c1], [r0, r1], _, _ =>
    by_cases h : HasStable true [c0, c1] [r0, r1]
    · exfalso
      obtain ⟨F, hF, hb⟩ := h
      have hb := of_decide_eq_true hb
      match F, hF.1 with
      | [a, b, c, d], _ =>
        have k0 : StableLine [a, c] c0 := hF.2.1 0 c0 rfl
        have k1 : StableLine [b, d] c1 := hF.2.1 1 c1 rfl
        have k2 : StableLine [a, b] r0 := hF.2.2 0 r0 rfl
        have k3 : StableLine [c, d] r1 := hF.2.2 1 r1 rfl
        have l0 := stableLine_two (hf.framed c0 (by simp)) k0
        have l1 := stableLine_two (hf.framed c1 (by simp)) k1
        have l2 := stableLine_two (hf.framed r0 (by simp)) k2
        have l3 := stableLine_two (hf.framed r1 (by simp)) k3
        simp only [List.mem_cons, List.not_mem_nil, or_false] at hb
        obtain ⟨rfl, rfl, rfl, rfl⟩ : c0 = [1] ∧ c1 = [1] ∧ r0 = [1] ∧ r1 = [1] := by grind
        obtain ⟨b, hb⟩ := (solvable_iff hf).mpr ones_solvable
        exact hn b hb
    · exact (full_answer oc hf h).2 hn

/-- The hypotheses of C117_two_two are met. -/
example (oc : Bool) : solveNonogram oc [[1], [1]] [[2], [1]] = .ok (.error .NoSolution) := by
  refine C117_two_two oc _ _ ⟨⟨by unfold Spec.Small; decide, by decide, by decide, by decide, by decide⟩, by decide⟩ rfl rfl ?_
  rintro b ⟨hl, hc, hr⟩
  match b, hl with
  | [a, b, c, d], _ =>
    have h0 := (follows_iff_runs _ (by unfold Positive; decide) _).mp (hc 0 [1] rfl)
    have h1 := (follows_iff_runs _ (by unfold Positive; decide) _).mp (hc 1 [1] rfl)
    have h2 := (follows_iff_runs _ (by unfold Positive; decide) _).mp (hr 0 [2] rfl)
    have h3 := (follows_iff_runs _ (by unfold Positive; decide) _).mp (hr 1 [1] rfl)
    revert h0 h1 h2 h3
    cases a <;> cases b <;> cases c <;> cases d <;> decide

end Nonogram.Props
