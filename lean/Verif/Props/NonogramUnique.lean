import Verif.Proofs.Nonogram.Unique
import Verif.Props.NonogramDims

/-! C118: puzzles with exactly one solution. -/
namespace Nonogram.Props
open Nonogram Nonogram.Spec

theorem fits_blank {col row : List (List Nat)} (hf : Fits col row) (n m : Nat) (hw : LineFits (n + col.length) ∧ ∀ r ∈ row, CountsFit (n + col.length) r)
    (hh : LineFits (m + row.length) ∧ ∀ r ∈ col, CountsFit (m + row.length) r) (hs : (n + col.length) * (m + row.length) < 2 ^ 63) :
    Fits (List.replicate n [] ++ col) (List.replicate m [] ++ row) := by
  have hm : ∀ r ∈ List.replicate n [] ++ col ++ (List.replicate m [] ++ row), r = [] ∨ r ∈ col ++ row := by
    intro r hr
    simp only [List.mem_append] at hr ⊢
    rcases hr with (hr | hr) | (hr | hr)
    · exact .inl (List.eq_of_mem_replicate hr)
    · exact .inr (.inl hr)
    · exact .inl (List.eq_of_mem_replicate hr)
    · exact .inr (.inr hr)
  have h1 := hf.rows
  refine ⟨⟨fun r hr => ?_, ?_, ?_, ?_, ?_⟩, fun r hr => ?_⟩
  · rcases hm r hr with rfl | h
    · unfold Spec.Small; decide
    · exact hf.small r h
  · rw [List.length_append]; omega
  · rw [List.length_append, List.length_append, List.length_replicate, List.length_replicate]
    exact hs
  · rw [List.length_append, List.length_replicate]
    refine ⟨hw.1, fun r hr => ?_⟩
    rcases List.mem_append.mp hr with h | h
    · rw [List.eq_of_mem_replicate h]; exact ⟨hw.1, .inr (by decide)⟩
    · exact hw.2 r h
  · rw [List.length_append, List.length_replicate]
    refine ⟨hh.1, fun r hr => ?_⟩
    rcases List.mem_append.mp hr with h | h
    · rw [List.eq_of_mem_replicate h]; exact ⟨hh.1, .inr (by decide)⟩
    · exact hh.2 r h
  · rcases hm r hr with rfl | h
    · decide
    · exact hf.framed r h

/-- C118. With at most three rows and three columns, a puzzle that has exactly one solution is answered with it. -/
theorem C118_small (oc : Bool) (col row : List (List Nat)) (hf : Fits col row) (hw : col.length ≤ 3) (hh : row.length ≤ 3)
    (b : List Bool) (hb : Solves col row b) (hu : ∀ c, Solves col row c → c = b) :
    solveNonogram oc col row = .ok (.ok b) := by
  have hc : ∀ r ∈ col, r.head? ≠ some 0 := fun r hr => (hf.framed r (List.mem_append_left _ hr)).1
  have hr : ∀ r ∈ row, r.head? ≠ some 0 := fun r hr => (hf.framed r (List.mem_append_right _ hr)).1
  have hf' := fits_blank hf (3 - col.length) (3 - row.length) (short_side (by omega)) (short_side (by omega))
    (Nat.lt_of_le_of_lt (Nat.mul_le_mul (show _ ≤ 3 by omega) (show _ ≤ 3 by omega)) (by decide))
  have hU := (uniqueFull_margins (3 - col.length) (3 - row.length) hc hr).mpr ((unique_iff hf).mp ⟨b, hb, hu⟩)
  obtain ⟨b', hb', hu'⟩ := (unique_iff hf').mpr hU
  have hn := unique_three hf'.framed (by simp; omega) (by simp; omega) hb' hu'
  rw [hasStable_margins _ _ hc hr] at hn
  exact (full_answer oc hf hn).1 b hb

example (oc : Bool) : solveNonogram oc [[2], [1]] [[2], [1]] = .ok (.ok [true, true, true, false]) := by
  refine C118_small oc _ _ fits_two_two (by decide) (by decide) _ ⟨rfl, fun x r h => ?_, fun y r h => ?_⟩ two_two_unique
  · match x with
    | 0 | 1 =>
      obtain rfl := Option.some.inj h
      exact (follows_iff_runs _ (by unfold Positive; decide) _).mpr (by decide)
    | n + 2 => simp at h
  · match y with
    | 0 | 1 =>
      obtain rfl := Option.some.inj h
      exact (follows_iff_runs _ (by unfold Positive; decide) _).mpr (by decide)
    | n + 2 => simp at h

/-- Columns 2 | 1, 1 and rows 1 | 1 | 1 | 1: one solution. -/
theorem switch_unique : UniqueFull [[2], [1, 1]] [[1], [1], [1], [1]] := by
  have hf : Fits [[2], [1, 1]] [[1], [1], [1], [1]] :=
    ⟨⟨by unfold Spec.Small; decide, by decide, by decide, by decide, by decide⟩, by decide⟩
  refine (unique_iff hf).mp ⟨[false, true, true, false, true, false, false, true], ⟨rfl, fun x r h => ?_, fun y r h => ?_⟩, ?_⟩
  · match x with
    | 0 | 1 =>
      obtain rfl := Option.some.inj h
      exact (follows_iff_runs _ (by unfold Positive; decide) _).mpr (by decide)
    | n + 2 => simp at h
  · match y with
    | 0 | 1 | 2 | 3 =>
      obtain rfl := Option.some.inj h
      exact (follows_iff_runs _ (by unfold Positive; decide) _).mpr (by decide)
    | n + 4 => simp at h
  · rintro c ⟨hl, hc, hr⟩
    match c, hl with
    | [a, b, c, d, e, f, g, h], _ =>
      have one := fun xs => (follows_iff_runs [1] (by unfold Positive; decide) xs).mp
      have h0 := (follows_iff_runs _ (by unfold Positive; decide) _).mp (hc 0 [2] rfl)
      have h1 := (follows_iff_runs _ (by unfold Positive; decide) _).mp (hc 1 [1, 1] rfl)
      have h2 : runs [a, b] = [1] := one _ (hr 0 [1] rfl)
      have h3 : runs [c, d] = [1] := one _ (hr 1 [1] rfl)
      have h4 : runs [e, f] = [1] := one _ (hr 2 [1] rfl)
      have h5 : runs [g, h] = [1] := one _ (hr 3 [1] rfl)
      have k2 : b = !a := by clear hc hr h0 h1; revert h2; cases a <;> cases b <;> decide
      have k3 : d = !c := by clear hc hr h0 h1; revert h3; cases c <;> cases d <;> decide
      have k4 : f = !e := by clear hc hr h0 h1; revert h4; cases e <;> cases f <;> decide
      have k5 : h = !g := by clear hc hr h0 h1; revert h5; cases g <;> cases h <;> decide
      subst k2 k3 k4 k5
      revert h0 h1
      clear h2 h3 h4 h5 hc hr
      cases a <;> cases c <;> cases e <;> cases g <;> decide

/-- The propagation gets stuck on it. -/
theorem switch_stuck : HasStable true [[2], [1, 1]] [[1], [1], [1], [1]] := by
  refine ⟨List.replicate 8 .Blank, ⟨rfl, fun x r h => ?_, fun y r h => ?_⟩, by decide⟩
  · match x with
    | 0 | 1 => obtain rfl := Option.some.inj h; exact stableB_all (by unfold Positive; decide) (by decide)
    | n + 2 => simp at h
  · match y with
    | 0 | 1 | 2 | 3 => obtain rfl := Option.some.inj h; exact stableB_all (by unfold Positive; decide) (by decide)
    | n + 4 => simp at h

/-- C118. For all other dimensions (two or more rows and columns, four or more of one of them) there is a puzzle with exactly
one solution on which `solve_nonogram` returns a grid that is not the solution. -/
theorem C118_missed (w h : Nat) (hw : 2 ≤ w) (hh : 2 ≤ h) (h4 : 4 ≤ w ∨ 4 ≤ h) (hw' : LineFits w)
    (hh' : LineFits h) (hs : w * h < 2 ^ 63) :
    ∃ col row b, col.length = w ∧ row.length = h ∧ Fits col row ∧ Solves col row b ∧ (∀ c, Solves col row c → c = b) ∧
      ∀ oc, ∃ g, solveNonogram oc col row = .ok (.ok g) ∧ ¬ Solves col row g := by
  have hf : Fits [[2], [1, 1]] [[1], [1], [1], [1]] :=
    ⟨⟨by unfold Spec.Small; decide, by decide, by decide, by decide, by decide⟩, by decide⟩
  have hl1 : ∀ r ∈ ([[2], [1, 1]] : List (List Nat)), r.head? ≠ some 0 := by decide
  have hl2 : ∀ r ∈ ([[1], [1], [1], [1]] : List (List Nat)), r.head? ≠ some 0 := by decide
  have hk1 : ∀ r ∈ ([[2], [1, 1], [1]] : List (List Nat)), r.length < 2 ^ 30 := by decide
  rcases h4 with h4 | h4
  · have hf' := fits_blank (fits_swap hf (by decide)) (w - 4) (h - 2) ⟨by simp; omega, fun r hr => ⟨by simp; omega, .inr (hk1 r (by simp at hr ⊢; tauto))⟩⟩ ⟨by simp; omega, fun r hr => ⟨by simp; omega, .inr (hk1 r (by simp at hr ⊢; tauto))⟩⟩
      (by simp only [List.length_cons, List.length_nil]; rwa [show w - 4 + (0 + 1 + 1 + 1 + 1) = w by omega, show h - 2 + (0 + 1 + 1) = h by omega])
    obtain ⟨b, hb, hu⟩ := (unique_iff hf').mpr ((uniqueFull_margins _ _ hl2 hl1).mpr (uniqueFull_swap switch_unique))
    exact ⟨_, _, b, by simp; omega, by simp; omega, hf', hb, hu, fun oc =>
      stuck_answer oc hf' ((hasStable_margins _ _ hl2 hl1).mpr (hasStable_swap switch_stuck))⟩
  · have hf' := fits_blank hf (w - 2) (h - 4) ⟨by simp; omega, fun r hr => ⟨by simp; omega, .inr (hk1 r (by simp at hr ⊢; tauto))⟩⟩ ⟨by simp; omega, fun r hr => ⟨by simp; omega, .inr (hk1 r (by simp at hr ⊢; tauto))⟩⟩
      (by simp only [List.length_cons, List.length_nil]; rwa [show w - 2 + (0 + 1 + 1) = w by omega, show h - 4 + (0 + 1 + 1 + 1 + 1) = h by omega])
    obtain ⟨b, hb, hu⟩ := (unique_iff hf').mpr ((uniqueFull_margins _ _ hl1 hl2).mpr switch_unique)
    exact ⟨_, _, b, by simp; omega, by simp; omega, hf', hb, hu, fun oc =>
      stuck_answer oc hf' ((hasStable_margins _ _ hl1 hl2).mpr switch_stuck)⟩

example : ∃ col row b, col.length = 4 ∧ row.length = 2 ∧ Solves col row b ∧ (∀ c, Solves col row c → c = b) ∧
    ∃ g, solveNonogram true col row = .ok (.ok g) ∧ ¬ Solves col row g := by
  obtain ⟨col, row, b, h1, h2, _, h3, h4, h5⟩ := C118_missed 4 2 (by omega) (by omega) (by omega) (by omega) (by omega) (by omega)
  exact ⟨col, row, b, h1, h2, h3, h4, h5 true⟩

end Nonogram.Props
