import Verif.Proofs.Nonogram.Counter
import Verif.Props.Nonogram

/-! C129: the `i32` block counters of the line step. -/
namespace Nonogram.Props
open Nonogram Nonogram.Spec

/-- C129. With overflow checks the line step panics exactly if the line can be completed and the rule asks for more than
`2^30` blocks, or for exactly `2^30` blocks and the last square can stay empty. -/
theorem C129_panics (rule : List Nat) (hr : Framed rule) (hs : Small rule) (m : RuleMachine)
    (hm : RuleMachine.new rule = .ok m) (line : List Square) (_hn : LineFits line.length) :
    m.rightLeft true line = .panic ↔ (∃ xs, Completes line rule xs) ∧
      (2 ^ 30 < blockCount rule ∨
        blockCount rule = 2 ^ 30 ∧ ∃ xs, Completes line rule xs ∧ xs.getLast? = some false) := by
  obtain ⟨m', h1, h2⟩ := machine_new hs
  obtain rfl := Prog.ok.inj (hm.symm.trans h1)
  rcases rightLeft_loop true hr hs h2 (line := line) with ⟨hn, he⟩ | ⟨L, R, hE, he⟩
  · rw [he]
    exact ⟨nofun, fun ⟨⟨xs, hx⟩, _⟩ => absurd hx (hn xs)⟩
  · rw [← overflow_iff hE]
    constructor
    · intro hp
      refine ⟨⟨L, hE.left⟩, ?_⟩
      by_contra hno
      push Not at hno
      rw [he, lineLoop true hE.left.1.1 hE.right.1.1 fun _ i hi =>
        ⟨hno i hi, Nat.lt_of_le_of_lt (extremes_le hE i hi) (hno i hi)⟩] at hp
      cases hp
    · rintro ⟨_, i, hi, ho⟩
      rw [he, loop_overflow hE.left.1.1 hE.right.1.1 (extremes_le hE) hi ho]
      rfl

/-- C129. Without overflow checks the line step never panics, and reports `NoSolution` exactly if the line cannot be
completed, whatever the counters do. -/
theorem C129_release (rule : List Nat) (hr : Framed rule) (hs : Small rule) (m : RuleMachine)
    (hm : RuleMachine.new rule = .ok m) (line : List Square) (_hn : LineFits line.length) :
    (∃ r, m.rightLeft false line = .ok r) ∧
    (m.rightLeft false line = .ok (.error .NoSolution) ↔ ∀ xs, ¬ Completes line rule xs) := by
  obtain ⟨m', h1, h2⟩ := machine_new hs
  obtain rfl := Prog.ok.inj (hm.symm.trans h1)
  rcases rightLeft_gen false hr hs h2 (line := line) nofun with ⟨hn, he⟩ | ⟨L, R, hE, he⟩
  · exact ⟨⟨_, he⟩, ⟨fun _ => hn, fun _ => he⟩⟩
  · refine ⟨⟨_, he⟩, ⟨fun h => ?_, fun h => absurd hE.left (h L)⟩⟩
    rw [h] at he; cases Prog.ok.inj he

/-- C129. As long as the counters do no harm (no panic with overflow checks, fewer than `2^31` blocks without), a line step
sets exactly the settled squares, as in C58. -/
theorem C129_exact (oc : Bool) (rule : List Nat) (hr : Framed rule) (hs : Small rule) (m : RuleMachine)
    (hm : RuleMachine.new rule = .ok m) (line : List Square) (hn : LineFits line.length)
    (hc : oc = true → m.rightLeft true line ≠ .panic) (hk : oc = false → blockCount rule < 2 ^ 31)
    (hx : ∃ xs, Completes line rule xs) :
    ∃ line' ch, m.rightLeft oc line = .ok (.ok (line', ch)) ∧ line'.length = line.length ∧
      ∀ (i : Nat), line[i]? = some .Blank →
        (¬ Settled line rule i ∧ line'[i]? = some .Blank) ∨
        (Settled line rule i ∧ ∃ b, (∀ xs, Completes line rule xs → xs[i]? = some b) ∧
          line'[i]? = some (if b = true then .Filled else .Blocked)) := by
  obtain ⟨m', h1, h2⟩ := machine_new hs
  obtain rfl := Prog.ok.inj (hm.symm.trans h1)
  have hsmall : oc = true → ∀ L R, Extremes line rule L R → ∀ i < line.length, blk L i < 2 ^ 31 ∧ blk R i < 2 ^ 31 := by
    intro ho L R hE i hi
    have hno : ¬ ∃ i < line.length, 2 ^ 31 ≤ blk L i := by
      rw [overflow_iff hE]
      intro h
      exact hc ho ((C129_panics rule hr hs m hm line hn).mpr ⟨hx, h⟩)
    push Not at hno
    exact ⟨hno i hi, Nat.lt_of_le_of_lt (extremes_le hE i hi) (hno i hi)⟩
  rcases rightLeft_gen oc hr hs h2 hsmall with ⟨hn, he⟩ | ⟨L, R, hE, he⟩
  · obtain ⟨xs, hx⟩ := hx; exact absurd hx (hn xs)
  · have hW : deduceW L R line = deduce L R line := by
      refine deduceW_eq fun i hi e => ?_
      have h1 := extremes_le hE i hi
      have h2 : blk L i < 2 ^ 32 := by
        cases oc with
        | true => have := (hsmall rfl L R hE i hi).1; omega
        | false =>
          have hb := blk_reverse (xs := L) (i := i) (by rw [hE.left.1.1]; exact hi)
          rw [runs_count hE.left] at hb
          have := hk rfl
          omega
      rwa [Nat.mod_eq_of_lt h2, Nat.mod_eq_of_lt (by omega)] at e
    rw [hW] at he
    refine ⟨_, _, he, deduce_length _ _ _, fun i hi => ?_⟩
    rw [deduce_get (List.getElem?_eq_some_iff.mp hi).1]
    rcases deduceAt_settled hE hi with ⟨h3, h4⟩ | ⟨h3, b, h4, h5⟩
    · exact .inl ⟨h3, by rw [h4]⟩
    · exact .inr ⟨h3, b, h4, by rw [h5]⟩

/-- C129. Without overflow checks and with `2^31` blocks or more the step is wrong: on a long enough empty line with blocks
of length one it marks square `2^32 - 1` as blocked, although that square is filled in some completion. -/
theorem C129_wrong (k n : Nat) (hk : 2 ^ 31 ≤ k) (hn : 2 ^ 32 + 2 * k ≤ n) (_hf : LineFits n)
    (hs : Small (List.replicate k 1)) (m : RuleMachine)
    (hm : RuleMachine.new (List.replicate k 1) = .ok m) :
    ∃ line ch, m.rightLeft false (List.replicate n .Blank) = .ok (.ok (line, ch)) ∧
      line[2 ^ 32 - 1]? = some .Blocked ∧
      ∃ xs, Completes (List.replicate n .Blank) (List.replicate k 1) xs ∧ xs[2 ^ 32 - 1]? = some true := by
  obtain ⟨m', h1, h2⟩ := machine_new hs
  obtain rfl := Prog.ok.inj (hm.symm.trans h1)
  obtain ⟨N, hN⟩ : ∃ N : Nat, N = 2 ^ 31 := ⟨_, rfl⟩
  rw [show (2 : Nat) ^ 32 - 1 = 2 * N - 1 by omega]
  have hr : Framed (List.replicate k 1) :=
    framed_of_positive _ fun a ha => by rw [List.eq_of_mem_replicate ha]; decide
  have hi : 2 * N - 1 < n := by omega
  rcases rightLeft_gen false hr hs h2 (line := List.replicate n .Blank) nofun with ⟨hno, _⟩ | ⟨L, R, hE, he⟩
  · exact absurd (shifted_completes (a := 0) (b := n - 2 * k) (by omega)) (hno _)
  · refine ⟨_, _, he, ?_, shifted (2 * N - 1) k (n - 2 * k - (2 * N - 1)), shifted_completes (by omega), ?_⟩
    · obtain ⟨bl, br⟩ := shifted_apart (N := N) (k := k) (n := n) (by omega) (by omega) (by omega) hE
      have hL : 2 * N - 1 < L.length := by rw [hE.left.1.1, List.length_replicate]; exact hi
      have hp := blk_parity (List.getElem?_eq_getElem hL)
      rw [bl] at hp
      have hf : L[2 * N - 1] = false := by rw [hp, decide_eq_false_iff_not]; omega
      have hd : deduceAtW L R (List.replicate n .Blank) (2 * N - 1) = .Blocked := by
        unfold deduceAtW
        have : (List.replicate n Square.Blank).getD (2 * N - 1) .Blank = .Blank := by
          rw [List.getD_eq_getElem?_getD, List.getElem?_replicate, if_pos hi]; rfl
        rw [this, bl, br]
        simp only
        rw [if_pos (by omega), List.getD_eq_getElem?_getD, List.getElem?_eq_getElem hL, hf]
        rfl
      simp only [deduceW, List.getElem?_map, List.length_replicate, List.getElem?_range hi, Option.map_some, hd]
    · rw [shifted, List.getElem?_append_right (by rw [List.length_replicate]), List.length_replicate, Nat.sub_self]
      obtain ⟨j, rfl⟩ : ∃ j, k = j + 1 := ⟨k - 1, by omega⟩
      rfl

/-- The hypotheses of C129: rules with more blocks than the counters can take are allocated without an overflow. -/
example : Small (List.replicate (2 ^ 31) 1) ∧ Framed (List.replicate (2 ^ 31) 1) := by
  constructor
  · unfold Small; rw [List.map_replicate, List.sum_replicate_nat]; omega
  · exact framed_of_positive _ fun a ha => by rw [List.eq_of_mem_replicate ha]; decide

/-- An empty line of `2^33` squares with `2^31` blocks: a panic with overflow checks, a wrong square without. -/
example (m : RuleMachine) (hm : RuleMachine.new (List.replicate (2 ^ 31) 1) = .ok m) :
    m.rightLeft true (List.replicate (2 ^ 33) .Blank) = .panic ∧
    ∃ line ch, m.rightLeft false (List.replicate (2 ^ 33) .Blank) = .ok (.ok (line, ch)) ∧ line[2 ^ 32 - 1]? = some .Blocked := by
  have hs : Small (List.replicate (2 ^ 31) 1) := by unfold Small; rw [List.map_replicate, List.sum_replicate_nat]; omega
  have hr : Framed (List.replicate (2 ^ 31) 1) :=
    framed_of_positive _ fun a ha => by rw [List.eq_of_mem_replicate ha]; decide
  constructor
  · refine (C129_panics _ hr hs m hm _ (by unfold LineFits; rw [List.length_replicate]; omega)).mpr
      ⟨⟨_, shifted_completes (a := 0) (k := 2 ^ 31) (b := 2 ^ 33 - 2 ^ 32) (by omega)⟩, .inl ?_⟩
    rw [blockCount, List.filter_replicate_of_pos (by decide), List.length_replicate]
    omega
  · obtain ⟨line, ch, h1, h2, _⟩ := C129_wrong (2 ^ 31) (2 ^ 33) (by omega) (by omega) (by unfold LineFits; omega) hs m hm
    exact ⟨line, ch, h1, h2⟩

/-- The exact step where the rule is longer than C58 allows without overflow checks: a machine for `2^30` blocks exists. -/
example : ∃ m, RuleMachine.new (List.replicate (2 ^ 30) 1) = .ok m := by
  obtain ⟨m, h, _⟩ := machine_new (rule := List.replicate (2 ^ 30) 1)
    (by unfold Small; rw [List.map_replicate, List.sum_replicate_nat]; omega)
  exact ⟨m, h⟩

end Nonogram.Props
