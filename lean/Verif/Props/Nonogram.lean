import Verif.Proofs.Nonogram.Zero
import Verif.Proofs.Nonogram.Transpose
import Verif.Proofs.Nonogram.Parse

/-!
Property theorems for `parse_nonogram_rules`, `RuleMachine`, `right_left` and `solve_nonogram` (C37-C49, C57-C60, C62,
C67-C69).

Everything holds with overflow checks on or off (`oc`) unless said otherwise. `Small` and `Fits` (in the
specification) collect the size limits: allocations below `isize::MAX` bytes, line lengths within `i32`.
-/
namespace Nonogram.Props
open Nonogram Nonogram.Spec

/-! ### C37: round trip -/

theorem numbers_writeRule {vs : List Nat} (hne : vs ≠ []) (hb : ∀ v ∈ vs, v < 2 ^ 64) : Numbers (writeRule vs) vs := by
  refine ⟨vs.map (Nat.toDigits 10), ⟨by simpa using hne, ?_, rfl⟩, ?_⟩
  · intro p hp
    obtain ⟨v, _, rfl⟩ := List.mem_map.mp hp
    intro hm
    have := Nat.isDigit_of_mem_toDigits (by decide) (by decide) hm
    exact absurd this (by decide)
  · clear hne
    induction vs with
    | nil => exact .nil
    | cons v vs ih => exact .cons (toDigits_usize (hb v (by simp))) (ih fun u hu => hb u (by simp [hu]))

theorem semicolon_writeRule (vs : List Nat) : ';' ∉ writeRule vs := by
  intro h
  unfold writeRule at h
  induction vs with
  | nil => simp [List.intercalate] at h
  | cons v vs ih =>
    have hd : ';' ∉ Nat.toDigits 10 v := by
      intro hm
      have := Nat.isDigit_of_mem_toDigits (by decide) (by decide) hm
      exact absurd this (by decide)
    cases vs with
    | nil =>
      rw [List.map_cons, List.map_nil, intercalate_one] at h
      exact hd h
    | cons u us =>
      rw [List.map_cons, List.map_cons, intercalate_cons₂, List.mem_append, List.mem_cons] at h
      rcases h with h | h | h
      · exact hd h
      · exact absurd h (by decide)
      · exact ih (by simpa using h)

/-- C37. Writing a non-empty list of non-empty rules down and parsing it gives the list back, if every rule fits
the bound. -/
theorem C37_round_trip (oc : Bool) (rules : List (List Nat)) (bound : Nat) (hne : rules ≠ [])
    (hr : ∀ r ∈ rules, r ≠ [] ∧ minLength r ≤ bound) (hb : bound < 2 ^ 64) :
    parseNonogramRules oc (writeRules rules) bound = .ok (.ok rules) := by
  have hval : ∀ r ∈ rules, ∀ v ∈ r, v < 2 ^ 64 := by
    intro r hrm v hv
    have h1 := (hr r hrm).2
    have h2 := mem_le_sum hv
    unfold minLength at h1
    omega
  have hpieces : Pieces ';' (writeRules rules) (rules.map writeRule) :=
    ⟨by simpa using hne, fun p hp => by
      obtain ⟨r, _, rfl⟩ := List.mem_map.mp hp
      exact semicolon_writeRule r, rfl⟩
  have hsz : ∀ r ∈ rules, sizeOf' oc r = minLength r := by
    intro r hrm
    have := (hr r hrm).2
    unfold sizeOf' wrap
    rw [Nat.mod_eq_of_lt (by omega), ite_self]
  apply parse_complete
  · refine ⟨_, hpieces, ?_⟩
    clear hpieces hne
    induction rules with
    | nil => exact .nil
    | cons r rules ih =>
      refine .cons ⟨numbers_writeRule (hr r (by simp)).1 (hval r (by simp)), ?_⟩
        (ih (fun q hq => hr q (by simp [hq])) (fun q hq => hval q (by simp [hq])) (fun q hq => hsz q (by simp [hq])))
      rw [hsz r (by simp)]; exact (hr r (by simp)).2
  · intro _ parts hp p hpm
    obtain rfl := hp.unique hpieces
    obtain ⟨r, hrm, rfl⟩ := List.mem_map.mp hpm
    refine not_overflows (numbers_writeRule (hr r hrm).1 (hval r hrm)) ?_
    have := (hr r hrm).2
    omega

/-- The hypotheses of C37 hold for a puzzle with several numbers per rule. -/
example (oc : Bool) : parseNonogramRules oc "3,1;10;2,4,1".toList 10 = .ok (.ok [[3, 1], [10], [2, 4, 1]]) :=
  C37_round_trip oc [[3, 1], [10], [2, 4, 1]] 10 (by decide) (by decide) (by decide)

/-! ### C38: accepted rules fit the bound -/

/-- C38, for runs with overflow checks and for texts whose sums fit 64 bits. Missing: without overflow checks the
sum wraps around, and a rule that is too long can be accepted (`C38_false`). -/
theorem C38_partial (oc : Bool) (text : List Char) (bound : Nat) (rules : List (List Nat))
    (ho : oc = true ∨ ∀ parts, Pieces ';' text parts → ∀ p ∈ parts, ¬ Overflows p)
    (h : parseNonogramRules oc text bound = .ok (.ok rules)) :
    ∃ parts, Pieces ';' text parts ∧
      List.Forall₂ (fun part vs => Numbers part vs ∧ minLength vs ≤ bound) parts rules := by
  rcases parse_result oc text bound with ⟨r, h1, h2⟩ | ⟨_, h1, _⟩
  · rw [h] at h1
    obtain rfl := Prog.ok.inj h1
    exact parses_congr (s' := minLength) (fun parts hp p hpm vs hv =>
      size_eq (ho.imp_right fun h => h parts hp p hpm) hv) h2
  · rw [h] at h1; cases h1

/-- The hypotheses of `C38_partial` are met by a text that is accepted. -/
example : parseNonogramRules true "3,+1;007".toList 7 = .ok (.ok [[3, 1], [7]]) := by decide

/-- C38 is false without overflow checks: a rule that needs `2 ^ 64 + 2` squares is accepted for lines of 5. -/
theorem C38_false : ∃ text rules, parseNonogramRules false text 5 = .ok (.ok rules) ∧
    ∃ r ∈ rules, 5 < minLength r :=
  ⟨"18446744073709551615,2".toList, [[18446744073709551615, 2]], by decide, _, List.mem_singleton_self _, by decide⟩

/-! ### C39: errors -/

/-- C39, for texts whose sums fit 64 bits: the result is the one the specification asks for, in particular
the error is that of the first offending rule, `InvalidRule` with the first field that is not a number, or
`InvalidRuleDimension` if all fields are numbers and the rule is too long. Missing: texts whose sums overflow
(`C39_false`). -/
theorem C39_partial (oc : Bool) (text : List Char) (bound : Nat)
    (ho : ∀ parts, Pieces ';' text parts → ∀ p ∈ parts, ¬ Overflows p) (r : Except NonogramError (List (List Nat))) :
    parseNonogramRules oc text bound = .ok r ↔ Parses minLength text bound r := by
  have hs : ∀ parts, Pieces ';' text parts → ∀ p ∈ parts, ∀ vs, Numbers p vs → sizeOf' oc vs = minLength vs :=
    fun parts hp p hpm vs hv => size_eq (.inr (ho parts hp p hpm)) hv
  constructor
  · intro h
    rcases parse_result oc text bound with ⟨r', h1, h2⟩ | ⟨_, h1, _⟩
    · rw [h] at h1
      obtain rfl := Prog.ok.inj h1
      exact parses_congr hs h2
    · rw [h] at h1; cases h1
  · intro h
    exact parse_complete oc (parses_congr (fun parts hp p hpm vs hv => (hs parts hp p hpm vs hv).symm) h) (fun _ => ho)

/-- Both errors and their precedence on concrete texts. -/
example : parseNonogramRules true "1;9;x".toList 5 = .ok (.error .InvalidRuleDimension) := by decide
example : parseNonogramRules true "1;9,x;".toList 5 = .ok (.error (.InvalidRule ['x'])) := by decide
example : parseNonogramRules true "".toList 5 = .ok (.error (.InvalidRule [])) := by decide

/-- C39 is false in general: with overflow checks a text with an invalid field panics, without them a rule that
is too long gives no error. -/
theorem C39_false :
    (∃ text, BadField text ['x'] ∧ ';' ∉ text ∧ parseNonogramRules true text 5 = .panic) ∧
    (∃ text vs, Numbers text vs ∧ 5 < minLength vs ∧ ';' ∉ text ∧ parseNonogramRules false text 5 = .ok (.ok [vs])) := by
  constructor
  · refine ⟨"18446744073709551615,1,x".toList, ⟨["18446744073709551615".toList, ['1']], [], ?_, ?_, ?_⟩, by decide, by decide⟩
    · rw [← splitOn_eq_iff]; decide
    · intro g hg
      have : parseUsize g ≠ none := by
        revert g; decide
      by_contra hn
      exact this ((parseUsize_none g).mpr hn)
    · rw [← parseUsize_none]; decide
  · refine ⟨"18446744073709551615,2".toList, [18446744073709551615, 2],
      ⟨["18446744073709551615".toList, ['2']], ?_, ?_⟩, by decide, by decide, by decide⟩
    · rw [← splitOn_eq_iff]; decide
    · exact .cons ((parseUsize_iff _ _).mp (by decide)) (.cons ((parseUsize_iff _ _).mp (by decide)) .nil)

/-! ### C57: the parser, exactly -/

/-- C57, without overflow checks: the parser never panics, and the result is that of the specification with sizes
reduced modulo `2 ^ 64`. -/
theorem C57_wrapping (text : List Char) (bound : Nat) :
    (∃ r, parseNonogramRules false text bound = .ok r) ∧
    ∀ r, parseNonogramRules false text bound = .ok r ↔ Parses (fun vs => minLength vs % 2 ^ 64) text bound r := by
  have hs : sizeOf' false = fun vs => minLength vs % 2 ^ 64 := rfl
  rcases parse_result false text bound with ⟨r', h1, h2⟩ | ⟨h, _⟩
  · refine ⟨⟨r', h1⟩, fun r => ⟨fun h => ?_, fun h => parse_complete false h (by simp)⟩⟩
    rw [h] at h1
    obtain rfl := Prog.ok.inj h1
    exact h2
  · cases h

/-- C57, with overflow checks: the parser panics exactly if it meets a rule whose sums overflow before any rule
with an error; otherwise the result is that of the specification. -/
theorem C57_checked (text : List Char) (bound : Nat) (hb : bound < 2 ^ 64) :
    (parseNonogramRules true text bound = .panic ↔ ∃ pre part post, Pieces ';' text (pre ++ part :: post) ∧
      (∀ p ∈ pre, ∃ vs, Numbers p vs ∧ minLength vs ≤ bound) ∧ Overflows part) ∧
    (parseNonogramRules true text bound ≠ .panic → ∃ r, parseNonogramRules true text bound = .ok r ∧
      Parses minLength text bound r) := by
  constructor
  · constructor
    · intro h
      rcases parse_result true text bound with ⟨r, h1, _⟩ | ⟨_, _, h3⟩
      · rw [h] at h1; cases h1
      · exact h3
    · rintro ⟨pre, part, post, hp, h1, h2⟩
      unfold parseNonogramRules
      rw [(splitOn_eq_iff _ _ _).mpr hp]
      refine (parseAll_stop true bound h1 fun _ p hpm => ?_).1 (parseRule_over bound h2)
      obtain ⟨vs, hv, hle⟩ := h1 p hpm
      exact not_overflows hv (by omega)
  · intro h
    rcases parse_result true text bound with ⟨r, h1, h2⟩ | ⟨_, h1, _⟩
    · exact ⟨r, h1, h2⟩
    · exact absurd h1 h

/-- Both sides of C57 occur. -/
example : parseNonogramRules true "18446744073709551615,1".toList 5 = .panic := by decide
example : parseNonogramRules false "18446744073709551615,1".toList 5 = .ok (.ok [[18446744073709551615, 1]]) := by decide

/-! ### Rules -/

/-- For rules without zeros, to satisfy the rule means to have blocks of the given lengths. -/
theorem follows_iff_runs (rule : List Nat) (hr : Positive rule) (xs : List Bool) : Follows rule xs ↔ runs xs = rule :=
  follows_runs hr

/-- With zeros the line has blocks of the positive lengths. -/
theorem runs_of_follows (rule : List Nat) (xs : List Bool) (h : Follows rule xs) : runs xs = rule.filter (0 < ·) := h.runs

/-- A rule with a zero, and a line that satisfies it: the two blocks are two squares apart. -/
example : Follows [1, 0, 1] [true, false, false, true] ∧ ¬ Follows [1, 0, 1] [true, false, true, false] := by
  constructor
  · exact ⟨0, [false, true], rfl, 0, [true], rfl, 0, 0, rfl⟩
  · rintro ⟨g, ys, h1, g', zs, rfl, g'', k, rfl⟩
    have := congrArg (fun l => l.drop g) h1
    have hl := congrArg List.length h1
    have hg : g = 0 := by
      cases g with
      | zero => rfl
      | succ g => simp [List.replicate_succ] at h1
    subst hg
    simp only [List.replicate_zero, List.nil_append, List.replicate_one, List.cons_append, List.cons.injEq, true_and] at h1
    cases g' with
    | zero =>
      simp at h1
    | succ g' =>
      simp [List.replicate_succ] at h1

/-- Rules without zeros neither start nor end with one. -/
theorem framed_of_positive (rule : List Nat) (h : Positive rule) : Framed rule := Nonogram.framed_of_positive h

/-! ### C40: the line step is sound -/

/-- C40. After a line step every completion of the line is still a completion, known squares have not changed,
and the flag tells whether anything changed. -/
theorem C40_sound (oc : Bool) (rule : List Nat) (hr : Framed rule) (hs : Small rule) (m : RuleMachine)
    (hm : RuleMachine.new rule = .ok m) (line line' : List Square) (hb : CountsFit line.length rule) (ch : Bool)
    (h : m.rightLeft oc line = .ok (.ok (line', ch))) :
    Extends line line' ∧ (∀ xs, Completes line rule xs → Completes line' rule xs) ∧ (ch = true ↔ line' ≠ line) := by
  obtain ⟨m', h1, h2⟩ := machine_new hs
  obtain rfl := Prog.ok.inj (hm.symm.trans h1)
  rcases rightLeft_line oc hr hs h2 hb with ⟨_, he⟩ | ⟨L, R, hE, he⟩
  · rw [h] at he; cases Prog.ok.inj he
  · rw [h] at he
    obtain ⟨rfl, rfl⟩ := Prod.mk.inj (Except.ok.inj (Prog.ok.inj he))
    exact ⟨deduce_le L R line, fun xs hx => deduce_agrees hE hx, decide_eq_true_iff⟩

/-- A step that sets squares: in a line of five, a block of four must cover the three middle squares. -/
example : (RuleMachine.new [4]).bind (fun m => m.rightLeft true (List.replicate 5 .Blank)) =
    .ok (.ok ([.Blank, .Filled, .Filled, .Filled, .Blank], true)) := by decide

/-! ### C41: unsolvable lines -/

/-- C41. The line step reports `NoSolution` exactly if the line has no completion; otherwise it returns a line. -/
theorem C41_unsolvable (oc : Bool) (rule : List Nat) (hr : Framed rule) (hs : Small rule) (m : RuleMachine)
    (hm : RuleMachine.new rule = .ok m) (line : List Square) (hb : CountsFit line.length rule) :
    (m.rightLeft oc line = .ok (.error .NoSolution) ↔ ∀ xs, ¬ Completes line rule xs) ∧
    ((∃ xs, Completes line rule xs) → ∃ r, m.rightLeft oc line = .ok (.ok r)) := by
  obtain ⟨m', h1, h2⟩ := machine_new hs
  obtain rfl := Prog.ok.inj (hm.symm.trans h1)
  rcases rightLeft_line oc hr hs h2 hb with ⟨hn, he⟩ | ⟨L, R, hE, he⟩
  · refine ⟨⟨fun _ => hn, fun _ => he⟩, ?_⟩
    rintro ⟨xs, hx⟩; exact absurd hx (hn xs)
  · refine ⟨⟨fun h => ?_, fun h => absurd hE.left (h L)⟩, fun _ => ⟨_, he⟩⟩
    rw [h] at he; cases Prog.ok.inj he

/-- An unsolvable line with known squares, and a solvable one. -/
example : (RuleMachine.new [2, 1]).bind (fun m => m.rightLeft true [.Blank, .Blocked, .Blank, .Blank, .Blank]) =
    .ok (.error .NoSolution) := by decide
example : (RuleMachine.new [1, 1]).bind (fun m => m.rightLeft true [.Blank, .Blocked, .Blank, .Blank, .Blank]) =
    .ok (.ok ([.Blank, .Blocked, .Blank, .Blank, .Blank], false)) := by decide

/-! ### C42: leftmost arrangements -/

/-- C42. `find_left` returns an arrangement in which every block starts at or before the place where it starts in
any other arrangement, and `None` exactly if there is none. On the reversed line and the states of the
reversed rule it returns, read backwards, an arrangement in which every block starts as late as possible. -/
theorem C42_leftmost (rule : List Nat) (hr : Framed rule) (hs : Small rule) (m : RuleMachine)
    (hm : RuleMachine.new rule = .ok m) (line : List Square) :
    ((findLeft m.leftStates line = .ok none ∧ ∀ xs, ¬ Completes line rule xs) ∨
     ∃ L, findLeft m.leftStates line = .ok (some L) ∧ Completes line rule L ∧
       ∀ xs, Completes line rule xs → List.Forall₂ (· ≤ ·) (starts L) (starts xs)) ∧
    ((findLeft m.rightStates line.reverse = .ok none ∧ ∀ xs, ¬ Completes line rule xs) ∨
     ∃ R, findLeft m.rightStates line.reverse = .ok (some R) ∧ Completes line rule R.reverse ∧
       ∀ xs, Completes line rule xs → List.Forall₂ (· ≤ ·) (starts xs) (starts R.reverse)) := by
  obtain ⟨m', h1, h2⟩ := machine_new hs
  obtain rfl := Prog.ok.inj (hm.symm.trans h1)
  constructor
  · obtain ⟨o, ho, hc⟩ := findLeft_rule hr.1 hs h2.1 line
    cases o with
    | none => exact .inl ⟨ho, hc⟩
    | some L =>
      refine .inr ⟨L, ho, hc.1, fun xs hx => ?_⟩
      exact starts_le (by rw [hc.1.2.runs, hx.2.runs]) fun i hi => hc.2 xs hx i (by rw [← hx.1.1]; exact hi)
  · obtain ⟨o, ho, hc⟩ := findLeft_rule (framed_reverse hr).1 (small_reverse hs) h2.2 line.reverse
    cases o with
    | none => exact .inl ⟨ho, fun xs hx => hc _ (completes_reverse.mpr hx)⟩
    | some R =>
      have hRc : Completes line rule R.reverse := by
        rw [← completes_reverse, List.reverse_reverse]; exact hc.1
      refine .inr ⟨R, ho, hRc, fun xs hx => ?_⟩
      refine starts_le (by rw [hRc.2.runs, hx.2.runs]) fun i hi => ?_
      have hxl : xs.length = line.length := hx.1.1
      have hRl : R.reverse.length = line.length := hRc.1.1
      have e1 := blk_reverse (xs := xs) (i := i) (by omega)
      have e2 := blk_reverse (xs := R.reverse) (i := i) (by omega)
      rw [hx.2.runs, hxl] at e1
      rw [hRc.2.runs, List.reverse_reverse, hRl] at e2
      have e3 := hc.2 _ (completes_reverse.mpr hx) (line.length - 1 - i) (by rw [List.length_reverse]; omega)
      omega

/-- `find_left` on a line with a known square. -/
example : (RuleMachine.new [2, 1]).bind (fun m => findLeft m.leftStates
    [.Blank, .Blocked, .Blank, .Blank, .Blank, .Blank, .Filled]) =
    .ok (some [false, false, true, true, false, false, true]) := by decide

/-! ### C58: what a line step finds, exactly -/

/-- C58. A line step sets an unknown square exactly if the square belongs to the same block, or to the gap between
the same blocks, in all completions; it then gets its common value. -/
theorem C58_exact (oc : Bool) (rule : List Nat) (hr : Framed rule) (hs : Small rule) (m : RuleMachine)
    (hm : RuleMachine.new rule = .ok m) (line : List Square) (hb : CountsFit line.length rule)
    (hx : ∃ xs, Completes line rule xs) :
    ∃ line' ch, m.rightLeft oc line = .ok (.ok (line', ch)) ∧ line'.length = line.length ∧
      ∀ (i : Nat), line[i]? = some .Blank →
        (¬ Settled line rule i ∧ line'[i]? = some .Blank) ∨
        (Settled line rule i ∧ ∃ b, (∀ xs, Completes line rule xs → xs[i]? = some b) ∧
          line'[i]? = some (if b = true then .Filled else .Blocked)) := by
  obtain ⟨m', h1, h2⟩ := machine_new hs
  obtain rfl := Prog.ok.inj (hm.symm.trans h1)
  rcases rightLeft_line oc hr hs h2 hb with ⟨hn, he⟩ | ⟨L, R, hE, he⟩
  · obtain ⟨xs, hx⟩ := hx; exact absurd hx (hn xs)
  · refine ⟨_, _, he, deduce_length _ _ _, fun i hi => ?_⟩
    rw [deduce_get (List.getElem?_eq_some_iff.mp hi).1]
    rcases deduceAt_settled hE hi with ⟨h, h'⟩ | ⟨h, b, h', h''⟩
    · exact .inl ⟨h, by rw [h']⟩
    · exact .inr ⟨h, b, h', by rw [h'']⟩

/-- The rule `[3]` on a line of five squares, one of them blocked: the step fills the second square. -/
example : ∃ m xs, RuleMachine.new [3] = .ok m ∧ Completes [.Blank, .Blank, .Blank, .Blank, .Blocked] [3] xs ∧
    m.rightLeft true [.Blank, .Blank, .Blank, .Blank, .Blocked] = .ok (.ok ([.Blank, .Filled, .Filled, .Blank, .Blocked], true)) := by
  refine ⟨_, [true, true, true, false, false], rfl, ⟨?_, ?_⟩, by decide⟩
  · refine ⟨rfl, fun i s b hs hb => ?_⟩
    match i with
    | 0 | 1 | 2 | 3 | 4 => cases hs; cases hb; simp [Compat]
    | i + 5 => simp at hs
  · exact (follows_iff_runs _ (by unfold Positive; decide) _).mpr (by decide)

/-- C58. The step is weaker than it could be: for the rule `1 1` on a line of five with the middle square filled,
the second and the fourth square are empty in every completion, but the step does not find this. -/
theorem C58_incomplete (oc : Bool) : ∃ m, RuleMachine.new [1, 1] = .ok m ∧
    m.rightLeft oc [.Blank, .Blank, .Filled, .Blank, .Blank] =
      .ok (.ok ([.Blank, .Blank, .Filled, .Blank, .Blank], false)) ∧
    (∃ xs, Completes [.Blank, .Blank, .Filled, .Blank, .Blank] [1, 1] xs) ∧
    ∀ xs, Completes [.Blank, .Blank, .Filled, .Blank, .Blank] [1, 1] xs → xs[1]? = some false ∧ xs[3]? = some false := by
  refine ⟨_, rfl, by cases oc <;> decide, ⟨[true, false, true, false, false], ⟨rfl, ?_⟩,
    (follows_iff_runs _ (by unfold Positive; decide) _).mpr (by decide)⟩, ?_⟩
  · intro i q b hq hb
    match i with
    | 0 | 1 | 3 | 4 => simp at hq; subst hq; simp [Compat]
    | 2 => simp at hb; subst hb; simp at hq; subst hq; simp [Compat]
    | n + 5 => simp at hq
  · rintro xs ⟨⟨hl, hc⟩, hrun⟩
    rw [follows_iff_runs _ (by unfold Positive; decide)] at hrun
    match xs, hl with
    | [a, b, c, d, e], _ =>
      have hc2 : c = true := (hc 2 .Filled c rfl rfl).1 rfl
      subst hc2
      revert hrun
      cases a <;> cases b <;> cases d <;> cases e <;> decide

/-! ### C43, C44: soundness of `solve_nonogram` -/

/-- A solution agrees with the propagated grid. -/
theorem agrees_of_solves {col row : List (List Nat)} {g : List Square}
    (hle : ∀ F, Stable col row F → Extends g F) {b : List Bool} (hb : Solves col row b) : Agrees g b := by
  have := hle _ (stable_of_solves hb)
  refine ⟨by rw [← this.1]; simp, fun p q c hq hc => ?_⟩
  by_cases hqb : q = .Blank
  · subst hqb; simp [Compat]
  · have h := this.2 p q hq hqb
    simp only [List.getElem?_map, hc, Option.map_some, Option.some.injEq] at h
    subst h
    cases c <;> simp [Compat]

/-- C43. Every square that `solve_nonogram` marks is filled in every solution. -/
theorem C43_sound (oc : Bool) (col row : List (List Nat)) (hf : Fits col row) (g : List Bool)
    (h : solveNonogram oc col row = .ok (.ok g)) (b : List Bool) (hb : Solves col row b) (p : Nat)
    (hp : g[p]? = some true) : b[p]? = some true := by
  rcases propagate_least oc hf with ⟨_, _, hs⟩ | ⟨G, _, hle, _, hs⟩
  · rw [h] at hs; cases Prog.ok.inj hs
  · rw [h] at hs
    obtain rfl := Except.ok.inj (Prog.ok.inj hs)
    exact agrees_filled (agrees_of_solves hle hb) hp

/-- C44. `solve_nonogram` returns no error but `NoSolution`, and that only if there is no solution. -/
theorem C44_no_solution (oc : Bool) (col row : List (List Nat)) (hf : Fits col row) (e : NonogramError)
    (h : solveNonogram oc col row = .ok (.error e)) : e = .NoSolution ∧ ∀ b, ¬ Solves col row b := by
  rcases propagate_least oc hf with ⟨hno, _, hs⟩ | ⟨G, _, _, _, hs⟩
  · rw [h] at hs
    refine ⟨Except.error.inj (Prog.ok.inj hs), fun b hb => hno _ (stable_of_solves hb)⟩
  · rw [h] at hs; cases Prog.ok.inj hs

/-! Concrete puzzles. `loop` is not evaluated by the kernel; the passes are, one after another. -/

/-- The puzzle of the repository's tests: columns `2`, `1`, rows `2`, `1`. -/
theorem solve_two_two (oc : Bool) : solveNonogram oc [[2], [1]] [[2], [1]] = .ok (.ok [true, true, true, false]) := by
  have h : rightLeft oc (List.replicate 4 .Blank) [[2], [1]] [[2], [1]] =
      .ok (.ok [.Filled, .Filled, .Filled, .Blocked]) := by
    unfold rightLeft
    simp only
    obtain ⟨cs, hcs⟩ : ∃ cs, mapP RuleMachine.new [[2], [1]] = .ok cs := ⟨_, rfl⟩
    have hcs' := hcs
    rw [show mapP RuleMachine.new [[2], [1]] = .ok _ from rfl] at hcs'
    rw [hcs, Prog.ok_bind, Prog.ok_bind, ← Prog.ok.inj hcs']
    rw [loop_inl (s' := [.Filled, .Filled, .Filled, .Blocked]) (by cases oc <;> decide)]
    exact loop_inr (by cases oc <;> decide)
  unfold solveNonogram
  simp only [List.length_cons, List.length_nil]
  rw [mulW_ok (by decide), Prog.ok_bind, vecRepeat, if_pos (by decide), Prog.ok_bind]
  rw [h]
  rfl

theorem fits_two_two : Fits [[2], [1]] [[2], [1]] :=
  ⟨⟨by unfold Small; decide, by decide, by decide, by decide, by decide⟩, by decide⟩

/-- C43 on this puzzle: its first square is filled in every solution. -/
example (b : List Bool) (hb : Solves [[2], [1]] [[2], [1]] b) : b[0]? = some true :=
  C43_sound true _ _ fits_two_two _ (solve_two_two true) b hb 0 rfl

theorem fits_ones : Fits [[1], [1]] [[1], [1]] :=
  ⟨⟨by unfold Small; decide, by decide, by decide, by decide, by decide⟩, by decide⟩

/-- Two columns and two rows with one filled square each: nothing is deduced. -/
theorem solve_ones (oc : Bool) : solveNonogram oc [[1], [1]] [[1], [1]] = .ok (.ok [false, false, false, false]) := by
  have h : rightLeft oc (List.replicate 4 .Blank) [[1], [1]] [[1], [1]] = .ok (.ok (List.replicate 4 .Blank)) := by
    unfold rightLeft
    simp only
    obtain ⟨cs, hcs⟩ : ∃ cs, mapP RuleMachine.new [[1], [1]] = .ok cs := ⟨_, rfl⟩
    have hcs' := hcs
    rw [show mapP RuleMachine.new [[1], [1]] = .ok _ from rfl] at hcs'
    rw [hcs, Prog.ok_bind, Prog.ok_bind, ← Prog.ok.inj hcs']
    exact loop_inr (by cases oc <;> decide)
  unfold solveNonogram
  simp only [List.length_cons, List.length_nil]
  rw [mulW_ok (by decide), Prog.ok_bind, vecRepeat, if_pos (by decide), Prog.ok_bind]
  rw [h]
  rfl

/-- Three columns and two rows with one filled square each. -/
theorem solve_three (oc : Bool) :
    solveNonogram oc [[1], [1], [1]] [[1], [1]] = .ok (.ok [false, false, false, false, false, false]) := by
  have h : rightLeft oc (List.replicate 6 .Blank) [[1], [1], [1]] [[1], [1]] = .ok (.ok (List.replicate 6 .Blank)) := by
    unfold rightLeft
    simp only
    obtain ⟨cs, hcs⟩ : ∃ cs, mapP RuleMachine.new [[1], [1], [1]] = .ok cs := ⟨_, rfl⟩
    have hcs' := hcs
    rw [show mapP RuleMachine.new [[1], [1], [1]] = .ok _ from rfl] at hcs'
    obtain ⟨rs, hrs⟩ : ∃ rs, mapP RuleMachine.new [[1], [1]] = .ok rs := ⟨_, rfl⟩
    have hrs' := hrs
    rw [show mapP RuleMachine.new [[1], [1]] = .ok _ from rfl] at hrs'
    rw [hcs, Prog.ok_bind, hrs, Prog.ok_bind, ← Prog.ok.inj hcs', ← Prog.ok.inj hrs']
    exact loop_inr (by cases oc <;> decide)
  unfold solveNonogram
  simp only [List.length_cons, List.length_nil]
  rw [mulW_ok (by decide), Prog.ok_bind, vecRepeat, if_pos (by decide), Prog.ok_bind]
  rw [h]
  rfl

/-- An unsolvable puzzle that is recognised: one square that its column wants filled and its row wants empty. -/
theorem solve_clash (oc : Bool) : solveNonogram oc [[1]] [[]] = .ok (.error .NoSolution) := by
  have h : rightLeft oc (List.replicate 1 .Blank) [[1]] [[]] = .ok (.error .NoSolution) := by
    unfold rightLeft
    simp only
    obtain ⟨cs, hcs⟩ : ∃ cs, mapP RuleMachine.new [[1]] = .ok cs := ⟨_, rfl⟩
    have hcs' := hcs
    rw [show mapP RuleMachine.new [[1]] = .ok _ from rfl] at hcs'
    obtain ⟨rs, hrs⟩ : ∃ rs, mapP RuleMachine.new [[]] = .ok rs := ⟨_, rfl⟩
    have hrs' := hrs
    rw [show mapP RuleMachine.new [[]] = .ok _ from rfl] at hrs'
    rw [hcs, Prog.ok_bind, hrs, Prog.ok_bind, ← Prog.ok.inj hcs', ← Prog.ok.inj hrs']
    exact loop_inr (by cases oc <;> decide)
  unfold solveNonogram
  simp only [List.length_cons, List.length_nil]
  rw [mulW_ok (by decide), Prog.ok_bind, vecRepeat, if_pos (by decide), Prog.ok_bind]
  rw [h]
  rfl

/-- C44 on this puzzle. -/
example (b : List Bool) : ¬ Solves [[1]] [[]] b :=
  (C44_no_solution true _ _ ⟨⟨by unfold Small; decide, by decide, by decide, by decide, by decide⟩, by decide⟩
    _ (solve_clash true)).2 b

/-! ### C45: results are solutions -/

/-- C45, if the propagation decides every square: the result is a solution, and the only one. Missing: puzzles
on which propagation gets stuck; `recursive_backtrack`, which should finish them, has an empty body
(`C45_false`). -/
theorem C45_partial (oc : Bool) (col row : List (List Nat)) (hf : Fits col row) (G : List Square)
    (hG : rightLeft oc (List.replicate (col.length * row.length) .Blank) col row = .ok (.ok G)) (hB : Square.Blank ∉ G) :
    ∃ g, solveNonogram oc col row = .ok (.ok g) ∧ Solves col row g ∧ ∀ b, Solves col row b → b = g := by
  rcases propagate_least oc hf with ⟨_, hr, _⟩ | ⟨G', hst, hle, hr, hs⟩
  · exact absurd (Prog.ok.inj (hG.symm.trans hr)) (by simp)
  · obtain rfl := Except.ok.inj (Prog.ok.inj (hG.symm.trans hr))
    refine ⟨_, hs, (solves_iff_known hf hst.1 ((stable_iff hf hst.1).mp hst)).mpr hB, fun b hb => ?_⟩
    exact agrees_full (agrees_of_solves hle hb) hB

/-- C45 is false: the puzzle with one filled square in each of two rows and two columns has solutions, but the
empty grid is returned, which is none. -/
theorem C45_false : ∃ col row g, Fits col row ∧ (∃ b, Solves col row b) ∧
    (∀ oc, solveNonogram oc col row = .ok (.ok g)) ∧ ¬ Solves col row g := by
  refine ⟨[[1], [1]], [[1], [1]], [false, false, false, false], fits_ones,
    ⟨[true, false, false, true], rfl, ?_, ?_⟩, solve_ones, ?_⟩
  · intro x rule h
    match x with
    | 0 | 1 => simp at h; subst h; exact (follows_iff_runs _ (by unfold Positive; decide) _).mpr (by decide)
    | n + 2 => simp at h
  · intro x rule h
    match x with
    | 0 | 1 => simp at h; subst h; exact (follows_iff_runs _ (by unfold Positive; decide) _).mpr (by decide)
    | n + 2 => simp at h
  · rintro ⟨_, h, _⟩
    exact absurd ((follows_iff_runs _ (by unfold Positive; decide) _).mp (h 0 [1] rfl)) (by decide)

/-! ### C59: when results are solutions, exactly -/

/-- C59. If `solve_nonogram` returns a grid, that grid is a solution exactly if the propagation decided every
square; it is then the only solution. -/
theorem C59_exact (oc : Bool) (col row : List (List Nat)) (hf : Fits col row) (g : List Bool)
    (h : solveNonogram oc col row = .ok (.ok g)) :
    ∃ G, rightLeft oc (List.replicate (col.length * row.length) .Blank) col row = .ok (.ok G) ∧
      (Solves col row g ↔ Square.Blank ∉ G) ∧ (Solves col row g → ∀ b, Solves col row b → b = g) := by
  rcases propagate_least oc hf with ⟨_, _, hs⟩ | ⟨G, hst, hle, hr, hs⟩
  · rw [h] at hs; cases Prog.ok.inj hs
  · rw [h] at hs
    obtain rfl := Except.ok.inj (Prog.ok.inj hs)
    have hk := solves_iff_known hf hst.1 ((stable_iff hf hst.1).mp hst)
    refine ⟨G, hr, hk, fun hsol b hb => ?_⟩
    exact agrees_full (agrees_of_solves hle hb) (hk.mp hsol)

/-- C59 on the first puzzle of the tests: the solution is the only one. -/
theorem two_two_unique (b : List Bool) (hb : Solves [[2], [1]] [[2], [1]] b) : b = [true, true, true, false] := by
  obtain ⟨G, _, _, h⟩ := C59_exact true _ _ fits_two_two _ (solve_two_two true)
  refine h ⟨rfl, ?_, ?_⟩ b hb
  · intro x rule hx
    match x with
    | 0 | 1 => simp at hx; subst hx; exact (follows_iff_runs _ (by unfold Positive; decide) _).mpr (by decide)
    | n + 2 => simp at hx
  · intro x rule hx
    match x with
    | 0 | 1 => simp at hx; subst hx; exact (follows_iff_runs _ (by unfold Positive; decide) _).mpr (by decide)
    | n + 2 => simp at hx

/-- A puzzle with two solutions is never answered with a solution. -/
theorem C59_ambiguous (oc : Bool) (col row : List (List Nat)) (hf : Fits col row) (a b : List Bool)
    (ha : Solves col row a) (hb : Solves col row b) (hab : a ≠ b) (g : List Bool)
    (h : solveNonogram oc col row = .ok (.ok g)) : ¬ Solves col row g := by
  obtain ⟨G, _, _, hu⟩ := C59_exact oc col row hf g h
  intro hg
  exact hab ((hu hg a ha).trans (hu hg b hb).symm)

/-- The puzzle of `C45_false` has the two diagonals as solutions, so its answer is none. -/
example (oc : Bool) : ¬ Solves [[1], [1]] [[1], [1]] [false, false, false, false] := by
  have diag : ∀ b ∈ [[true, false, false, true], [false, true, true, false]], Solves [[1], [1]] [[1], [1]] b := by
    intro b hb
    have h1 : ∀ xs, runs xs = [1] → Follows [1] xs := fun xs h => (follows_iff_runs _ (by unfold Positive; decide) _).mpr h
    simp only [List.mem_cons, List.not_mem_nil, or_false] at hb
    rcases hb with rfl | rfl <;> refine ⟨rfl, fun x rule h => ?_, fun x rule h => ?_⟩ <;>
      match x with
      | 0 | 1 => simp at h; subst h; exact h1 _ (by decide)
      | n + 2 => simp at h
  exact C59_ambiguous oc _ _ fits_ones _ _ (diag _ (.head _)) (diag _ (.tail _ (.head _))) (by decide) _ (solve_ones oc)

/-! ### C46: unsolvable puzzles -/

/-- C46, as far as it holds: on an unsolvable puzzle `solve_nonogram` reports `NoSolution` unless the propagation
gets stuck with undecided squares. Missing: the puzzles on which it gets stuck (`C46_false`). -/
theorem C46_partial (oc : Bool) (col row : List (List Nat)) (hf : Fits col row) (hn : ∀ b, ¬ Solves col row b) :
    solveNonogram oc col row = .ok (.error .NoSolution) ∨
    ∃ G, rightLeft oc (List.replicate (col.length * row.length) .Blank) col row = .ok (.ok G) ∧ Square.Blank ∈ G := by
  rcases propagate_least oc hf with ⟨_, _, hs⟩ | ⟨G, hst, hle, hr, hs⟩
  · exact .inl hs
  · right
    refine ⟨G, hr, ?_⟩
    by_contra hB
    exact hn _ ((solves_iff_known hf hst.1 ((stable_iff hf hst.1).mp hst)).mpr hB)

example (oc : Bool) : ∀ b, ¬ Solves [[1]] [[]] b :=
  (C44_no_solution oc _ _ ⟨⟨by unfold Small; decide, by decide, by decide, by decide, by decide⟩, by decide⟩
    _ (solve_clash oc)).2

/-- C46 is false: with three columns and two rows, each with one filled square, there is no solution, but a grid is
returned. -/
theorem C46_false : ∃ col row, Fits col row ∧ (∀ b, ¬ Solves col row b) ∧
    ∀ oc, ∃ g, solveNonogram oc col row = .ok (.ok g) := by
  refine ⟨[[1], [1], [1]], [[1], [1]],
    ⟨⟨by unfold Small; decide, by decide, by decide, by decide, by decide⟩, by decide⟩, ?_,
    fun oc => ⟨_, solve_three oc⟩⟩
  rintro b ⟨hl, hc, hr⟩
  match b, hl with
  | [a, b, c, d, e, f], _ =>
    have one := fun xs => (follows_iff_runs [1] (by unfold Positive; decide) xs).mp
    have h0 := one _ (hc 0 [1] rfl)
    have h1 := one _ (hc 1 [1] rfl)
    have h2 := one _ (hc 2 [1] rfl)
    have h3 := one _ (hr 0 [1] rfl)
    have h4 := one _ (hr 1 [1] rfl)
    revert h0 h1 h2 h3 h4
    cases a <;> cases b <;> cases c <;> cases d <;> cases e <;> cases f <;> decide

/-! ### C47: termination -/

/-- C47. On every puzzle in which no rule starts or ends with a zero, with at least one row, `solve_nonogram` terminates without a panic,
and a returned grid has one entry for each square. -/
theorem C47_terminates (oc : Bool) (col row : List (List Nat)) (hf : Fits col row) :
    ∃ r, solveNonogram oc col row = .ok r ∧ ∀ g, r = .ok g → g.length = col.length * row.length := by
  rcases propagate_least oc hf with ⟨_, _, hs⟩ | ⟨G, hst, _, _, hs⟩
  · exact ⟨_, hs, fun g h => by cases h⟩
  · refine ⟨_, hs, fun g h => ?_⟩
    obtain rfl := Except.ok.inj h
    rw [filled_length]; exact hst.1

/-- The hypotheses of C47 are met by a 100 x 80 puzzle. -/
example : Fits (List.replicate 100 [3, 5]) (List.replicate 80 [10, 20, 30]) := by
  refine ⟨⟨?_, by simp, by simp, short_side (by simp), short_side (by simp)⟩, ?_⟩
  · intro r hr
    simp only [List.mem_append, List.mem_replicate] at hr
    unfold Small
    rcases hr with ⟨_, rfl⟩ | ⟨_, rfl⟩ <;> decide
  · intro r hr
    simp only [List.mem_append, List.mem_replicate] at hr
    rcases hr with ⟨_, rfl⟩ | ⟨_, rfl⟩ <;> decide

/-! ### C48: accepted rules -/

/-- The sizes of accepted rules. -/
theorem sized_of_parsed (oc : Bool) {colText rowText : List Char} {col row : List (List Nat)}
    (hc : parseNonogramRules oc colText row.length = .ok (.ok col))
    (hr : parseNonogramRules oc rowText col.length = .ok (.ok row)) (hl : Limits col row)
    (ho : oc = true ∨ ∀ r ∈ col ++ row, minLength r < 2 ^ 64) :
    Sized col row ∧ (∀ r ∈ col, minLength r ≤ row.length) ∧ ∀ r ∈ row, minLength r ≤ col.length := by
  have key : ∀ text bound rules, parseNonogramRules oc text bound = .ok (.ok rules) → rules ≠ [] ∧
      ∀ r ∈ rules, sizeOf' oc r ≤ bound := by
    intro text bound rules h
    rcases parse_result oc text bound with ⟨r, h1, h2⟩ | ⟨_, h1, _⟩
    · rw [h] at h1
      obtain rfl := Prog.ok.inj h1
      obtain ⟨parts, hp, hf⟩ := h2
      constructor
      · rintro rfl
        cases hf
        exact hp.1 rfl
      · intro r hr
        clear hp h h1
        induction hf with
        | nil => cases hr
        | cons h _ ih =>
          rcases List.mem_cons.mp hr with rfl | hr
          · exact h.2
          · exact ih hr
    · rw [h] at h1; cases h1
  obtain ⟨_, kc⟩ := key _ _ _ hc
  obtain ⟨hne, kr⟩ := key _ _ _ hr
  have hsum : ∀ r : List Nat, (r.map (· + 1)).sum = r.sum + r.length := by
    intro r
    induction r with
    | nil => rfl
    | cons a r ih => rw [List.map_cons, List.sum_cons, List.sum_cons, List.length_cons, ih]; omega
  have hm : ∀ r ∈ col ++ row, sizeOf' oc r = minLength r := by
    intro r hrm
    unfold sizeOf' wrap
    rcases ho with rfl | ho
    · rfl
    · rw [Nat.mod_eq_of_lt (ho r hrm), ite_self]
  have kc' : ∀ r ∈ col, minLength r ≤ row.length := fun r h => by rw [← hm r (by simp [h])]; exact kc r h
  have kr' : ∀ r ∈ row, minLength r ≤ col.length := fun r h => by rw [← hm r (by simp [h])]; exact kr r h
  refine ⟨⟨?_, List.length_pos_iff.mpr hne, hl.size,
    hl.width, hl.height⟩, kc', kr'⟩
  · intro r hrm
    have hsz : minLength r < 2 ^ 58 := by
      rcases List.mem_append.mp hrm with h | h
      · have := kc' r h; have : row.length < 2 ^ 57 := hl.height.1; omega
      · have := kr' r h; have : col.length < 2 ^ 57 := hl.width.1; omega
    unfold minLength at hsz
    unfold Small
    rw [hsum]
    omega

/-- C48, for rules that neither start nor end with a zero, within the limits of the sizes: if the column rules are
accepted for the number of rows and the row rules for the number of columns, solving terminates without a
panic. Missing: the other rules with zeros (`C48_false`, C67), and the rules that are accepted by mistake without
overflow checks. -/
theorem C48_partial (oc : Bool) (colText rowText : List Char) (col row : List (List Nat))
    (hc : parseNonogramRules oc colText row.length = .ok (.ok col))
    (hr : parseNonogramRules oc rowText col.length = .ok (.ok row))
    (hz : ∀ r ∈ col ++ row, Framed r) (hl : Limits col row)
    (ho : oc = true ∨ ∀ r ∈ col ++ row, minLength r < 2 ^ 64) :
    ∃ r, solveNonogram oc col row = .ok r := by
  obtain ⟨r, h, _⟩ := C47_terminates oc col row ⟨(sized_of_parsed oc hc hr hl ho).1, hz⟩
  exact ⟨r, h⟩

/-- The hypotheses of `C48_partial` are met by the texts of a puzzle of the tests. -/
example (oc : Bool) : ∃ r, solveNonogram oc [[2], [1]] [[2], [1]] = .ok r :=
  C48_partial oc "2;1".toList "2;1".toList _ _ (by cases oc <;> decide) (by cases oc <;> decide) (by decide)
    (short_limits (by decide) (by decide)) (.inr (by decide))

/-- They are also met by a puzzle with a zero inside a rule. -/
example (oc : Bool) : ∃ r, solveNonogram oc [[1, 0, 1], [4]] [[2], [1], [1], [2]] = .ok r :=
  C48_partial oc "1,0,1;4".toList "2;1;1;2".toList _ _ (by cases oc <;> decide) (by cases oc <;> decide) (by decide)
    (short_limits (by decide) (by decide)) (.inr (by decide))

/-- C48 is false: the usual notation `0` for an empty line is accepted, and solving panics. -/
theorem C48_false (oc : Bool) : parseNonogramRules oc ['0'] 1 = .ok (.ok [[0]]) ∧
    solveNonogram oc [[0]] [[0]] = .panic := by
  refine ⟨by cases oc <;> decide, ?_⟩
  have h : rightLeft oc (List.replicate 1 .Blank) [[0]] [[0]] = .panic := by
    unfold rightLeft
    simp only
    obtain ⟨cs, hcs⟩ : ∃ cs, mapP RuleMachine.new [[0]] = .ok cs := ⟨_, rfl⟩
    have hcs' := hcs
    rw [show mapP RuleMachine.new [[0]] = .ok _ from rfl] at hcs'
    rw [hcs, Prog.ok_bind, Prog.ok_bind, ← Prog.ok.inj hcs']
    exact loop_panic (by cases oc <;> decide)
  unfold solveNonogram
  simp only [List.length_cons, List.length_nil]
  rw [mulW_ok (by decide), Prog.ok_bind, vecRepeat, if_pos (by decide), Prog.ok_bind]
  rw [h]
  rfl

/-! ### C67: rules that start or end with a zero -/

/-- C67, for one line: with a rule that starts with a zero the line step always panics; with a rule that ends with a
zero it panics exactly if the line has a completion, and reports `NoSolution` otherwise. -/
theorem C67_line (oc : Bool) (rule : List Nat) (hr : ¬ Framed rule) (hs : Small rule) (m : RuleMachine)
    (hm : RuleMachine.new rule = .ok m) (line : List Square) :
    (m.rightLeft oc line = .panic ↔ rule.head? = some 0 ∨ ∃ xs, Completes line rule xs) ∧
    (m.rightLeft oc line ≠ .panic → m.rightLeft oc line = .ok (.error .NoSolution)) := by
  obtain ⟨m', h1, h2⟩ := machine_new hs
  obtain rfl := Prog.ok.inj (hm.symm.trans h1)
  rcases rightLeft_zero oc hr hs h2 line with ⟨h0, hn, he⟩ | ⟨h, he⟩
  · refine ⟨⟨fun h => absurd (h.symm.trans he) (by simp), ?_⟩, fun _ => he⟩
    rintro (h | ⟨xs, hx⟩)
    · exact absurd h h0
    · exact absurd hx (hn xs)
  · exact ⟨⟨fun _ => h, fun _ => he⟩, fun h => absurd he h⟩

example : (RuleMachine.new [0, 1]).bind (fun m => m.rightLeft true [.Blank]) = .panic ∧
    (RuleMachine.new [1, 0]).bind (fun m => m.rightLeft true [.Blank]) = .ok (.error .NoSolution) ∧ ¬ Framed [0, 1] ∧ ¬ Framed [1, 0] :=
  ⟨by decide, by decide, by decide, by decide⟩

/-- C67. With a rule that starts or ends with a zero, `solve_nonogram` never returns a grid: it panics or reports
`NoSolution`, the latter only if there is no solution. -/
theorem C67_zero (oc : Bool) (col row : List (List Nat)) (hs : Sized col row) (hz : ∃ r ∈ col ++ row, ¬ Framed r) :
    solveNonogram oc col row = .panic ∨
    (solveNonogram oc col row = .ok (.error .NoSolution) ∧ ∀ b, ¬ Solves col row b) := by
  obtain ⟨b, h1, h2⟩ := solve_zero oc hs hz
  cases b with
  | true => exact .inl h2
  | false =>
    refine .inr ⟨h2, fun x hx => ?_⟩
    obtain ⟨hl, hj⟩ := solves_iff.mp hx
    exact absurd (Crash.sound (allJobs_sized hs) (by simp) hj (agrees_blank hl) h1) (by decide)

example (oc : Bool) : solveNonogram oc [[2], [2]] [[2], [0]] = .panic ∨
    (solveNonogram oc [[2], [2]] [[2], [0]] = .ok (.error .NoSolution) ∧ ∀ b, ¬ Solves [[2], [2]] [[2], [0]] b) :=
  C67_zero oc _ _ ⟨by unfold Small; decide, by decide, by decide, by decide, by decide⟩ ⟨[0], by decide, by decide⟩

/-- C67. Every solvable puzzle with such a rule makes the solver panic. -/
theorem C67_solvable (oc : Bool) (col row : List (List Nat)) (hs : Sized col row) (hz : ∃ r ∈ col ++ row, ¬ Framed r)
    (b : List Bool) (hb : Solves col row b) : solveNonogram oc col row = .panic := by
  rcases C67_zero oc col row hs hz with h | ⟨_, h⟩
  · exact h
  · exact absurd hb (h b)

/-- C67. If such a rule belongs to a column and every column rule fits the number of rows, the solver panics
whatever the row rules say. -/
theorem C67_column (oc : Bool) (col row : List (List Nat)) (hs : Sized col row) (hz : ∃ r ∈ col, ¬ Framed r)
    (hfit : ∀ r ∈ col, minLength r ≤ row.length) : solveNonogram oc col row = .panic := by
  obtain ⟨r, hr, hn⟩ := hz
  obtain ⟨b, h1, h2⟩ := solve_zero oc hs ⟨r, by simp [hr], hn⟩
  have hb : b = true := by
    refine Crash.columns (k := 0) (by omega) (by simp [blank])
      (fun j hj => allJobs_sized hs j (by simp [allJobs, hj])) hfit ⟨r, hr, hn⟩ (fun x _ _ p _ => ?_) h1
    by_cases hp : p < col.length * row.length
    · simp [blank, hp]
    · simp [blank, hp]
  rw [h2, hb]; rfl

example (oc : Bool) : solveNonogram oc [[2], [0]] [[1], [1]] = .panic :=
  C67_column oc _ _ ⟨by unfold Small; decide, by decide, by decide, by decide, by decide⟩ ⟨[0], by decide, by decide⟩ (by decide)

/-- C67, for accepted rules: solving panics if a column rule starts or ends with a zero, and if any rule does and
the puzzle has a solution; a puzzle all of whose rules are free of such zeros is solved without a panic. -/
theorem C67_accepted (oc : Bool) (colText rowText : List Char) (col row : List (List Nat))
    (hc : parseNonogramRules oc colText row.length = .ok (.ok col))
    (hr : parseNonogramRules oc rowText col.length = .ok (.ok row)) (hl : Limits col row)
    (ho : oc = true ∨ ∀ r ∈ col ++ row, minLength r < 2 ^ 64) :
    ((∃ r ∈ col, ¬ Framed r) → solveNonogram oc col row = .panic) ∧
    ((∃ b, Solves col row b) → (solveNonogram oc col row = .panic ↔ ∃ r ∈ col ++ row, ¬ Framed r)) ∧
    (solveNonogram oc col row = .panic → ∃ r ∈ col ++ row, ¬ Framed r) := by
  obtain ⟨hs, kc, _⟩ := sized_of_parsed oc hc hr hl ho
  have hnp : solveNonogram oc col row = .panic → ∃ r ∈ col ++ row, ¬ Framed r := by
    intro hp
    by_contra hn
    obtain ⟨r, h, _⟩ := C47_terminates oc col row ⟨hs, fun r hr => by
      by_contra hf
      exact hn ⟨r, hr, hf⟩⟩
    rw [hp] at h; cases h
  exact ⟨fun hz => C67_column oc col row hs hz kc,
    fun ⟨b, hb⟩ => ⟨hnp, fun hz => C67_solvable oc col row hs hz b hb⟩, hnp⟩

/-- The hypotheses of C67: a solvable puzzle whose last row is empty, written with the usual `0`. -/
example (oc : Bool) : solveNonogram oc [[1], [1]] [[2], [0]] = .panic := by
  refine C67_solvable oc _ _ ⟨by unfold Small; decide, by decide, by decide, by decide, by decide⟩ ⟨[0], by decide, by decide⟩
    [true, true, false, false] ⟨rfl, ?_, ?_⟩
  · intro x rule h
    match x with
    | 0 | 1 => simp at h; subst h; exact ⟨0, 1, rfl⟩
    | n + 2 => simp at h
  · intro x rule h
    match x with
    | 0 => simp at h; subst h; exact ⟨0, 0, rfl⟩
    | 1 => simp at h; subst h; exact ⟨0, 2, rfl⟩
    | n + 2 => simp at h

/-- Both outcomes of `C67_line` occur for a rule that ends with a zero. -/
example : (RuleMachine.new [1, 0]).bind (fun m => m.rightLeft true [.Blank, .Blank]) = .panic := by decide
example : (RuleMachine.new [1, 0]).bind (fun m => m.rightLeft true [.Blank]) = .ok (.error .NoSolution) := by decide

/-! ### C68: the size test of the parser -/

/-- C68. The size that `parse_nonogram_rules` compares with the bound is exact: an empty line of length `n` can be
completed according to a rule exactly if the size of the rule is at most `n`. -/
theorem C68_exact (rule : List Nat) (n : Nat) :
    (∃ xs, Completes (List.replicate n .Blank) rule xs) ↔ minLength rule ≤ n := completes_blank

/-- C68. So the text of a single rule, whose sums fit 64 bits, is accepted for lines of length `n` exactly if there
is a line of length `n` that satisfies the rule. -/
theorem C68_accepted (oc : Bool) (rule : List Nat) (hne : rule ≠ []) (hb : minLength rule < 2 ^ 64) (n : Nat) :
    parseNonogramRules oc (writeRule rule) n = .ok (.ok [rule]) ↔ ∃ xs, Completes (List.replicate n .Blank) rule xs := by
  rw [C68_exact]
  have hval : ∀ v ∈ rule, v < 2 ^ 64 := by
    intro v hv
    have := mem_le_sum hv
    unfold minLength at hb
    omega
  have hnum := numbers_writeRule hne hval
  have hpieces : Pieces ';' (writeRule rule) [writeRule rule] :=
    ⟨by simp, by simpa using semicolon_writeRule rule, by rw [intercalate_one]⟩
  have ho : ∀ parts, Pieces ';' (writeRule rule) parts → ∀ p ∈ parts, ¬ Overflows p := by
    intro parts hp p hpm
    obtain rfl := hp.unique hpieces
    obtain rfl := List.mem_singleton.mp hpm
    exact not_overflows hnum hb
  rw [C39_partial oc _ n ho]
  constructor
  · rintro ⟨parts, hp, hf⟩
    obtain rfl := hp.unique hpieces
    obtain ⟨⟨_, h⟩, _⟩ := List.forall₂_cons.mp hf
    exact h
  · intro h
    exact ⟨_, hpieces, .cons ⟨hnum, h⟩ .nil⟩

/-- A rule that just fits, and does not fit a shorter line. -/
example : (∃ xs, Completes (List.replicate 7 .Blank) [3, 0, 2] xs) ∧ ¬ ∃ xs, Completes (List.replicate 6 .Blank) [3, 0, 2] xs := by
  rw [C68_exact, C68_exact]; decide

/-! ### C69: no rows -/

/-- What `solve_nonogram` answers for a list of columns and no rows. -/
def noRows : List (List Nat) → Prog (Except NonogramError (List Bool))
  | [] => .ok (.ok [])
  | [[]] => .ok (.ok [])
  | [] :: _ :: _ => .panic
  | (0 :: _) :: _ => .panic
  | _ :: _ => .ok (.error .NoSolution)

/-- C69. Without rows only the first column counts: an empty rule is accepted if it is the only one, a second column
makes the slice of the empty grid panic, and so does a rule that starts with a zero; any other rule has no
solution. -/
theorem C69_no_rows (oc : Bool) (col : List (List Nat)) (hs : ∀ r ∈ col, Small r) :
    solveNonogram oc col [] = noRows col := by
  obtain ⟨cs, hc, hcm⟩ := machines hs
  unfold solveNonogram rightLeft
  simp only [List.length_nil, Nat.mul_zero]
  rw [mulW_ok (by omega), Prog.ok_bind, vecRepeat, if_pos (by omega), Prog.ok_bind, hc, Prog.ok_bind, mapP, Prog.ok_bind]
  cases hcm with
  | nil =>
    rw [loop_inr (a := .ok []) rfl]
    rfl
  | @cons rule m rules ms hm ht =>
    have hpos : ∀ w k, colPositions 0 (w + 1) k = if k = 0 then .ok [] else .panic := by
      intro w k
      unfold colPositions
      cases k <;> simp [stepBy]
    cases rule with
    | nil =>
      have hm' : m.rightLeft oc [] = .ok (.ok ([], false)) := by
        obtain ⟨m', h1, h2⟩ := machine_new (hs [] (by simp))
        rcases rightLeft_line oc (by decide) (hs [] (by simp)) hm (line := []) ⟨by decide, .inl (by decide)⟩ with ⟨h, _⟩ | ⟨L, R, _, h⟩
        · exact absurd ⟨agrees_nil.mpr rfl, 0, rfl⟩ (h [])
        · rw [h]; simp [deduce]
      cases ht with
      | nil =>
        have hb : passBody oc 1 [m] [] [] = .ok (.inr (.ok [])) := by
          simp only [passBody, List.zipIdx_cons, List.zipIdx_nil, colLoop, List.length_nil, hpos 0, if_true, Prog.ok_bind,
            lineStep, readAt, List.filterMap_nil, hm', Prog.pure_eq, writeAt, rowLoop]
          rfl
        simp only [List.length_cons, List.length_nil, Nat.zero_add, Nat.mul_zero, List.replicate_zero]
        rw [loop_inr hb]
        rfl
      | @cons rule' m' rules ms hm2 ht =>
        have hb : passBody oc (rules.length + 1 + 1) (m :: m' :: ms) [] [] = .panic := by
          simp only [passBody, List.zipIdx_cons, colLoop, List.length_nil, hpos, if_true, Prog.ok_bind,
            lineStep, readAt, List.filterMap_nil, hm', Prog.pure_eq, writeAt]
          rfl
        simp only [List.length_cons, Nat.mul_zero, List.replicate_zero]
        rw [loop_panic hb]
        rfl
    | cons a r =>
      have hno : a ≠ 0 → ∀ xs, ¬ Completes [] (a :: r) xs := by
        rintro ha xs ⟨h1, h2⟩
        obtain rfl := agrees_nil.mp h1
        have := h2.runs
        rw [runs_nil, List.filter_cons, if_pos (by simpa using Nat.pos_of_ne_zero ha)] at this
        cases this
      cases a with
      | zero =>
        have hm' : m.rightLeft oc [] = .panic := by
          rcases rightLeft_zero oc (fun h => h.1 rfl) (hs (0 :: r) (by simp)) hm [] with ⟨h, _⟩ | ⟨_, h⟩
          · exact absurd rfl h
          · exact h
        have hb : passBody oc (rules.length + 1) (m :: ms) [] [] = .panic := by
          simp only [passBody, List.zipIdx_cons, colLoop, List.length_nil, hpos, if_true, Prog.ok_bind,
            lineStep, readAt, List.filterMap_nil, hm']
          rfl
        simp only [List.length_cons, Nat.mul_zero, List.replicate_zero]
        rw [loop_panic hb]
        rfl
      | succ a =>
        have hm' : m.rightLeft oc [] = .ok (.error .NoSolution) := by
          by_cases hf : Framed ((a + 1) :: r)
          · rcases rightLeft_line oc hf (hs _ (by simp)) hm (line := []) ⟨by decide, .inl (by decide)⟩ with ⟨_, h⟩ | ⟨L, R, hE, _⟩
            · exact h
            · exact absurd hE.left (hno (by omega) L)
          · rcases rightLeft_zero oc hf (hs _ (by simp)) hm [] with ⟨_, _, h⟩ | ⟨h | ⟨xs, hx⟩, _⟩
            · exact h
            · simp at h
            · exact absurd hx (hno (by omega) xs)
        have hb : passBody oc (rules.length + 1) (m :: ms) [] [] = .ok (.inr (.error .NoSolution)) := by
          simp only [passBody, List.zipIdx_cons, colLoop, List.length_nil, hpos, if_true, Prog.ok_bind,
            lineStep, readAt, List.filterMap_nil, hm', Prog.pure_eq]
        simp only [List.length_cons, Nat.mul_zero, List.replicate_zero]
        rw [loop_inr hb]
        rfl

/-- Three of the cases. -/
example (oc : Bool) : solveNonogram oc [[], []] [] = .panic := C69_no_rows oc _ (by unfold Small; decide)
example (oc : Bool) : solveNonogram oc [[1, 0], [0]] [] = .ok (.error .NoSolution) := C69_no_rows oc _ (by unfold Small; decide)
example (oc : Bool) : solveNonogram oc [[]] [] = .ok (.ok []) := C69_no_rows oc _ (by unfold Small; decide)

/-! ### C49: fixpoint -/

/-- The step on a stable line changes nothing. -/
theorem step_stable (oc : Bool) {rule : List Nat} (hr : Framed rule) (hs : Small rule) {line : List Square}
    (hb : CountsFit line.length rule) (h : StableLine line rule) :
    ∃ m, RuleMachine.new rule = .ok m ∧ m.rightLeft oc line = .ok (.ok (line, false)) := by
  obtain ⟨m, h1, h2⟩ := machine_new hs
  refine ⟨m, h1, ?_⟩
  rcases rightLeft_line oc hr hs h2 hb with ⟨hn, _⟩ | ⟨L, R, hE, he⟩
  · obtain ⟨xs, hx⟩ := h.1; exact absurd hx (hn xs)
  · rw [he, deduce_stable hE h.2]; simp

/-- C49. When the propagation returns, started from any grid of the right size, every line has a completion, no
line step changes anything, and running the propagation again returns the same grid. -/
theorem C49_fixpoint (oc : Bool) (col row : List (List Nat)) (hf : Fits col row) (g0 G : List Square)
    (hg : g0.length = col.length * row.length) (h : rightLeft oc g0 col row = .ok (.ok G)) :
    (∀ (x : Nat) rule, col[x]? = some rule →
      (∃ xs, Completes (columnSq col.length row.length G x) rule xs) ∧ ∃ m, RuleMachine.new rule = .ok m ∧
        m.rightLeft oc (columnSq col.length row.length G x) = .ok (.ok (columnSq col.length row.length G x, false))) ∧
    (∀ (y : Nat) rule, row[y]? = some rule →
      (∃ xs, Completes (rowSq col.length G y) rule xs) ∧ ∃ m, RuleMachine.new rule = .ok m ∧
        m.rightLeft oc (rowSq col.length G y) = .ok (.ok (rowSq col.length G y, false))) ∧
    rightLeft oc G col row = .ok (.ok G) := by
  have hgood := allJobs_good hf
  rcases rightLeft_spec oc hf hg with ⟨_, _, _, h3⟩ | ⟨G', h1, h2, h3⟩
  · exact absurd (Prog.ok.inj (h.symm.trans h3)) (by simp)
  · obtain rfl := Except.ok.inj (Prog.ok.inj (h.symm.trans h3))
    have hgl := (Passes.le hgood hg h1).1.trans hg
    have hst := (stable_iff hf hgl).mpr (Run.fix hgood hgl h2)
    refine ⟨fun x rule hx => ?_, fun y rule hy => ?_, rightLeft_idem oc hf hst⟩
    · have hl := hst.2.1 x rule hx
      have hm := List.mem_of_getElem? hx
      exact ⟨hl.1, step_stable oc (hf.framed _ (by simp [hm])) (hf.small _ (by simp [hm])) (by
        simpa [columnSq] using hf.height.2 _ hm) hl⟩
    · have hl := hst.2.2 y rule hy
      have hm := List.mem_of_getElem? hy
      exact ⟨hl.1, step_stable oc (hf.framed _ (by simp [hm])) (hf.small _ (by simp [hm])) (by
        simpa [rowSq] using hf.width.2 _ hm) hl⟩

/-- The hypotheses of C49 are met: the propagation returns on a blank grid. -/
example (oc : Bool) : ∃ G, rightLeft oc (List.replicate 4 .Blank) [[2], [1]] [[2], [1]] = .ok (.ok G) := by
  obtain ⟨G, h, _⟩ := C59_exact oc _ _ fits_two_two _ (solve_two_two oc)
  exact ⟨G, h⟩

/-! ### C60: the result does not depend on the order of the steps -/

/-- C60. The propagation computes the least stable grid: it reports `NoSolution` exactly if there is no stable grid,
and otherwise returns a stable grid that knows only what every stable grid knows. So the result depends
on the rules alone, not on the order in which the lines are visited. -/
theorem C60_least (oc : Bool) (col row : List (List Nat)) (hf : Fits col row) :
    (solveNonogram oc col row = .ok (.error .NoSolution) ↔ ∀ F, ¬ Stable col row F) ∧
    ∀ g, solveNonogram oc col row = .ok (.ok g) ↔
      ∃ G, Stable col row G ∧ (∀ F, Stable col row F → Extends G F) ∧ g = G.map fun q => decide (q = .Filled) := by
  rcases propagate_least oc hf with ⟨hno, _, hs⟩ | ⟨G, hst, hle, _, hs⟩
  · refine ⟨⟨fun _ => hno, fun _ => hs⟩, fun g => ⟨fun h => ?_, ?_⟩⟩
    · rw [h] at hs; cases Prog.ok.inj hs
    · rintro ⟨G, hG, _⟩; exact absurd hG (hno G)
  · refine ⟨⟨fun h => ?_, fun h => absurd hst (h G)⟩, fun g => ⟨fun h => ?_, ?_⟩⟩
    · rw [h] at hs; cases Prog.ok.inj hs
    · rw [h] at hs
      obtain rfl := Except.ok.inj (Prog.ok.inj hs)
      exact ⟨G, hst, hle, rfl⟩
    · rintro ⟨G', hst', hle', rfl⟩
      have h1 : Le G G' := hle G' hst'
      have h2 : Le G' G := hle' G hst
      rw [hs, h1.antisymm h2]; rfl

/-- Stable grids exist and do not exist: the two cases of C60 occur. -/
example : ∃ G, Stable [[2], [1]] [[2], [1]] G := by
  obtain ⟨_, h⟩ := C60_least true _ _ fits_two_two
  obtain ⟨G, hG, _⟩ := (h _).mp (solve_two_two true)
  exact ⟨G, hG⟩
example : ∀ F, ¬ Stable [[1]] [[]] F :=
  (C60_least true [[1]] [[]]
    ⟨⟨by unfold Small; decide, by decide, by decide, by decide, by decide⟩, by decide⟩).1.mp (solve_clash true)

/-! ### C62: rows and columns are treated alike -/

/-- C62. Solving the puzzle with rows and columns exchanged gives the same answer with rows and columns exchanged. -/
theorem C62_transpose (oc : Bool) (col row : List (List Nat)) (hf : Fits col row) (hf' : Fits row col) :
    (solveNonogram oc col row = .ok (.error .NoSolution) → solveNonogram oc row col = .ok (.error .NoSolution)) ∧
    ∀ g, solveNonogram oc col row = .ok (.ok g) → ∃ g', solveNonogram oc row col = .ok (.ok g') ∧
      ∀ x < col.length, ∀ y < row.length, cell row.length g' y x = cell col.length g x y := by
  obtain ⟨h1, h2⟩ := C60_least oc col row hf
  obtain ⟨h3, h4⟩ := C60_least oc row col hf'
  constructor
  · intro h
    exact h3.mpr fun F hF => h1.mp h _ (stable_transpose hF)
  · intro g hg
    obtain ⟨G, hst, hle, rfl⟩ := (h2 g).mp hg
    refine ⟨_, (h4 _).mpr ⟨_, stable_transpose hst, fun F hF => ?_, rfl⟩, fun x hx y hy => ?_⟩
    · have := extends_transpose hst.1 (hle _ (stable_transpose hF))
      rwa [transpose_transpose hF.1] at this
    · unfold cell
      rw [List.getD_eq_getElem?_getD, List.getD_eq_getElem?_getD, List.getElem?_map, List.getElem?_map,
        transpose_get G hx hy]
      have hi : col.length * y + x < G.length := by
        have := index_lt hy hx
        rw [hst.1]; rwa [Nat.mul_comm row.length] at this
      simp [List.getD_eq_getElem?_getD, List.getElem?_eq_getElem hi]

/-- The hypotheses of C62 are met by a puzzle that is not square. -/
example : Fits [[1], [1], [2]] [[3], [1]] ∧ Fits [[3], [1]] [[1], [1], [2]] := by
  constructor <;>
    exact ⟨⟨by unfold Small; decide, by decide, by decide, by decide, by decide⟩, by decide⟩

end Nonogram.Props
