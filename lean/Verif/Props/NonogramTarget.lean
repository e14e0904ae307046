import Verif.Proofs.Nonogram.Target
import Verif.Props.Nonogram
import Verif.Props.NonogramZero

/-! C134: the nonogram solver on targets with a 16-bit, 32-bit or 64-bit `usize`. -/
namespace Nonogram.Props
open Nonogram Nonogram.Spec Target

/-- The bytes of a `usize` on the targets Rust has. -/
def Word (ws : Nat) : Prop := ws = 2 ∨ ws = 4 ∨ ws = 8

/-- The sizes for which nothing overflows on a target whose `usize` has `ws` bytes, as `Sized`: the vectors of `find_left`
have three words for every state, all other vectors at most six words for every square of a line. -/
structure SizedT (ws : Nat) (col row : List (List Nat)) : Prop where
  small : ∀ rule ∈ col ++ row, ((rule.map (· + 1)).sum + 3) * (3 * ws) < 2 ^ (8 * ws - 1)
  rows : 1 ≤ row.length
  size : col.length * row.length < 2 ^ (8 * ws - 1)
  width : col.length < 2 ^ (8 * ws - 7) ∧ ∀ rule ∈ row, col.length < 2 ^ 31 ∨ rule.length < 2 ^ 30
  height : row.length < 2 ^ (8 * ws - 7) ∧ ∀ rule ∈ col, row.length < 2 ^ 31 ∨ rule.length < 2 ^ 30

theorem SizedT.sized {ws : Nat} (hws : Word ws) {col row : List (List Nat)} (h : SizedT ws col row) : Sized col row := by
  obtain ⟨h1, h2, h3, h4, h5⟩ := h
  rcases hws with rfl | rfl | rfl <;> norm_num at h1 h3 h4 h5
  all_goals
    have hc : LineFits col.length := by unfold LineFits; omega
    have hr : LineFits row.length := by unfold LineFits; omega
    refine ⟨?_, h2, by omega, ⟨hc, fun r hm => ⟨hc, by have := h4.2 r hm; omega⟩⟩, ⟨hr, fun r hm => ⟨hr, by have := h5.2 r hm; omega⟩⟩⟩
    intro rule hm
    have := h1 rule (by simpa using hm)
    unfold Small
    omega

/-- For a 64-bit `usize` these are the limits of the other theorems. -/
theorem sizedT_64 (col row : List (List Nat)) : SizedT 8 col row ↔ Sized col row := by
  constructor
  · exact SizedT.sized (.inr (.inr rfl))
  · intro h
    exact ⟨h.small, h.rows, h.size, ⟨h.width.1, fun r hr => (h.width.2 r hr).2⟩, ⟨h.height.1, fun r hr => (h.height.2 r hr).2⟩⟩

/-- C134: within the limits of the target, `solve_nonogram` does what it does on a 64-bit target, in both builds. -/
theorem C134_solve {ws : Nat} (hws : Word ws) (oc : Bool) {col row : List (List Nat)} (hs : SizedT ws col row) :
    solveNonogramT ws oc col row = solveNonogram oc col row := by
  have hS := hs.sized hws
  refine solveT_eq ?_ ?_ ?_ oc (fun r hr => ⟨hS.small r hr, hs.small r hr⟩) ?_ hs.size
  · rcases hws with rfl | rfl | rfl <;> decide
  · rcases hws with rfl | rfl | rfl <;> decide
  · rcases hws with rfl | rfl | rfl <;> decide
  · exact Nat.lt_of_lt_of_le hs.height.1 (Nat.pow_le_pow_right (by decide) (by omega))

/-- C134: so it panics there exactly when it does on a 64-bit target. -/
theorem C134_panics {ws : Nat} (hws : Word ws) (oc : Bool) {col row : List (List Nat)} (hs : SizedT ws col row) :
    solveNonogramT ws oc col row = .panic ↔ Crashes col row := by
  rw [C134_solve hws oc hs]
  exact C112_panics oc col row (hs.sized hws)

/-- C134: a text is accepted with given rules exactly when they are the numbers in it and every rule fits the bound. This
holds with overflow checks, and without them for rules whose lengths fit a `usize`. -/
theorem C134_parse {ws : Nat} (hws : Word ws) (oc : Bool) {bound : Nat} (hb : bound < 2 ^ (8 * ws)) (text : List Char)
    (rules : List (List Nat)) (ho : oc = true ∨ ∀ r ∈ rules, minLength r < 2 ^ (8 * ws)) :
    parseNonogramRulesT ws oc text bound = .ok (.ok rules) ↔ ∃ parts, Pieces ';' text parts ∧
      List.Forall₂ (fun part vs => Numbers part vs ∧ minLength vs ≤ bound) parts rules := by
  refine parseT_iff ?_ oc hb text rules ho
  rcases hws with rfl | rfl | rfl <;> decide

/-- C134: without overflow checks the numbers must fit a `usize`, and the lengths are compared modulo its range. -/
theorem C134_release {ws : Nat} (hws : Word ws) (text : List Char) (bound : Nat) (rules : List (List Nat)) :
    parseNonogramRulesT ws false text bound = .ok (.ok rules) ↔ ∃ parts, Pieces ';' text parts ∧
      List.Forall₂ (fun part vs => Numbers part vs ∧ (∀ v ∈ vs, v < 2 ^ (8 * ws)) ∧ minLength vs % 2 ^ (8 * ws) ≤ bound)
        parts rules := by
  refine parseT_release ?_ bound text rules
  rcases hws with rfl | rfl | rfl <;> decide

/-- C134: for a 64-bit `usize` the programs are those of the other theorems. -/
theorem C134_64 : parseNonogramRulesT 8 = parseNonogramRules ∧ solveNonogramT 8 = solveNonogram :=
  ⟨parse_64, solve_64⟩

/-- C134: so with overflow checks all targets accept the same texts with the same rules. -/
theorem C134_same {ws : Nat} (hws : Word ws) {bound : Nat} (hb : bound < 2 ^ (8 * ws)) (text : List Char)
    (rules : List (List Nat)) :
    parseNonogramRulesT ws true text bound = .ok (.ok rules) ↔ parseNonogramRules true text bound = .ok (.ok rules) := by
  rw [C134_parse hws true hb text rules (.inl rfl), ← C134_64.1]
  rw [C134_parse (.inr (.inr rfl)) true ?_ text rules (.inl rfl)]
  rcases hws with rfl | rfl | rfl <;> norm_num at hb ⊢ <;> omega

/-- C134: texts in which the numbers of every rule, with the gaps, add up to less than the range of `usize` (fields that are
no numbers count as zero) have the same outcome on all targets and in both builds, errors included. -/
theorem C134_errors {ws : Nat} (hws : Word ws) (oc : Bool) (bound : Nat) {text : List Char} {parts : List (List Char)}
    (hp : Pieces ';' text parts)
    (hs : ∀ p ∈ parts, ∃ fields us, Pieces ',' p fields ∧
      List.Forall₂ (fun f n => Usize f n ∨ (¬ ∃ m, Usize f m) ∧ n = 0) fields us ∧ minLength us < 2 ^ (8 * ws)) :
    parseNonogramRulesT ws oc text bound = parseNonogramRules oc text bound := by
  refine parseT_eq ?_ oc bound hp hs
  rcases hws with rfl | rfl | rfl <;> decide

/-- The hypotheses of `C134_errors` hold for a text with an error. -/
example (oc : Bool) : parseNonogramRulesT 2 oc "3,x".toList 5 = parseNonogramRules oc "3,x".toList 5 := by
  refine C134_errors (.inl rfl) oc 5 (parts := ["3,x".toList]) ((splitOn_eq_iff _ _ _).mp (by decide)) ?_
  intro p hm
  rw [List.mem_singleton.mp hm]
  refine ⟨[['3'], ['x']], [3, 0], (splitOn_eq_iff _ _ _).mp (by decide), ?_, by decide⟩
  exact .cons (.inl ((parseUsize_iff _ _).mp (by decide))) (.cons (.inr ⟨(parseUsize_none _).mp (by decide), rfl⟩) .nil)

/-- C134: puzzles entered as texts, with sides below `2 ^ (8 * ws - 7)` (`2 ^ 31` on 64-bit targets) and squares below half the
address space: the rules accepted on the target are accepted on a 64-bit target and the answers are the same. -/
theorem C134_accepted {ws : Nat} (hws : Word ws) (oc : Bool) {colText rowText : List Char} {col row : List (List Nat)}
    (hc : parseNonogramRulesT ws oc colText row.length = .ok (.ok col))
    (hr : parseNonogramRulesT ws oc rowText col.length = .ok (.ok row))
    (ho : oc = true ∨ ∀ r ∈ col ++ row, minLength r < 2 ^ (8 * ws))
    (hw : col.length < 2 ^ min (8 * ws - 7) 31) (hh : row.length < 2 ^ min (8 * ws - 7) 31)
    (hn : col.length * row.length < 2 ^ (8 * ws - 1)) :
    parseNonogramRules oc colText row.length = .ok (.ok col) ∧ parseNonogramRules oc rowText col.length = .ok (.ok row) ∧
      SizedT ws col row ∧ solveNonogramT ws oc col row = solveNonogram oc col row := by
  have hle : ∀ {n : Nat}, n < 2 ^ min (8 * ws - 7) 31 → n < 2 ^ (8 * ws - 7) ∧ n < 2 ^ 31 ∧ n < 2 ^ (8 * ws) := fun h =>
    ⟨Nat.lt_of_lt_of_le h (Nat.pow_le_pow_right (by decide) (by omega)),
      Nat.lt_of_lt_of_le h (Nat.pow_le_pow_right (by decide) (by omega)),
      Nat.lt_of_lt_of_le h (Nat.pow_le_pow_right (by decide) (by omega))⟩
  have oc' : oc = true ∨ ∀ r ∈ col, minLength r < 2 ^ (8 * ws) := ho.imp_right fun h r hm => h r (by simp [hm])
  have or' : oc = true ∨ ∀ r ∈ row, minLength r < 2 ^ (8 * ws) := ho.imp_right fun h r hm => h r (by simp [hm])
  have hB : 2 ^ (8 * ws) ≤ 2 ^ (8 * 8) := by rcases hws with rfl | rfl | rfl <;> decide
  have pc := (C134_parse hws oc (hle hh).2.2 colText col oc').mp hc
  have pr := (C134_parse hws oc (hle hw).2.2 rowText row or').mp hr
  have mem : ∀ {parts : List (List Char)} {rules : List (List Nat)} {bound : Nat},
      List.Forall₂ (fun part vs => Numbers part vs ∧ minLength vs ≤ bound) parts rules → ∀ r ∈ rules, minLength r ≤ bound := by
    intro parts rules bound hf r hm
    induction hf with
    | nil => cases hm
    | cons h _ ih =>
      rcases List.mem_cons.mp hm with rfl | hm
      · exact h.2
      · exact ih hm
  have hsum : ∀ r : List Nat, (r.map (· + 1)).sum = r.sum + r.length := by
    intro r
    induction r with
    | nil => rfl
    | cons a r ih => rw [List.map_cons, List.sum_cons, List.sum_cons, List.length_cons, ih]; omega
  have hS : SizedT ws col row := by
    refine ⟨?_, ?_, hn, ⟨(hle hw).1, fun r _ => .inl (hle hw).2.1⟩, ⟨(hle hh).1, fun r _ => .inl (hle hh).2.1⟩⟩
    · intro r hm
      have hlen : minLength r < 2 ^ (8 * ws - 7) := by
        obtain ⟨_, _, fc⟩ := pc
        obtain ⟨_, _, fr⟩ := pr
        rcases List.mem_append.mp hm with h | h
        · exact Nat.lt_of_le_of_lt (mem fc r h) (hle hh).1
        · exact Nat.lt_of_le_of_lt (mem fr r h) (hle hw).1
      unfold minLength at hlen
      rw [hsum]
      rcases hws with rfl | rfl | rfl <;> norm_num at hlen ⊢ <;> omega
    · obtain ⟨parts, hp, hf⟩ := pr
      rw [← hf.length_eq]
      exact List.length_pos_iff.mpr hp.1
  refine ⟨?_, ?_, hS, C134_solve hws oc hS⟩
  · rw [← C134_64.1]
    exact (C134_parse (.inr (.inr rfl)) oc (Nat.lt_of_lt_of_le (hle hh).2.2 hB) colText col
      (oc'.imp_right fun h r hm => Nat.lt_of_lt_of_le (h r hm) hB)).mpr pc
  · rw [← C134_64.1]
    exact (C134_parse (.inr (.inr rfl)) oc (Nat.lt_of_lt_of_le (hle hw).2.2 hB) rowText row
      (or'.imp_right fun h r hm => Nat.lt_of_lt_of_le (h r hm) hB)).mpr pr

/-- The hypotheses of `C134_accepted` hold for a puzzle of the tests on a 16-bit target. -/
example (oc : Bool) : solveNonogramT 2 oc [[2], [1]] [[2], [1]] = solveNonogram oc [[2], [1]] [[2], [1]] :=
  (C134_accepted (.inl rfl) oc (colText := "2;1".toList) (rowText := "2;1".toList) (by cases oc <;> decide)
    (by cases oc <;> decide) (.inr (by decide)) (by decide) (by decide) (by decide)).2.2.2

/-- C134: without overflow checks they do not: a rule that needs `2 ^ 32 + 2` squares is accepted on 32-bit targets for
lines of 5 squares and rejected on 64-bit targets; the solver then panics. A debug build panics in the parser. -/
theorem C134_wraps (row : List (List Nat)) :
    parseNonogramRulesT 4 false "4294967295,2".toList 5 = .ok (.ok [[4294967295, 2]]) ∧
    parseNonogramRules false "4294967295,2".toList 5 = .ok (.error .InvalidRuleDimension) ∧
    parseNonogramRulesT 4 true "4294967295,2".toList 5 = .panic ∧
    solveNonogramT 4 false [[4294967295, 2]] row = .panic :=
  ⟨by decide, by decide, by decide, solveT_huge false ⟨_, List.mem_append_left _ (List.mem_singleton_self _), 4294967295, by simp, by decide⟩⟩

/-- C134: numbers that reach half the address space make the solver panic in both builds, whatever the other rules are. -/
theorem C134_huge (ws : Nat) (oc : Bool) {col row : List (List Nat)} (hv : ∃ r ∈ col ++ row, ∃ v ∈ r, 2 ^ (8 * ws - 1) ≤ v) :
    solveNonogramT ws oc col row = .panic :=
  solveT_huge oc hv

/-- A puzzle within the limits of 16-bit targets. -/
theorem small_sizedT : SizedT 2 [[1], [2]] [[2], [1]] := by
  refine ⟨by decide, by decide, by decide, ⟨by decide, by decide⟩, ⟨by decide, by decide⟩⟩

/-- The hypotheses of C134 hold for it. -/
example (oc : Bool) : solveNonogramT 2 oc [[1], [2]] [[2], [1]] = solveNonogram oc [[1], [2]] [[2], [1]] :=
  C134_solve (.inl rfl) oc small_sizedT

example (oc : Bool) : parseNonogramRulesT 2 oc "1;2".toList 2 = .ok (.ok [[1], [2]]) := by cases oc <;> decide

end Nonogram.Props
