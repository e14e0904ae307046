import Verif.Proofs.Nonogram.ParseTarget
import Verif.Props.Nonogram

/-!
C137: the outcome of `parse_nonogram_rules` for a `usize` of any number `sz` of bytes: rules, error or panic. C57 is the case
of eight bytes.
-/
namespace Nonogram.Props
open Nonogram Nonogram.Spec Nonogram.ParseT

/-- C137, without overflow checks: the parser never panics, and the result is that of the specification with sizes
reduced modulo the range of `usize`. -/
theorem C137_wrapping (sz : Nat) (text : List Char) (bound : Nat) :
    (∃ r, parseNonogramRulesT sz false text bound = .ok r) ∧
    ∀ r, parseNonogramRulesT sz false text bound = .ok r ↔
      ParsesT sz (fun vs => minLength vs % 2 ^ (8 * sz)) text bound r := by
  have hs : sizeOfT sz false = fun vs => minLength vs % 2 ^ (8 * sz) := rfl
  rcases ParseT.parse_result (sz := sz) false text bound with ⟨r', h1, h2⟩ | ⟨h, _⟩
  · refine ⟨⟨r', h1⟩, fun r => ⟨fun h => ?_, fun h => ParseT.parse_complete false h (by simp)⟩⟩
    rw [h] at h1
    obtain rfl := Prog.ok.inj h1
    exact h2
  · cases h

/-- C137, with overflow checks: the parser panics exactly if it meets a rule whose sums overflow before any rule
with an error; otherwise the result is that of the specification. -/
theorem C137_checked (sz : Nat) (text : List Char) (bound : Nat) (hb : bound < 2 ^ (8 * sz)) :
    (parseNonogramRulesT sz true text bound = .panic ↔ ∃ pre part post, Pieces ';' text (pre ++ part :: post) ∧
      (∀ p ∈ pre, ∃ vs, NumbersT sz p vs ∧ minLength vs ≤ bound) ∧ OverflowsT sz part) ∧
    (parseNonogramRulesT sz true text bound ≠ .panic → ∃ r, parseNonogramRulesT sz true text bound = .ok r ∧
      ParsesT sz minLength text bound r) := by
  constructor
  · constructor
    · intro h
      rcases ParseT.parse_result (sz := sz) true text bound with ⟨r, h1, _⟩ | ⟨_, _, h3⟩
      · rw [h] at h1; cases h1
      · exact h3
    · rintro ⟨pre, part, post, hp, h1, h2⟩
      unfold parseNonogramRulesT
      rw [(splitOn_eq_iff _ _ _).mpr hp]
      refine (ParseT.parseAll_stop true bound h1 fun _ p hpm => ?_).1 (ParseT.parseRule_over bound h2)
      obtain ⟨vs, hv, hle⟩ := h1 p hpm
      exact ParseT.not_overflows hv (by omega)
  · intro h
    rcases ParseT.parse_result (sz := sz) true text bound with ⟨r, h1, h2⟩ | ⟨_, h1, _⟩
    · exact ⟨r, h1, h2⟩
    · exact absurd h1 h

/-- C137: both builds have the same result on every text in which no sum overflows. -/
theorem C137_builds (sz : Nat) (text : List Char) (bound : Nat) (hb : bound < 2 ^ (8 * sz))
    (ho : ∀ parts, Pieces ';' text parts → ∀ p ∈ parts, ¬ OverflowsT sz p) :
    ∃ r, parseNonogramRulesT sz true text bound = .ok r ∧ parseNonogramRulesT sz false text bound = .ok r := by
  have hc := C137_checked sz text bound hb
  have hnp : parseNonogramRulesT sz true text bound ≠ .panic := by
    intro h
    obtain ⟨pre, part, post, hp, _, h2⟩ := hc.1.mp h
    exact ho _ hp part (by simp) h2
  obtain ⟨r, h1, h2⟩ := hc.2 hnp
  refine ⟨r, h1, ((C137_wrapping sz text bound).2 r).mpr ?_⟩
  exact ParseT.parses_congr (fun parts hp p hpm vs hv => (ParseT.size_eq (oc := false) (.inr (ho parts hp p hpm)) hv).symm) h2

/-- C137: the error names a field. A number that is too large for the target is such a field, although a wider target
reads it. -/
theorem C137_large (sz : Nat) (oc : Bool) (bound n : Nat) (hn : 2 ^ (8 * sz) ≤ n) :
    parseNonogramRulesT sz oc (Nat.toDigits 10 n) bound = .ok (.error (.InvalidRule (Nat.toDigits 10 n))) := by
  have hdig : ∀ c ∈ Nat.toDigits 10 n, c.isDigit = true := fun c hc => Nat.isDigit_of_mem_toDigits (by decide) (by decide) hc
  have hone : ∀ sep, sep.isDigit = false → Pieces sep (Nat.toDigits 10 n) [Nat.toDigits 10 n] := by
    intro sep hs
    refine ⟨by simp, ?_, intercalate_one _ _⟩
    intro p hp hm
    rw [List.mem_singleton.mp hp] at hm
    rw [hdig _ hm] at hs; cases hs
  have hbad : ¬ ∃ m, UsizeT sz (Nat.toDigits 10 n) m := by
    rintro ⟨m, ds, hds, _, hd, hv, hlt⟩
    have hds' : Nat.toDigits 10 n = ds := by
      rcases hds with h | h
      · exact h
      · have := hdig '+' (by rw [h]; simp)
        exact absurd this (by decide)
    rw [← hds', Nat.ofDigitChars_ten_toDigits] at hv
    omega
  have hfield : BadFieldT sz (Nat.toDigits 10 n) (Nat.toDigits 10 n) :=
    ⟨[], [], hone ',' (by decide), by simp, hbad⟩
  refine ParseT.parse_complete oc ⟨[], Nat.toDigits 10 n, [], hone ';' (by decide), by simp, .inl ⟨_, hfield, rfl⟩⟩ ?_
  rintro - parts hp p hpm ⟨pre, post, vs, hq, hf, hor⟩
  obtain rfl := hp.unique (hone ';' (by decide))
  rw [List.mem_singleton.mp hpm] at hq
  have hq := hq.unique (hone ',' (by decide))
  cases hf with
  | nil =>
    rcases hor with h | ⟨rfl, _⟩
    · exact absurd h (by simp)
    · simp at hq
  | cons h1 _ =>
    simp only [List.cons_append, List.cons.injEq] at hq
    rw [hq.1] at h1
    exact hbad ⟨_, h1⟩

theorem numbersT_writeRule {sz : Nat} {vs : List Nat} (hne : vs ≠ []) (hb : ∀ v ∈ vs, v < 2 ^ (8 * sz)) :
    NumbersT sz (writeRule vs) vs := by
  refine ⟨vs.map (Nat.toDigits 10), ⟨by simpa using hne, ?_, rfl⟩, ?_⟩
  · intro p hp
    obtain ⟨v, _, rfl⟩ := List.mem_map.mp hp
    intro hm
    have := Nat.isDigit_of_mem_toDigits (by decide) (by decide) hm
    exact absurd this (by decide)
  · clear hne
    induction vs with
    | nil => exact .nil
    | cons v vs ih =>
      exact .cons ⟨_, .inl rfl, Nat.toDigits_ne_nil, fun c hc => Nat.isDigit_of_mem_toDigits (by decide) (by decide) hc,
        Nat.ofDigitChars_ten_toDigits, hb v (by simp)⟩ (ih fun u hu => hb u (by simp [hu]))

/-- C137: writing a non-empty list of non-empty rules down and parsing it gives the list back, if every rule fits
the bound, which is a `usize`. -/
theorem C137_round_trip (sz : Nat) (oc : Bool) (rules : List (List Nat)) (bound : Nat) (hne : rules ≠ [])
    (hr : ∀ r ∈ rules, r ≠ [] ∧ minLength r ≤ bound) (hb : bound < 2 ^ (8 * sz)) :
    parseNonogramRulesT sz oc (writeRules rules) bound = .ok (.ok rules) := by
  have hval : ∀ r ∈ rules, ∀ v ∈ r, v < 2 ^ (8 * sz) := by
    intro r hrm v hv
    have h1 := (hr r hrm).2
    have h2 := mem_le_sum hv
    unfold minLength at h1
    omega
  have hpieces : Pieces ';' (writeRules rules) (rules.map writeRule) :=
    ⟨by simpa using hne, fun p hp => by
      obtain ⟨r, _, rfl⟩ := List.mem_map.mp hp
      exact semicolon_writeRule r, rfl⟩
  have hsz : ∀ r ∈ rules, sizeOfT sz oc r = minLength r := by
    intro r hrm
    have := (hr r hrm).2
    unfold sizeOfT wrapT
    rw [Nat.mod_eq_of_lt (by omega), ite_self]
  apply ParseT.parse_complete
  · refine ⟨_, hpieces, ?_⟩
    clear hpieces hne
    induction rules with
    | nil => exact .nil
    | cons r rules ih =>
      refine .cons ⟨numbersT_writeRule (hr r (by simp)).1 (hval r (by simp)), ?_⟩
        (ih (fun q hq => hr q (by simp [hq])) (fun q hq => hval q (by simp [hq])) (fun q hq => hsz q (by simp [hq])))
      rw [hsz r (by simp)]; exact (hr r (by simp)).2
  · intro _ parts hp p hpm
    obtain rfl := hp.unique hpieces
    obtain ⟨r, hrm, rfl⟩ := List.mem_map.mp hpm
    refine ParseT.not_overflows (numbersT_writeRule (hr r hrm).1 (hval r hrm)) ?_
    have := (hr r hrm).2
    omega

/-- The hypotheses of `C137_round_trip` hold for a puzzle with several numbers per rule, on a 16-bit target. -/
example (oc : Bool) : parseNonogramRulesT 2 oc "3,1;10;2,4,1".toList 10 = .ok (.ok [[3, 1], [10], [2, 4, 1]]) :=
  C137_round_trip 2 oc [[3, 1], [10], [2, 4, 1]] 10 (by decide) (by decide) (by decide)

/-- C137: for eight bytes this is C57. -/
theorem C137_64 : UsizeT 8 = Usize ∧ NumbersT 8 = Numbers ∧ BadFieldT 8 = BadField ∧ ParsesT 8 = Parses ∧
    OverflowsT 8 = Overflows := textT_64

/-! All outcomes occur, and they depend on the target. -/
example : parseNonogramRulesT 4 true "4294967295,1".toList 5 = .panic := by decide
example : parseNonogramRulesT 4 false "4294967295,1".toList 5 = .ok (.ok [[4294967295, 1]]) := by decide
example : parseNonogramRulesT 8 true "4294967295,1".toList 5 = .ok (.error .InvalidRuleDimension) := by decide
example : parseNonogramRulesT 2 true "65536".toList 5 = .ok (.error (.InvalidRule "65536".toList)) := by decide
example : parseNonogramRulesT 4 true "65536".toList 5 = .ok (.error .InvalidRuleDimension) := by decide

/-- The hypotheses of `C137_builds` hold for a text with two rules and an error. -/
example : ∃ r, parseNonogramRulesT 4 true "1,2;x".toList 5 = .ok r ∧ parseNonogramRulesT 4 false "1,2;x".toList 5 = .ok r := by
  refine C137_builds 4 _ 5 (by decide) ?_
  intro parts hp p hpm
  obtain rfl := hp.unique ((splitOn_eq_iff _ _ ["1,2".toList, "x".toList]).mp (by decide))
  have key : ∀ q, parseRuleT 4 true 5 q ≠ .panic → ¬ OverflowsT 4 q := fun q h ho => h (ParseT.parseRule_over 5 ho)
  rcases List.mem_cons.mp hpm with rfl | hpm
  · exact key _ (by decide)
  · rw [List.mem_singleton.mp hpm]; exact key _ (by decide)

end Nonogram.Props
