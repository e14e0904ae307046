import Verif.Model.NonogramTarget
import Verif.Proofs.Nonogram.Zero
import Verif.Proofs.Nonogram.Parse
import Verif.Proofs.Image

/-! The nonogram solver on targets with other word sizes does what it does on a 64-bit target. -/
namespace Nonogram.Target
open Nonogram Spec

/-! ### Parsing -/

theorem parseDigits_ge {acc : Nat} {cs : List Char} {n : Nat} (h : parseDigits acc cs = some n) : acc ≤ n := by
  induction cs generalizing acc with
  | nil => cases h; exact Nat.le_refl _
  | cons c cs ih =>
    rw [parseDigits] at h
    split_ifs at h
    have := ih h
    omega

theorem parseDigitsT_eq {ws : Nat} (hB : 2 ^ (8 * ws) ≤ 2 ^ 64) (acc : Nat) (cs : List Char) (ha : acc < 2 ^ (8 * ws)) (n : Nat) :
    parseDigitsT ws acc cs = some n ↔ parseDigits acc cs = some n ∧ n < 2 ^ (8 * ws) := by
  induction cs generalizing acc with
  | nil =>
    simp only [parseDigitsT, parseDigits, Option.some.injEq]
    constructor
    · rintro rfl; exact ⟨rfl, ha⟩
    · exact And.left
  | cons c cs ih =>
    rw [parseDigitsT, parseDigits]
    generalize 2 ^ (8 * ws) = B at *
    by_cases hd : 48 ≤ c.toNat ∧ c.toNat ≤ 57
    · rw [if_pos hd, if_pos hd]
      by_cases h1 : acc * 10 + (c.toNat - 48) < B
      · rw [if_pos (by omega), if_pos h1, if_pos (by omega), if_pos (by omega), ih _ h1]
      · constructor
        · intro h
          split_ifs at h
        · rintro ⟨h, hn⟩
          split_ifs at h
          have := parseDigits_ge h
          omega
    · rw [if_neg hd, if_neg hd]; simp

theorem parseUsizeT_eq {ws : Nat} (hB : 2 ^ (8 * ws) ≤ 2 ^ 64) (cs : List Char) (n : Nat) :
    parseUsizeT ws cs = some n ↔ Usize cs n ∧ n < 2 ^ (8 * ws) := by
  rw [← parseUsize_iff]
  unfold parseUsizeT parseUsize
  split
  · simp
  · simp
  · rename_i cs h
    cases cs with
    | nil => exact absurd rfl h
    | cons c cs => exact parseDigitsT_eq hB 0 (c :: cs) (Nat.two_pow_pos _) n
  · rename_i h1 h2 h3
    split
    · exact absurd rfl h1
    · exact absurd rfl h2
    · exact absurd rfl (h3 _)
    · exact parseDigitsT_eq hB 0 _ (Nat.two_pow_pos _) n

/-- The fields of a rule whose sum is below the limit. -/
theorem parseFieldsT_iff {ws : Nat} (hB : 2 ^ (8 * ws) ≤ 2 ^ 64) (oc : Bool) (size : Nat) (xs : List (List Char)) (vs : List Nat)
    (s : Nat) (hs : size + vs.sum < 2 ^ (8 * ws)) :
    parseFieldsT ws oc size xs = .ok (.ok (vs, s)) ↔ List.Forall₂ Usize xs vs ∧ s = size + vs.sum := by
  induction xs generalizing size vs s with
  | nil =>
    rw [parseFieldsT]
    constructor
    · intro h; cases h; exact ⟨.nil, rfl⟩
    · rintro ⟨h, rfl⟩; cases h; rfl
  | cons x xs ih =>
    rw [parseFieldsT]
    constructor
    · intro h
      cases hp : parseUsizeT ws x with
      | none => rw [hp] at h; cases h
      | some v =>
        rw [hp] at h
        simp only at h
        obtain ⟨s1, h1, h⟩ := Prog.bind_eq_ok.mp h
        obtain ⟨r, h2, h⟩ := Prog.bind_eq_ok.mp h
        match r, h with
        | .ok (us, t), h =>
          cases h
          simp only [List.sum_cons] at hs
          rw [addW_ok (by omega)] at h1
          cases h1
          obtain ⟨h3, h4⟩ := (ih (size + v) us _ (by omega)).mp h2
          exact ⟨.cons ((parseUsizeT_eq hB x v).mp hp).1 h3, by simp only [List.sum_cons]; omega⟩
    · rintro ⟨h, rfl⟩
      cases h with
      | @cons _ v _ us hv hus =>
        simp only [List.sum_cons] at hs
        rw [(parseUsizeT_eq hB x v).mpr ⟨hv, by omega⟩]
        simp only
        rw [addW_ok (by omega), Prog.ok_bind, (ih (size + v) us (size + v + us.sum) (by omega)).mpr ⟨hus, rfl⟩, Prog.ok_bind]
        simp [Nat.add_assoc]

/-- With overflow checks the sum stays below the limit. -/
theorem parseFieldsT_checked {ws : Nat} {size : Nat} {xs : List (List Char)} {vs : List Nat} {s : Nat} (hs : size < 2 ^ (8 * ws))
    (h : parseFieldsT ws true size xs = .ok (.ok (vs, s))) : size + vs.sum < 2 ^ (8 * ws) := by
  induction xs generalizing size vs s with
  | nil => cases h; simpa using hs
  | cons x xs ih =>
    rw [parseFieldsT] at h
    cases hp : parseUsizeT ws x with
    | none => rw [hp] at h; cases h
    | some v =>
      rw [hp] at h
      simp only at h
      obtain ⟨s1, h1, h⟩ := Prog.bind_eq_ok.mp h
      obtain ⟨r, h2, h⟩ := Prog.bind_eq_ok.mp h
      match r, h with
      | .ok (us, t), h =>
        cases h
        by_cases hv : size + v < 2 ^ (8 * ws)
        · rw [addW_ok hv] at h1
          cases h1
          have := ih hv h2
          simp only [List.sum_cons]; omega
        · simp only [addW, if_neg hv, if_true] at h1
          cases h1

theorem parseRuleT_iff {ws : Nat} (hB : 2 ^ (8 * ws) ≤ 2 ^ 64) (oc : Bool) {bound : Nat} (hb : bound < 2 ^ (8 * ws))
    (text : List Char) (vs : List Nat) (ho : oc = true ∨ minLength vs < 2 ^ (8 * ws)) :
    parseRuleT ws oc bound text = .ok (.ok vs) ↔ Numbers text vs ∧ minLength vs ≤ bound := by
  have hp := splitOn_pieces ',' text
  unfold parseRuleT
  constructor
  · intro h
    obtain ⟨r, h1, h⟩ := Prog.bind_eq_ok.mp h
    match r, h with
    | .ok (us, s), h =>
      simp only at h
      obtain ⟨n, h2, h⟩ := Prog.bind_eq_ok.mp h
      obtain ⟨t, h3, h⟩ := Prog.bind_eq_ok.mp h
      split at h
      · cases h
      rename_i hn
      cases h
      have hsum : 0 + vs.sum < 2 ^ (8 * ws) := by
        rcases ho with rfl | ho
        · exact parseFieldsT_checked (Nat.two_pow_pos _) h1
        · unfold minLength at ho; omega
      obtain ⟨h4, rfl⟩ := (parseFieldsT_iff hB oc 0 _ vs s hsum).mp h1
      have hl : 1 ≤ vs.length := by
        rw [← h4.length_eq]; exact List.length_pos_iff.mpr hp.1
      rw [subW_ok hl] at h2
      cases h2
      have hlt : 0 + vs.sum + (vs.length - 1) < 2 ^ (8 * ws) := by
        rcases ho with rfl | ho
        · by_contra hc
          simp only [addW, if_neg hc, if_true] at h3
          cases h3
        · unfold minLength at ho; omega
      rw [addW_ok hlt] at h3
      cases h3
      refine ⟨⟨_, hp, h4⟩, ?_⟩
      unfold minLength
      simp only [not_or] at hn
      omega
  · rintro ⟨⟨fields, hf, hv⟩, hm⟩
    obtain rfl := hf.unique hp
    have hl : 1 ≤ vs.length := by
      rw [← hv.length_eq]; exact List.length_pos_iff.mpr hp.1
    unfold minLength at hm
    rw [(parseFieldsT_iff hB oc 0 _ vs (0 + vs.sum) (by omega)).mpr ⟨hv, rfl⟩, Prog.ok_bind]
    simp only
    rw [subW_ok hl, Prog.ok_bind, addW_ok (by omega), Prog.ok_bind, if_neg]
    simp only [not_or]
    refine ⟨?_, by omega⟩
    cases vs with
    | nil => simp at hl
    | cons => simp

theorem parseAllT_iff {ws : Nat} (hB : 2 ^ (8 * ws) ≤ 2 ^ 64) (oc : Bool) {bound : Nat} (hb : bound < 2 ^ (8 * ws))
    (parts : List (List Char)) (rules : List (List Nat)) (ho : oc = true ∨ ∀ vs ∈ rules, minLength vs < 2 ^ (8 * ws)) :
    parseAllT ws oc bound parts = .ok (.ok rules) ↔
      List.Forall₂ (fun part vs => Numbers part vs ∧ minLength vs ≤ bound) parts rules := by
  induction parts generalizing rules with
  | nil =>
    rw [parseAllT]
    constructor
    · intro h; cases h; exact .nil
    · intro h; cases h; rfl
  | cons p ps ih =>
    rw [parseAllT]
    constructor
    · intro h
      obtain ⟨r, h1, h⟩ := Prog.bind_eq_ok.mp h
      match r, h with
      | .ok us, h =>
        simp only at h
        obtain ⟨r2, h2, h⟩ := Prog.bind_eq_ok.mp h
        match r2, h with
        | .ok uss, h =>
          cases h
          exact .cons ((parseRuleT_iff hB oc hb p us (ho.imp_right fun h => h us (by simp))).mp h1)
            ((ih uss (ho.imp_right fun h v hv => h v (by simp [hv]))).mp h2)
    · intro h
      cases h with
      | @cons _ us _ uss h1 h2 =>
        rw [(parseRuleT_iff hB oc hb p us (ho.imp_right fun h => h us (by simp))).mpr h1, Prog.ok_bind]
        simp only
        rw [(ih uss (ho.imp_right fun h v hv => h v (by simp [hv]))).mpr h2, Prog.ok_bind]

theorem parseT_iff {ws : Nat} (hB : 2 ^ (8 * ws) ≤ 2 ^ 64) (oc : Bool) {bound : Nat} (hb : bound < 2 ^ (8 * ws))
    (text : List Char) (rules : List (List Nat)) (ho : oc = true ∨ ∀ vs ∈ rules, minLength vs < 2 ^ (8 * ws)) :
    parseNonogramRulesT ws oc text bound = .ok (.ok rules) ↔ ∃ parts, Pieces ';' text parts ∧
      List.Forall₂ (fun part vs => Numbers part vs ∧ minLength vs ≤ bound) parts rules := by
  have hp := splitOn_pieces ';' text
  unfold parseNonogramRulesT
  rw [parseAllT_iff hB oc hb _ _ ho]
  constructor
  · intro h; exact ⟨_, hp, h⟩
  · rintro ⟨parts, h1, h2⟩
    obtain rfl := h1.unique hp
    exact h2

/-! ### Without overflow checks -/

theorem addW_false (bits a b : Nat) : addW false bits a b = .ok ((a + b) % 2 ^ bits) := by
  unfold addW
  split
  · rename_i h; rw [Nat.mod_eq_of_lt h]
  · rfl

theorem fieldsT_release {ws : Nat} (hB : 2 ^ (8 * ws) ≤ 2 ^ 64) {size : Nat} (hs : size < 2 ^ (8 * ws)) (xs : List (List Char))
    (vs : List Nat) (s : Nat) :
    parseFieldsT ws false size xs = .ok (.ok (vs, s)) ↔
      List.Forall₂ Usize xs vs ∧ (∀ v ∈ vs, v < 2 ^ (8 * ws)) ∧ s = (size + vs.sum) % 2 ^ (8 * ws) := by
  induction xs generalizing size vs s with
  | nil =>
    rw [parseFieldsT]
    constructor
    · intro h; cases h; exact ⟨.nil, by simp, by rw [List.sum_nil, Nat.add_zero, Nat.mod_eq_of_lt hs]⟩
    · rintro ⟨h, _, rfl⟩
      cases h
      rw [List.sum_nil, Nat.add_zero, Nat.mod_eq_of_lt hs]
  | cons x xs ih =>
    have hmod : ∀ v, (size + v) % 2 ^ (8 * ws) < 2 ^ (8 * ws) := fun v => Nat.mod_lt _ (Nat.two_pow_pos _)
    rw [parseFieldsT]
    constructor
    · intro h
      cases hp : parseUsizeT ws x with
      | none => rw [hp] at h; cases h
      | some v =>
        rw [hp] at h
        simp only [addW_false, Prog.ok_bind] at h
        obtain ⟨r, h2, h⟩ := Prog.bind_eq_ok.mp h
        match r, h with
        | .ok (us, t), h =>
          cases h
          obtain ⟨h3, h4, rfl⟩ := (ih (hmod v) us _).mp h2
          obtain ⟨h5, h6⟩ := (parseUsizeT_eq hB x v).mp hp
          refine ⟨.cons h5 h3, ?_, ?_⟩
          · intro u hu
            rcases List.mem_cons.mp hu with rfl | hu
            · exact h6
            · exact h4 u hu
          · rw [List.sum_cons, Nat.mod_add_mod, Nat.add_assoc]
    · rintro ⟨h, hv, rfl⟩
      cases h with
      | @cons _ v _ us h1 h2 =>
        rw [(parseUsizeT_eq hB x v).mpr ⟨h1, hv v (by simp)⟩]
        simp only [addW_false, Prog.ok_bind]
        rw [(ih (hmod v) us _).mpr ⟨h2, fun u hu => hv u (by simp [hu]), rfl⟩, Prog.ok_bind]
        simp [Nat.mod_add_mod, Nat.add_assoc]

theorem ruleT_release {ws : Nat} (hB : 2 ^ (8 * ws) ≤ 2 ^ 64) (bound : Nat) (text : List Char) (vs : List Nat) :
    parseRuleT ws false bound text = .ok (.ok vs) ↔
      Numbers text vs ∧ (∀ v ∈ vs, v < 2 ^ (8 * ws)) ∧ minLength vs % 2 ^ (8 * ws) ≤ bound := by
  have hp := splitOn_pieces ',' text
  unfold parseRuleT
  constructor
  · intro h
    obtain ⟨r, h1, h⟩ := Prog.bind_eq_ok.mp h
    match r, h with
    | .ok (us, s), h =>
      simp only at h
      obtain ⟨n, h2, h⟩ := Prog.bind_eq_ok.mp h
      rw [addW_false, Prog.ok_bind] at h
      split at h
      · cases h
      rename_i hn
      cases h
      obtain ⟨h4, h5, rfl⟩ := (fieldsT_release hB (Nat.two_pow_pos _) _ vs s).mp h1
      have hl : 1 ≤ vs.length := by
        rw [← h4.length_eq]; exact List.length_pos_iff.mpr hp.1
      rw [subW_ok hl] at h2
      cases h2
      refine ⟨⟨_, hp, h4⟩, h5, ?_⟩
      unfold minLength
      rw [Nat.zero_add, Nat.mod_add_mod] at hn
      simp only [not_or] at hn
      omega
  · rintro ⟨⟨fields, hf, hv⟩, hlt, hm⟩
    obtain rfl := hf.unique hp
    have hl : 1 ≤ vs.length := by
      rw [← hv.length_eq]; exact List.length_pos_iff.mpr hp.1
    unfold minLength at hm
    rw [(fieldsT_release hB (Nat.two_pow_pos _) _ vs _).mpr ⟨hv, hlt, rfl⟩, Prog.ok_bind]
    simp only
    rw [subW_ok hl, Prog.ok_bind, addW_false, Prog.ok_bind, Nat.zero_add, Nat.mod_add_mod, if_neg]
    simp only [not_or]
    refine ⟨?_, by omega⟩
    cases vs with
    | nil => simp at hl
    | cons => simp

theorem allT_release {ws : Nat} (hB : 2 ^ (8 * ws) ≤ 2 ^ 64) (bound : Nat) (parts : List (List Char)) (rules : List (List Nat)) :
    parseAllT ws false bound parts = .ok (.ok rules) ↔
      List.Forall₂ (fun part vs => Numbers part vs ∧ (∀ v ∈ vs, v < 2 ^ (8 * ws)) ∧ minLength vs % 2 ^ (8 * ws) ≤ bound)
        parts rules := by
  induction parts generalizing rules with
  | nil =>
    rw [parseAllT]
    constructor
    · intro h; cases h; exact .nil
    · intro h; cases h; rfl
  | cons p ps ih =>
    rw [parseAllT]
    constructor
    · intro h
      obtain ⟨r, h1, h⟩ := Prog.bind_eq_ok.mp h
      match r, h with
      | .ok us, h =>
        simp only at h
        obtain ⟨r2, h2, h⟩ := Prog.bind_eq_ok.mp h
        match r2, h with
        | .ok uss, h =>
          cases h
          exact .cons ((ruleT_release hB bound p us).mp h1) ((ih uss).mp h2)
    · intro h
      cases h with
      | @cons _ us _ uss h1 h2 =>
        rw [(ruleT_release hB bound p us).mpr h1, Prog.ok_bind]
        simp only
        rw [(ih uss).mpr h2, Prog.ok_bind]

theorem parseT_release {ws : Nat} (hB : 2 ^ (8 * ws) ≤ 2 ^ 64) (bound : Nat) (text : List Char) (rules : List (List Nat)) :
    parseNonogramRulesT ws false text bound = .ok (.ok rules) ↔ ∃ parts, Pieces ';' text parts ∧
      List.Forall₂ (fun part vs => Numbers part vs ∧ (∀ v ∈ vs, v < 2 ^ (8 * ws)) ∧ minLength vs % 2 ^ (8 * ws) ≤ bound)
        parts rules := by
  have hp := splitOn_pieces ';' text
  unfold parseNonogramRulesT
  rw [allT_release hB]
  constructor
  · intro h; exact ⟨_, hp, h⟩
  · rintro ⟨parts, h1, h2⟩
    obtain rfl := h1.unique hp
    exact h2

/-! ### Errors -/

/-- The value of a field, zero if it is no number. -/
def Value (f : List Char) (n : Nat) : Prop := Usize f n ∨ (¬ ∃ m, Usize f m) ∧ n = 0

theorem fieldsT_eq {ws : Nat} (hB : 2 ^ (8 * ws) ≤ 2 ^ 64) (oc : Bool) {xs : List (List Char)} {us : List Nat}
    (hv : List.Forall₂ Value xs us) {size : Nat} (hs : size + us.sum < 2 ^ (8 * ws)) :
    parseFieldsT ws oc size xs = parseFields oc size xs ∧
      ∀ vs s, parseFields oc size xs = .ok (.ok (vs, s)) → vs.length = xs.length ∧ s = size + us.sum := by
  induction hv generalizing size with
  | nil =>
    refine ⟨rfl, ?_⟩
    rintro vs s h
    cases h
    simp
  | @cons x u xs us h1 h2 ih =>
    rw [List.sum_cons] at hs
    rw [parseFieldsT, parseFields]
    rcases h1 with h1 | ⟨h1, rfl⟩
    · rw [(parseUsizeT_eq hB x u).mpr ⟨h1, by omega⟩, (parseUsize_iff x u).mpr h1]
      obtain ⟨e, hl⟩ := ih (size := size + u) (by omega)
      simp only
      rw [addW_ok (bits := 8 * ws) (by omega), addW_ok (bits := 64) (by omega)]
      simp only [Prog.ok_bind]
      rw [e]
      refine ⟨rfl, ?_⟩
      intro vs s h
      obtain ⟨r, h3, h⟩ := Prog.bind_eq_ok.mp h
      match r, h with
      | .ok (ws', t), h =>
        cases h
        obtain ⟨h4, h5⟩ := hl _ _ h3
        exact ⟨by simp [h4], by rw [h5, List.sum_cons]; omega⟩
    · have hn := (parseUsize_none x).mpr h1
      have hn' : parseUsizeT ws x = none := by
        cases hp : parseUsizeT ws x with
        | none => rfl
        | some v => exact absurd ⟨v, ((parseUsizeT_eq hB x v).mp hp).1⟩ h1
      rw [hn, hn']
      exact ⟨rfl, by intro vs s h; cases h⟩

theorem ruleT_eq {ws : Nat} (hB : 2 ^ (8 * ws) ≤ 2 ^ 64) (oc : Bool) (bound : Nat) {text : List Char} {fields : List (List Char)}
    {us : List Nat} (hp : Pieces ',' text fields) (hv : List.Forall₂ Value fields us) (hs : minLength us < 2 ^ (8 * ws)) :
    parseRuleT ws oc bound text = parseRule oc bound text := by
  obtain rfl := (splitOn_eq_iff _ _ _).mpr hp
  unfold minLength at hs
  obtain ⟨e, hl⟩ := fieldsT_eq hB oc hv (size := 0) (by omega)
  unfold parseRuleT parseRule
  rw [e]
  cases h : parseFields oc 0 (splitOn ',' text) with
  | panic => rfl
  | ub => rfl
  | diverge => rfl
  | ok r =>
    match r, h with
    | .error e, _ => rfl
    | .ok (vs, s), h =>
      obtain ⟨h1, h2⟩ := hl vs s h
      have hne : 1 ≤ vs.length := by rw [h1]; exact List.length_pos_iff.mpr hp.1
      rw [← hv.length_eq, ← h1] at hs
      simp only [Prog.ok_bind]
      rw [subW_ok (bits := 8 * ws) hne, subW_ok (bits := 64) hne]
      simp only [Prog.ok_bind]
      rw [addW_ok (bits := 8 * ws) (by omega), addW_ok (bits := 64) (by omega)]

theorem parseT_eq {ws : Nat} (hB : 2 ^ (8 * ws) ≤ 2 ^ 64) (oc : Bool) (bound : Nat) {text : List Char} {parts : List (List Char)}
    (hp : Pieces ';' text parts)
    (hs : ∀ p ∈ parts, ∃ fields us, Pieces ',' p fields ∧ List.Forall₂ Value fields us ∧ minLength us < 2 ^ (8 * ws)) :
    parseNonogramRulesT ws oc text bound = parseNonogramRules oc text bound := by
  obtain rfl := (splitOn_eq_iff _ _ _).mpr hp
  unfold parseNonogramRulesT parseNonogramRules
  clear hp
  generalize splitOn ';' text = parts at hs ⊢
  induction parts with
  | nil => rfl
  | cons p ps ih =>
    obtain ⟨fields, us, h1, h2, h3⟩ := hs p (by simp)
    rw [parseAllT, parseAll, ruleT_eq hB oc bound h1 h2 h3, ih fun q hq => hs q (by simp [hq])]
    rfl

/-! ### Solving -/

theorem vecRepeatT_eq {ws e e' : Nat} {α : Type} {x : α} {n : Nat} (h : n * e < 2 ^ (8 * ws - 1)) (h' : n * e' < 2 ^ 63) :
    vecRepeatT ws e x n = vecRepeat e' x n := by
  simp only [vecRepeatT, vecRepeat, if_pos h, if_pos h']

/-- The limit for a rule on the target. -/
def SmallT (ws : Nat) (rule : List Nat) : Prop := ((rule.map (· + 1)).sum + 3) * (3 * ws) < 2 ^ (8 * ws - 1)

theorem pushBlocksT {ws : Nat} (hL : 2 ^ (8 * ws - 1) ≤ 2 ^ 63) (rule : List Nat) (st : List Node)
    (h : st.length + (rule.map (· + 1)).sum < 2 ^ (8 * ws - 1)) :
    forIn' rule st (pushBlockT ws) = forIn' rule st pushBlock := by
  induction rule generalizing st with
  | nil => rfl
  | cons a r ih =>
    simp only [List.map_cons, List.sum_cons] at h
    generalize hL' : 2 ^ (8 * ws - 1) = L at *
    have h1 : pushBlock st a = .ok (st ++ List.replicate a .Fill ++ [.Space]) := by
      unfold pushBlock vecRepeat
      rw [if_pos (by omega), Prog.ok_bind, if_pos (by omega)]
    have h2 : pushBlockT ws st a = .ok (st ++ List.replicate a .Fill ++ [.Space]) := by
      unfold pushBlockT vecRepeatT
      rw [hL', if_pos (by omega), Prog.ok_bind, if_pos (by omega)]
    rw [forIn'_cons, forIn'_cons, h1, h2, Prog.ok_bind, Prog.ok_bind, ih _ (by simp; omega)]

theorem smallT_sum {ws : Nat} (h1 : 1 ≤ ws) {rule : List Nat} (h : SmallT ws rule) : (rule.map (· + 1)).sum + 3 < 2 ^ (8 * ws - 1) := by
  unfold SmallT at h
  exact Nat.lt_of_le_of_lt (Nat.le_mul_of_pos_right _ (by omega)) h

theorem smallT_reverse {ws : Nat} {rule : List Nat} (h : SmallT ws rule) : SmallT ws rule.reverse := by
  unfold SmallT at h ⊢
  rwa [List.map_reverse, List.sum_reverse]

theorem ruleStatesT_eq {ws : Nat} (h1 : 1 ≤ ws) (hL : 2 ^ (8 * ws - 1) ≤ 2 ^ 63) {rule : List Nat} (h : SmallT ws rule) :
    ruleStatesT ws rule = ruleStates rule := by
  have := smallT_sum h1 h
  unfold ruleStatesT ruleStates
  rw [pushBlocksT hL rule _ (by simp only [List.length_cons, List.length_nil]; omega)]

theorem newT_eq {ws : Nat} (h1 : 1 ≤ ws) (hL : 2 ^ (8 * ws - 1) ≤ 2 ^ 63) {rule : List Nat} (h : SmallT ws rule) :
    RuleMachine.newT ws rule = RuleMachine.new rule := by
  unfold RuleMachine.newT RuleMachine.new
  rw [ruleStatesT_eq h1 hL h, ruleStatesT_eq h1 hL (smallT_reverse h)]

theorem mapP_congr {α β : Type} {f g : α → Prog β} {l : List α} (h : ∀ x ∈ l, f x = g x) : mapP f l = mapP g l := by
  induction l with
  | nil => rfl
  | cons x l ih => rw [mapP, mapP, h x (by simp), ih fun y hy => h y (by simp [hy])]

theorem findLeftT_eq {ws : Nat} {st : List Node} (h : (st.length + 1) * (3 * ws) < 2 ^ (8 * ws - 1))
    (h' : (st.length + 1) * 24 < 2 ^ 63) (grid : List Square) : findLeftT ws st grid = findLeft st grid := by
  unfold findLeftT findLeft
  rw [vecRepeatT_eq h h']
  rfl

theorem lineBodyT_eq {ws : Nat} (oc : Bool) {left right : List Bool} {i : Nat} (h : i + 1 ≤ right.length) (s : LState) :
    lineBodyT ws oc left right s i = lineBody oc left right s i := by
  unfold lineBodyT lineBody
  rw [subW_ok (bits := 8 * ws) (show 1 ≤ right.length by omega), subW_ok (bits := 64) (show 1 ≤ right.length by omega)]
  simp only [Prog.ok_bind]
  rw [subW_ok (bits := 8 * ws) (show i ≤ right.length - 1 by omega), subW_ok (bits := 64) (show i ≤ right.length - 1 by omega)]

/-- Every answer of `find_left` is as long as the line. -/
theorem findLeft_length {rule : List Nat} (hs : Small rule) {st : List Node} (hst : St (kinds rule) st) {line : List Square}
    {bs : List Bool} (h : findLeft st line = .ok (some bs)) : bs.length = line.length := by
  by_cases hr : rule.head? = some 0
  · rw [findLeft_zero hr hs hst] at h; cases h
  · obtain ⟨o, h1, h2⟩ := findLeft_rule hr hs hst line
    rw [h] at h1
    cases h1
    exact h2.1.1.1

theorem machineT_eq {ws : Nat} (oc : Bool) {rule : List Nat} (hs : Small rule) (hT : SmallT ws rule) {m : RuleMachine}
    (hm : IsMachine rule m) (grid : List Square) : m.rightLeftT ws oc grid = m.rightLeft oc grid := by
  have hb : ∀ {r : List Nat} {st : List Node}, Small r → SmallT ws r → St (kinds r) st →
      (st.length + 1) * (3 * ws) < 2 ^ (8 * ws - 1) ∧ (st.length + 1) * 24 < 2 ^ 63 := by
    intro r st h1 h2 h3
    rw [h3.len, kinds_length]
    unfold Small at h1
    unfold SmallT at h2
    refine ⟨Nat.lt_of_le_of_lt (Nat.mul_le_mul_right _ (by omega)) h2, by omega⟩
  have hl := hb hs hT hm.1
  have hr := hb (small_reverse hs) (smallT_reverse hT) hm.2
  unfold RuleMachine.rightLeftT RuleMachine.rightLeft
  rw [findLeftT_eq hl.1 hl.2, findLeftT_eq hr.1 hr.2]
  cases e : findLeft m.leftStates grid with
  | panic => rfl
  | ub => rfl
  | diverge => rfl
  | ok o =>
    cases o with
    | none => rfl
    | some left =>
      cases e' : findLeft m.rightStates grid.reverse with
      | panic => rfl
      | ub => rfl
      | diverge => rfl
      | ok o' =>
        cases o' with
        | none => rfl
        | some right =>
          have h1 := findLeft_length hs hm.1 e
          have h2 := findLeft_length (small_reverse hs) hm.2 e'
          rw [List.length_reverse] at h2
          simp only [Prog.ok_bind]
          rw [forIn'_congr_mem (b2 := lineBody oc left right)]
          intro s i hi
          rw [List.mem_range] at hi
          exact lineBodyT_eq oc (by omega) s

/-- A machine of a rule within the limits. -/
def Good (ws : Nat) (m : RuleMachine) : Prop := ∃ rule, Small rule ∧ SmallT ws rule ∧ IsMachine rule m

theorem lineStepT_eq {ws : Nat} (oc : Bool) {m : RuleMachine} (hm : Good ws m) (ps : List Nat) (s : List Square × Bool) :
    lineStepT ws oc m ps s = lineStep oc m ps s := by
  obtain ⟨rule, h1, h2, h3⟩ := hm
  unfold lineStepT lineStep
  rw [machineT_eq oc h1 h2 h3]
  rfl

theorem colLoopT_eq {ws : Nat} (oc : Bool) (width : Nat) {l : List (RuleMachine × Nat)} (hl : ∀ p ∈ l, Good ws p.1)
    (s : List Square × Bool) : colLoopT ws oc width l s = colLoop oc width l s := by
  induction l generalizing s with
  | nil => rfl
  | cons p l ih =>
    obtain ⟨m, index⟩ := p
    rw [colLoopT, colLoop]
    congr 1
    funext ps
    rw [lineStepT_eq oc (hl (m, index) (by simp))]
    congr 1
    funext r
    cases r with
    | error e => rfl
    | ok s => exact ih (fun p hp => hl p (by simp [hp])) s

theorem rowLoopT_eq {ws : Nat} (hB : 2 ^ (8 * ws) ≤ 2 ^ 64) (oc : Bool) {width height : Nat} (hh : height < 2 ^ (8 * ws))
    (hn : width * height < 2 ^ (8 * ws)) {l : List (RuleMachine × Nat)}
    (hl : ∀ p ∈ l, Good ws p.1 ∧ p.2 < height) (s : List Square × Bool) : rowLoopT ws oc width l s = rowLoop oc width l s := by
  induction l generalizing s with
  | nil => rfl
  | cons p l ih =>
    obtain ⟨m, index⟩ := p
    have hi := (hl (m, index) (by simp)).2
    simp only at hi
    have h1 : width * (index + 1) ≤ width * height := Nat.mul_le_mul_left _ hi
    have h2 : width * index ≤ width * height := Nat.mul_le_mul_left _ (by omega)
    have hp : rowPositionsT ws oc s.1.length width index = rowPositions oc s.1.length width index := by
      unfold rowPositionsT rowPositions
      generalize hBe : 2 ^ (8 * ws) = B at *
      rw [mulW_ok (bits := 8 * ws) (by rw [hBe]; omega), mulW_ok (bits := 64) (show width * index < 2 ^ 64 by omega),
        addW_ok (bits := 8 * ws) (by rw [hBe]; omega), addW_ok (bits := 64) (show index + 1 < 2 ^ 64 by omega)]
      simp only [Prog.ok_bind]
      rw [mulW_ok (bits := 8 * ws) (by rw [hBe]; omega), mulW_ok (bits := 64) (show width * (index + 1) < 2 ^ 64 by omega)]
    rw [rowLoopT, rowLoop, hp]
    congr 1
    funext ps
    rw [lineStepT_eq oc (hl (m, index) (by simp)).1]
    congr 1
    funext r
    cases r with
    | error e => rfl
    | ok s => exact ih (fun p hp => hl p (by simp [hp])) s

theorem good_of {ws : Nat} {rules : List (List Nat)} {ms : List RuleMachine} (h : List.Forall₂ IsMachine rules ms)
    (hs : ∀ r ∈ rules, Small r ∧ SmallT ws r) : ∀ p ∈ ms.zipIdx, Good ws p.1 ∧ p.2 < rules.length := by
  rintro ⟨m, i⟩ hp
  have hp' := List.mem_zipIdx_iff_getElem?.mp hp
  obtain ⟨hi, he⟩ := List.getElem?_eq_some_iff.mp hp'
  have hi' : i < rules.length := by rw [h.length_eq]; exact hi
  have := List.forall₂_iff_get.mp h
  have hm := this.2 i hi' hi
  simp only [List.get_eq_getElem] at hm
  simp only at he
  rw [he] at hm
  exact ⟨⟨_, (hs _ (List.getElem_mem hi')).1, (hs _ (List.getElem_mem hi')).2, hm⟩, hi'⟩

theorem solveT_eq {ws : Nat} (h1 : 1 ≤ ws) (hB : 2 ^ (8 * ws) ≤ 2 ^ 64) (hL : 2 ^ (8 * ws - 1) ≤ 2 ^ 63) (oc : Bool)
    {col row : List (List Nat)} (hs : ∀ r ∈ col ++ row, Small r ∧ SmallT ws r) (hh : row.length < 2 ^ (8 * ws))
    (hn : col.length * row.length < 2 ^ (8 * ws - 1)) : solveNonogramT ws oc col row = solveNonogram oc col row := by
  have hlt : 2 ^ (8 * ws - 1) ≤ 2 ^ (8 * ws) := Nat.pow_le_pow_right (by omega) (by omega)
  have hn' : col.length * row.length < 2 ^ (8 * ws) := Nat.lt_of_lt_of_le hn hlt
  have hR : ∀ grid, rightLeftT ws oc grid col row = rightLeft oc grid col row := by
    intro grid
    have hc : ∀ r ∈ col, Small r ∧ SmallT ws r := fun r hr => hs r (List.mem_append_left _ hr)
    have hr : ∀ r ∈ row, Small r ∧ SmallT ws r := fun r hr => hs r (List.mem_append_right _ hr)
    obtain ⟨cs, e1, f1⟩ := machines (fun r h => (hc r h).1)
    obtain ⟨rs, e2, f2⟩ := machines (fun r h => (hr r h).1)
    unfold rightLeftT rightLeft
    simp only
    rw [mapP_congr (g := RuleMachine.new) (fun r h => newT_eq h1 hL (hc r h).2),
      mapP_congr (g := RuleMachine.new) (fun r h => newT_eq h1 hL (hr r h).2), e1, e2]
    simp only [Prog.ok_bind]
    congr 1
    funext g
    unfold passBodyT passBody
    rw [colLoopT_eq oc _ (fun p hp => (good_of f1 hc p hp).1)]
    congr 1
    funext r
    cases r with
    | error e => rfl
    | ok s =>
      simp only
      rw [rowLoopT_eq hB oc hh hn' (good_of f2 hr)]
      rfl
  unfold solveNonogramT solveNonogram
  simp only
  rw [mulW_ok hn', mulW_ok (bits := 64) (by omega)]
  simp only [Prog.ok_bind]
  rw [vecRepeatT_eq (e' := 1) (by omega) (by omega)]
  congr 1
  funext grid
  rw [hR]
  rfl

/-! ### Numbers that no vector can hold -/

/-- The program panics, or returns and `P` holds. -/
def Or {α : Type} (x : Prog α) (P : Prop) : Prop := x = .panic ∨ (∃ a, x = .ok a) ∧ P

theorem pushBlocksT_or {ws : Nat} (rule : List Nat) (st : List Node) :
    Or (forIn' rule st (pushBlockT ws)) (∀ v ∈ rule, v < 2 ^ (8 * ws - 1)) := by
  induction rule generalizing st with
  | nil => exact .inr ⟨⟨st, rfl⟩, by simp⟩
  | cons a r ih =>
    rw [forIn'_cons]
    by_cases ha : a < 2 ^ (8 * ws - 1)
    · have hv : vecRepeatT ws 1 Node.Fill a = .ok (List.replicate a .Fill) := by
        unfold vecRepeatT; rw [if_pos (by omega)]
      unfold pushBlockT
      rw [hv, Prog.ok_bind]
      split
      · rw [Prog.ok_bind]
        rcases ih (st ++ List.replicate a .Fill ++ [.Space]) with h | ⟨h1, h2⟩
        · exact .inl h
        · refine .inr ⟨h1, ?_⟩
          intro v hv
          rcases List.mem_cons.mp hv with rfl | hv
          · exact ha
          · exact h2 v hv
      · exact .inl rfl
    · left
      have hv : vecRepeatT ws 1 Node.Fill a = .panic := by
        unfold vecRepeatT; rw [if_neg (by omega)]
      unfold pushBlockT
      rw [hv]
      rfl

theorem ruleStatesT_or {ws : Nat} (rule : List Nat) : Or (ruleStatesT ws rule) (∀ v ∈ rule, v < 2 ^ (8 * ws - 1)) := by
  unfold ruleStatesT
  rcases pushBlocksT_or rule [Node.Start, Node.End] with h | ⟨⟨st, h1⟩, h2⟩
  · left; rw [h]; rfl
  · rw [h1, Prog.ok_bind]
    unfold setP
    split
    · exact .inr ⟨⟨_, rfl⟩, h2⟩
    · exact .inl rfl

theorem newT_or {ws : Nat} (rule : List Nat) : Or (RuleMachine.newT ws rule) (∀ v ∈ rule, v < 2 ^ (8 * ws - 1)) := by
  unfold RuleMachine.newT
  rcases ruleStatesT_or (ws := ws) rule with h | ⟨⟨st, h1⟩, h2⟩
  · left; rw [h]; rfl
  · rw [h1, Prog.ok_bind]
    rcases ruleStatesT_or (ws := ws) rule.reverse with h | ⟨⟨st', h3⟩, _⟩
    · left; rw [h]; rfl
    · rw [h3]; exact .inr ⟨⟨_, rfl⟩, h2⟩

theorem machinesT_or {ws : Nat} (rules : List (List Nat)) :
    Or (mapP (RuleMachine.newT ws) rules) (∀ r ∈ rules, ∀ v ∈ r, v < 2 ^ (8 * ws - 1)) := by
  induction rules with
  | nil => exact .inr ⟨⟨_, rfl⟩, by simp⟩
  | cons r rules ih =>
    rw [mapP]
    rcases newT_or (ws := ws) r with h | ⟨⟨m, h1⟩, h2⟩
    · left; rw [h]; rfl
    · rw [h1, Prog.ok_bind]
      rcases ih with h | ⟨⟨ms, h3⟩, h4⟩
      · left; rw [h]; rfl
      · rw [h3]
        refine .inr ⟨⟨_, rfl⟩, ?_⟩
        intro q hq
        rcases List.mem_cons.mp hq with rfl | hq
        · exact h2
        · exact h4 q hq

theorem solveT_huge {ws : Nat} (oc : Bool) {col row : List (List Nat)}
    (hv : ∃ r ∈ col ++ row, ∃ v ∈ r, 2 ^ (8 * ws - 1) ≤ v) : solveNonogramT ws oc col row = .panic := by
  obtain ⟨r, hr, v, hv, hle⟩ := hv
  have hR : ∀ grid, rightLeftT ws oc grid col row = .panic := by
    intro grid
    unfold rightLeftT
    simp only
    rcases machinesT_or (ws := ws) col with h | ⟨⟨cs, h1⟩, h2⟩
    · rw [h]; rfl
    · rw [h1, Prog.ok_bind]
      rcases machinesT_or (ws := ws) row with h | ⟨_, h4⟩
      · rw [h]; rfl
      · exfalso
        rcases List.mem_append.mp hr with hr | hr
        · exact absurd (h2 r hr v hv) (by omega)
        · exact absurd (h4 r hr v hv) (by omega)
  unfold solveNonogramT mulW vecRepeatT
  simp only
  split
  · rw [Prog.ok_bind]
    split
    · rw [Prog.ok_bind, hR]; rfl
    · rfl
  · split
    · rfl
    · rw [Prog.ok_bind]
      split
      · rw [Prog.ok_bind, hR]; rfl
      · rfl

/-! ### 64-bit targets -/

theorem push_64 : pushBlockT 8 = pushBlock := rfl
theorem states_64 : ruleStatesT 8 = ruleStates := rfl
theorem new_64 : RuleMachine.newT 8 = RuleMachine.new := rfl
theorem find_64 : findLeftT 8 = findLeft := rfl
theorem line_64 : lineBodyT 8 = lineBody := rfl
theorem machine_64 : RuleMachine.rightLeftT 8 = RuleMachine.rightLeft := by
  funext oc m g; unfold RuleMachine.rightLeftT RuleMachine.rightLeft; rw [find_64, line_64]; rfl
theorem step_64 : lineStepT 8 = lineStep := by
  funext oc m ps s; unfold lineStepT lineStep; rw [machine_64]; rfl
theorem cols_64 : colLoopT 8 = colLoop := by
  funext oc w l
  induction l with
  | nil => rfl
  | cons p l ih => obtain ⟨m, i⟩ := p; funext s; rw [colLoopT, colLoop, step_64, ih]; rfl
theorem rowAt_64 : rowPositionsT 8 = rowPositions := rfl
theorem rows_64 : rowLoopT 8 = rowLoop := by
  funext oc w l
  induction l with
  | nil => rfl
  | cons p l ih => obtain ⟨m, i⟩ := p; funext s; rw [rowLoopT, rowLoop, step_64, rowAt_64, ih]; rfl
theorem pass_64 : passBodyT 8 = passBody := by
  funext oc w c r g; unfold passBodyT passBody; rw [cols_64, rows_64]; rfl
theorem propagate_64 : rightLeftT 8 = rightLeft := by
  funext oc g c r; unfold rightLeftT rightLeft; rw [new_64, pass_64]
theorem solve_64 : solveNonogramT 8 = solveNonogram := by
  funext oc c r; unfold solveNonogramT solveNonogram; rw [propagate_64]; rfl

theorem digits_64 : parseDigitsT 8 = parseDigits := by
  funext a l
  induction l generalizing a with
  | nil => rfl
  | cons c l ih => rw [parseDigitsT, parseDigits, ih]
theorem usize_64 : parseUsizeT 8 = parseUsize := by
  funext l; unfold parseUsizeT parseUsize; rw [digits_64]; rfl
theorem fields_64 : parseFieldsT 8 = parseFields := by
  funext oc a l
  induction l generalizing a with
  | nil => rfl
  | cons c l ih =>
    rw [parseFieldsT, parseFields, usize_64]
    cases parseUsize c with
    | none => rfl
    | some v => simp only [ih]; rfl
theorem rule_64 : parseRuleT 8 = parseRule := by
  funext oc b l; unfold parseRuleT parseRule; rw [fields_64]; rfl
theorem all_64 : parseAllT 8 = parseAll := by
  funext oc b l
  induction l with
  | nil => rfl
  | cons c l ih => rw [parseAllT, parseAll, rule_64, ih]; rfl
theorem parse_64 : parseNonogramRulesT 8 = parseNonogramRules := by
  funext oc l b; unfold parseNonogramRulesT parseNonogramRules; rw [all_64]

end Nonogram.Target
