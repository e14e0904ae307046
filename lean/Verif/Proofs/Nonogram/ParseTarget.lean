import Verif.Model.NonogramTarget
import Verif.Spec.NonogramText
import Verif.Proofs.Nonogram.Parse

/-! `parse_nonogram_rules` for a `usize` of `sz` bytes: the proofs of `Proofs/Nonogram/Parse.lean`. -/
namespace Nonogram.ParseT
open Spec

variable {sz : Nat}

theorem parseDigits_iff (acc : Nat) (cs : List Char) (ha : acc < 2 ^ (8 * sz)) (n : Nat) :
    parseDigitsT sz acc cs = some n ↔
      (∀ c ∈ cs, c.isDigit = true) ∧ Nat.ofDigitChars 10 cs acc = n ∧ n < 2 ^ (8 * sz) := by
  induction cs generalizing acc with
  | nil =>
    simp only [parseDigitsT, List.not_mem_nil, false_implies, implies_true, true_and, Option.some.injEq,
      Nat.ofDigitChars_nil]
    constructor
    · rintro rfl; exact ⟨rfl, ha⟩
    · exact And.left
  | cons c cs ih =>
    rw [parseDigitsT, Nat.ofDigitChars_cons]
    have h0 : '0'.toNat = 48 := rfl
    rw [h0]
    have hge := ofDigitChars_ge cs (10 * acc + (c.toNat - 48))
    simp only [List.forall_mem_cons, isDigit_iff c]
    by_cases hd : 48 ≤ c.toNat ∧ c.toNat ≤ 57
    · rw [if_pos hd]
      by_cases h1 : acc * 10 + (c.toNat - 48) < 2 ^ (8 * sz)
      · rw [if_pos (by omega), if_pos h1, ih _ h1, Nat.mul_comm acc 10]
        simp only [hd, true_and]
      · rw [if_neg h1]
        have : (if acc * 10 < 2 ^ (8 * sz) then (none : Option Nat) else none) = none := by split <;> rfl
        rw [this]
        constructor
        · intro h; cases h
        · rintro ⟨_, h2, h3⟩; omega
    · rw [if_neg hd]
      constructor
      · intro h; cases h
      · rintro ⟨⟨h, _⟩, _⟩; exact absurd h hd

theorem parseUsize_iff (cs : List Char) (n : Nat) : parseUsizeT sz cs = some n ↔ (UsizeT sz) cs n := by
  have hplus : '+'.isDigit = false := by decide
  have key : ∀ ds, ds ≠ [] → (parseDigitsT sz 0 ds = some n ↔
      ds ≠ [] ∧ (∀ c ∈ ds, c.isDigit = true) ∧ Nat.ofDigitChars 10 ds 0 = n ∧ n < 2 ^ (8 * sz)) := by
    intro ds hne
    rw [parseDigits_iff 0 ds (Nat.two_pow_pos _)]
    simp [hne]
  unfold UsizeT
  cases cs with
  | nil =>
    simp only [parseUsizeT]
    constructor
    · intro h; cases h
    · rintro ⟨ds, h | h, hne, _⟩
      · exact absurd h.symm hne
      · cases h
  | cons c cs =>
    by_cases hc : c = '+'
    · subst hc
      cases cs with
      | nil =>
        simp only [parseUsizeT]
        constructor
        · intro h; cases h
        · rintro ⟨ds, h | h, hne, hd, _⟩
          · subst h
            have := hd '+' (by simp)
            rw [hplus] at this; cases this
          · simp only [List.cons.injEq, true_and] at h
            exact absurd h.symm hne
      | cons d cs =>
        have : parseUsizeT sz ('+' :: d :: cs) = parseDigitsT sz 0 (d :: cs) := rfl
        rw [this, key _ (by simp)]
        constructor
        · intro h; exact ⟨_, .inr rfl, h⟩
        · rintro ⟨ds, h | h, hne, hd, hr⟩
          · subst h
            have := hd '+' (by simp)
            rw [hplus] at this; cases this
          · simp only [List.cons.injEq, true_and] at h
            subst h
            exact ⟨hne, hd, hr⟩
    · have : parseUsizeT sz (c :: cs) = parseDigitsT sz 0 (c :: cs) := by
        unfold parseUsizeT
        split
        · rename_i h; cases h
        · rename_i h; simp only [List.cons.injEq] at h; exact absurd h.1 hc
        · rename_i h; simp only [List.cons.injEq] at h; exact absurd h.1 hc
        · rfl
      rw [this, key _ (by simp)]
      constructor
      · intro h; exact ⟨_, .inl rfl, h⟩
      · rintro ⟨ds, h | h, hne, hd, hr⟩
        · subst h; exact ⟨hne, hd, hr⟩
        · simp only [List.cons.injEq] at h; exact absurd h.1 hc

theorem parseUsize_none (cs : List Char) : parseUsizeT sz cs = none ↔ ¬ ∃ n, (UsizeT sz) cs n := by
  constructor
  · rintro h ⟨n, hn⟩
    rw [← parseUsize_iff, h] at hn; cases hn
  · intro h
    cases hp : parseUsizeT sz cs with
    | none => rfl
    | some n => exact absurd ⟨n, (parseUsize_iff cs n).mp hp⟩ h

theorem _root_.Nonogram.Spec.UsizeT.unique {cs : List Char} {m n : Nat} (h : (UsizeT sz) cs m) (h' : (UsizeT sz) cs n) : m = n := by
  rw [← parseUsize_iff] at h h'
  rw [h] at h'
  exact Option.some.inj h'

/-! ### Fields -/

/-- The sum that is kept in the variable `size`. -/
def wrapT (sz : Nat) (oc : Bool) (n : Nat) : Nat := if oc = true then n else n % 2 ^ (8 * sz)

theorem parseFields_spec (oc : Bool) (size : Nat) (hs : size < 2 ^ (8 * sz)) (xs : List (List Char)) :
    (∃ vs, List.Forall₂ (UsizeT sz) xs vs ∧ (oc = true → size + vs.sum < 2 ^ (8 * sz)) ∧
      parseFieldsT sz oc size xs = .ok (.ok (vs, wrapT sz oc (size + vs.sum)))) ∨
    (∃ pre f post, xs = pre ++ f :: post ∧ (∀ g ∈ pre, ∃ n, (UsizeT sz) g n) ∧ (¬ ∃ n, (UsizeT sz) f n) ∧
      (oc = true → ∀ vs, List.Forall₂ (UsizeT sz) pre vs → size + vs.sum < 2 ^ (8 * sz)) ∧
      parseFieldsT sz oc size xs = .ok (.error (.InvalidRule f))) ∨
    (oc = true ∧ (∃ pre post vs, xs = pre ++ post ∧ List.Forall₂ (UsizeT sz) pre vs ∧ 2 ^ (8 * sz) ≤ size + vs.sum) ∧
      parseFieldsT sz oc size xs = .panic) := by
  induction xs generalizing size with
  | nil =>
    left
    refine ⟨[], .nil, fun _ => by simpa using hs, ?_⟩
    simp only [parseFieldsT, List.sum_nil, Nat.add_zero, wrapT]
    rw [Nat.mod_eq_of_lt hs, ite_self]
  | cons x xs ih =>
    rw [parseFieldsT]
    cases hp : parseUsizeT sz x with
    | none =>
      right; left
      refine ⟨[], x, xs, rfl, by simp, (parseUsize_none x).mp hp, ?_, rfl⟩
      rintro _ vs hvs
      cases hvs
      simpa using hs
    | some v =>
      have hv := (parseUsize_iff x v).mp hp
      simp only
      have hadd : (oc = true ∧ 2 ^ (8 * sz) ≤ size + v ∧ addW oc (8 * sz) size v = .panic) ∨
          ((oc = true → size + v < 2 ^ (8 * sz)) ∧ ∃ s, s < 2 ^ (8 * sz) ∧ s = wrapT sz oc (size + v) ∧ addW oc (8 * sz) size v = .ok s) := by
        unfold addW wrapT
        by_cases h : size + v < 2 ^ (8 * sz)
        · right
          refine ⟨fun _ => h, _, h, ?_, by rw [if_pos h]⟩
          rw [Nat.mod_eq_of_lt h, ite_self]
        · cases oc with
          | true => left; refine ⟨rfl, by omega, by rw [if_neg h]; rfl⟩
          | false =>
            right
            refine ⟨by simp, (size + v) % 2 ^ (8 * sz), Nat.mod_lt _ (Nat.two_pow_pos _), rfl, by rw [if_neg h]; rfl⟩
      rcases hadd with ⟨ho, hle, ha⟩ | ⟨hno, s, hs', hsv, ha⟩
      · right; right
        refine ⟨ho, ⟨[x], xs, [v], rfl, .cons hv .nil, by simpa using hle⟩, ?_⟩
        rw [ha]; rfl
      · rw [ha, Prog.ok_bind]
        have hsum : ∀ t, oc = true → (s + t = size + (v + t)) := by
          intro t ho; rw [hsv, wrapT, if_pos ho]; omega
        rcases ih s hs' with ⟨vs, hf, hb, he⟩ | ⟨pre, f, post, rfl, h1, h2, h3, he⟩ | ⟨ho, ⟨pre, post, vs, rfl, h1, h2⟩, he⟩
        · left
          refine ⟨v :: vs, .cons hv hf, ?_, ?_⟩
          · intro ho; rw [List.sum_cons, ← hsum _ ho]; exact hb ho
          · rw [he, Prog.ok_bind]
            simp only
            congr 3
            rw [hsv, List.sum_cons]
            unfold wrapT
            cases oc
            · simp only [Bool.false_eq_true, if_false]; rw [Nat.mod_add_mod, Nat.add_assoc]
            · simp only [if_true]; omega
        · right; left
          refine ⟨x :: pre, f, post, rfl, ?_, h2, ?_, ?_⟩
          · intro g hg
            rcases List.mem_cons.mp hg with rfl | hg
            · exact ⟨v, hv⟩
            · exact h1 g hg
          · intro ho vs hvs
            cases hvs with
            | @cons _ w _ ws hw hws =>
              obtain rfl := hv.unique hw
              rw [List.sum_cons, ← hsum _ ho]
              exact h3 ho ws hws
          · rw [he]; rfl
        · right; right
          refine ⟨ho, ⟨x :: pre, post, v :: vs, rfl, .cons hv h1, ?_⟩, ?_⟩
          · rw [List.sum_cons, ← hsum _ ho]; exact h2
          · rw [he]; rfl

theorem Forall₂.usize_unique {xs : List (List Char)} {vs ws : List Nat} (h : List.Forall₂ (UsizeT sz) xs vs)
    (h' : List.Forall₂ (UsizeT sz) xs ws) : vs = ws := by
  induction h generalizing ws with
  | nil => cases h'; rfl
  | cons h _ ih =>
    cases h' with
    | cons h1 h2 => rw [h.unique h1, ih h2]

theorem _root_.Nonogram.Spec.NumbersT.unique {s : List Char} {vs ws : List Nat} (h : (NumbersT sz) s vs) (h' : (NumbersT sz) s ws) : vs = ws := by
  obtain ⟨f, h1, h2⟩ := h
  obtain ⟨f', h1', h2'⟩ := h'
  obtain rfl := h1.unique h1'
  exact Forall₂.usize_unique h2 h2'

theorem _root_.Nonogram.Spec.NumbersT.ne_nil {s : List Char} {vs : List Nat} (h : (NumbersT sz) s vs) : vs ≠ [] := by
  obtain ⟨f, h1, h2⟩ := h
  rintro rfl
  cases h2
  exact h1.1 rfl

/-- The size that a rule is compared with. -/
def sizeOfT (sz : Nat) (oc : Bool) (vs : List Nat) : Nat := wrapT sz oc (minLength vs)

theorem parseRule_spec (oc : Bool) (bound : Nat) (text : List Char) :
    (∃ vs, (NumbersT sz) text vs ∧ (oc = true → ¬ (OverflowsT sz) text) ∧ sizeOfT sz oc vs ≤ bound ∧ parseRuleT sz oc bound text = .ok (.ok vs)) ∨
    (∃ f, (BadFieldT sz) text f ∧ (oc = true → ¬ (OverflowsT sz) text) ∧ parseRuleT sz oc bound text = .ok (.error (.InvalidRule f))) ∨
    (∃ vs, (NumbersT sz) text vs ∧ (oc = true → ¬ (OverflowsT sz) text) ∧ bound < sizeOfT sz oc vs ∧
      parseRuleT sz oc bound text = .ok (.error .InvalidRuleDimension)) ∨
    (oc = true ∧ (OverflowsT sz) text ∧ parseRuleT sz oc bound text = .panic) := by
  have hp := splitOn_pieces ',' text
  have hnil : splitOn ',' text ≠ [] := hp.1
  generalize splitOn ',' text = fields at hp hnil
  have hsplit : splitOn ',' text = fields := (splitOn_eq_iff _ _ _).mpr hp
  unfold parseRuleT
  rw [hsplit]
  rcases parseFields_spec oc 0 (Nat.two_pow_pos _) fields with ⟨vs, hf, hb, he⟩ | ⟨pre, f, post, hx, h1, h2, h3, he⟩ |
    ⟨ho, ⟨pre, post, vs, hx, h1, h2⟩, he⟩
  · rw [he, Prog.ok_bind]
    simp only [Nat.zero_add] at hb he ⊢
    have hvl : vs.length = fields.length := hf.length_eq.symm
    have hv1 : 1 ≤ vs.length := by
      rw [hvl]; exact List.length_pos_iff.mpr hnil
    have hempty : vs.isEmpty = false := by
      cases vs with
      | nil => simp at hv1
      | cons => rfl
    rw [subW_ok hv1, Prog.ok_bind]
    have hnum : (NumbersT sz) text vs := ⟨fields, hp, hf⟩
    have hover : oc = true → minLength vs < 2 ^ (8 * sz) → ¬ (OverflowsT sz) text := by
      rintro ho hm ⟨pre', post', ws, hp', hf', hor⟩
      obtain rfl := hp'.unique hp
      have hsum : ws.sum ≤ vs.sum := by
        obtain ⟨us, us', h1, h2, rfl⟩ : ∃ us us', List.Forall₂ (UsizeT sz) pre' us ∧ List.Forall₂ (UsizeT sz) post' us' ∧ vs = us ++ us' := by
          have hh := hf
          rw [← List.take_append_drop pre'.length vs]
          have hlen : pre'.length ≤ vs.length := by rw [hvl]; simp
          refine ⟨vs.take pre'.length, vs.drop pre'.length, ?_, ?_, rfl⟩
          · have := List.forall₂_take pre'.length hh
            simpa using this
          · have := List.forall₂_drop pre'.length hh
            simpa using this
        rw [Forall₂.usize_unique hf' h1, List.sum_append]; omega
      rcases hor with h | ⟨rfl, h⟩
      · unfold minLength at hm; omega
      · rw [List.append_nil] at hf
        rw [Forall₂.usize_unique hf' hf] at h
        omega
    by_cases hw : wrapT sz oc vs.sum + (vs.length - 1) < 2 ^ (8 * sz)
    · rw [addW_ok hw, Prog.ok_bind, hempty]
      have hsz : sizeOfT sz oc vs = wrapT sz oc vs.sum + (vs.length - 1) := by
        unfold sizeOfT wrapT minLength at *
        cases oc
        · simp only [Bool.false_eq_true, if_false] at hw ⊢; rw [← Nat.mod_add_mod, Nat.mod_eq_of_lt hw]
        · rfl
      have hno : oc = true → ¬ (OverflowsT sz) text := fun ho => hover ho (by
        rw [wrapT, if_pos ho] at hw; exact hw)
      by_cases hbd : bound < wrapT sz oc vs.sum + (vs.length - 1)
      · right; right; left
        refine ⟨vs, hnum, hno, by rw [hsz]; exact hbd, ?_⟩
        rw [if_pos (.inr hbd)]
      · left
        refine ⟨vs, hnum, hno, by rw [hsz]; omega, ?_⟩
        rw [if_neg (by simp; omega)]
    · cases oc with
      | true =>
        right; right; right
        refine ⟨rfl, ⟨fields, [], vs, by rwa [List.append_nil], hf, .inr ⟨rfl, ?_⟩⟩, ?_⟩
        · rw [wrapT, if_pos rfl] at hw; unfold minLength; omega
        · unfold addW; rw [if_neg hw]; rfl
      | false =>
        have hadd : addW false (8 * sz) (wrapT sz false vs.sum) (vs.length - 1) = .ok (sizeOfT sz false vs) := by
          unfold addW; rw [if_neg hw]
          simp only [Bool.false_eq_true, if_false, sizeOfT, wrapT, minLength]
          congr 1; rw [Nat.mod_add_mod]
        rw [hadd, Prog.ok_bind, hempty]
        by_cases hbd : bound < sizeOfT sz false vs
        · right; right; left
          refine ⟨vs, hnum, by simp, hbd, ?_⟩
          rw [if_pos (.inr hbd)]
        · left
          refine ⟨vs, hnum, by simp, by omega, ?_⟩
          rw [if_neg (by simp; omega)]
  · right; left
    subst hx
    refine ⟨f, ⟨pre, post, hp, h1, h2⟩, ?_, ?_⟩
    · rintro ho ⟨pre', post', ws, hp', hf', hor⟩
      have heq := hp'.unique hp
      -- the fields read before the bad one form a prefix
      have hpref : ∃ t, pre = pre' ++ t ∧ post' ≠ [] := by
        have hlt : pre'.length ≤ pre.length := by
          by_contra hlt
          apply h2
          have hm : f ∈ pre' := by
            have h' : pre'[pre.length]? = some f := by
              have h1 := congrArg (fun l => l[pre.length]?) heq
              simp only [List.getElem?_append_left (show pre.length < pre'.length by omega),
                List.getElem?_append_right (Nat.le_refl _), Nat.sub_self, List.getElem?_cons_zero] at h1
              exact h1
            exact List.mem_of_getElem? h'
          obtain ⟨i, hi⟩ := List.getElem?_of_mem hm
          obtain ⟨hi1, hi2⟩ := List.getElem?_eq_some_iff.mp hi
          rw [List.forall₂_iff_get] at hf'
          refine ⟨ws.get ⟨i, by rw [← hf'.1]; exact hi1⟩, ?_⟩
          have := hf'.2 i hi1 (by rw [← hf'.1]; exact hi1)
          simp only [List.get_eq_getElem, hi2] at this ⊢
          exact this
        obtain ⟨t, ht⟩ : pre' <+: pre := List.prefix_of_prefix_length_le (l₃ := pre ++ f :: post)
          ⟨post', heq⟩ ⟨f :: post, rfl⟩ hlt
        refine ⟨t, ht.symm, ?_⟩
        rintro rfl
        have := congrArg List.length heq
        simp at this; omega
      obtain ⟨t, rfl, hpost⟩ := hpref
      rcases hor with h | ⟨h, _⟩
      · have hall : ∀ (l : List (List Char)), (∀ g ∈ l, ∃ n, (UsizeT sz) g n) → ∃ us, List.Forall₂ (UsizeT sz) l us := by
          intro l hl
          induction l with
          | nil => exact ⟨[], .nil⟩
          | cons a l ih =>
            obtain ⟨n, hn⟩ := hl a (by simp)
            obtain ⟨us, hus⟩ := ih (fun g hg => hl g (by simp [hg]))
            exact ⟨n :: us, .cons hn hus⟩
        obtain ⟨us, hus⟩ := hall t (fun g hg => h1 g (by simp [hg]))
        have := h3 ho (ws ++ us) (List.rel_append hf' hus)
        rw [List.sum_append] at this
        omega
      · exact hpost h
    · rw [he]; rfl
  · right; right; right
    refine ⟨ho, ⟨pre, post, vs, by rw [← hx]; exact hp, h1, .inl (by simpa using h2)⟩, ?_⟩
    rw [he]; rfl

/-! ### Rules -/

theorem parseAll_spec (oc : Bool) (bound : Nat) (parts : List (List Char)) :
    (∃ rules, List.Forall₂ (fun part vs => (NumbersT sz) part vs ∧ sizeOfT sz oc vs ≤ bound) parts rules ∧
      (oc = true → ∀ p ∈ parts, ¬ (OverflowsT sz) p) ∧ parseAllT sz oc bound parts = .ok (.ok rules)) ∨
    (∃ pre part post e, parts = pre ++ part :: post ∧ (∀ p ∈ pre, ∃ vs, (NumbersT sz) p vs ∧ sizeOfT sz oc vs ≤ bound) ∧
      ((∃ f, (BadFieldT sz) part f ∧ e = .InvalidRule f) ∨
       (∃ vs, (NumbersT sz) part vs ∧ bound < sizeOfT sz oc vs ∧ e = .InvalidRuleDimension)) ∧
      (oc = true → ∀ p ∈ pre ++ [part], ¬ (OverflowsT sz) p) ∧ parseAllT sz oc bound parts = .ok (.error e)) ∨
    (oc = true ∧ (∃ pre part post, parts = pre ++ part :: post ∧ (∀ p ∈ pre, ∃ vs, (NumbersT sz) p vs ∧ sizeOfT sz oc vs ≤ bound) ∧
      (∀ p ∈ pre, ¬ (OverflowsT sz) p) ∧ (OverflowsT sz) part) ∧ parseAllT sz oc bound parts = .panic) := by
  induction parts with
  | nil => exact .inl ⟨[], .nil, by simp, rfl⟩
  | cons x xs ih =>
    rw [parseAllT]
    rcases parseRule_spec oc bound x with ⟨vs, h1, h2, h3, he⟩ | ⟨f, h1, h2, he⟩ | ⟨vs, h1, h2, h3, he⟩ | ⟨ho, h1, he⟩
    · rw [he, Prog.ok_bind]
      simp only
      rcases ih with ⟨rules, g1, g2, ge⟩ | ⟨pre, part, post, e, rfl, g1, g2, g3, ge⟩ |
        ⟨ho, ⟨pre, part, post, rfl, g1, g2, g3⟩, ge⟩
      · left
        refine ⟨vs :: rules, .cons ⟨h1, h3⟩ g1, ?_, ?_⟩
        · intro ho p hp
          rcases List.mem_cons.mp hp with rfl | hp
          · exact h2 ho
          · exact g2 ho p hp
        · rw [ge]; rfl
      · right; left
        refine ⟨x :: pre, part, post, e, rfl, ?_, g2, ?_, ?_⟩
        · intro p hp
          rcases List.mem_cons.mp hp with rfl | hp
          · exact ⟨vs, h1, h3⟩
          · exact g1 p hp
        · intro ho p hp
          rw [List.cons_append] at hp
          rcases List.mem_cons.mp hp with rfl | hp
          · exact h2 ho
          · exact g3 ho p hp
        · rw [ge]; rfl
      · right; right
        refine ⟨ho, ⟨x :: pre, part, post, rfl, ?_, ?_, g3⟩, ?_⟩
        · intro p hp
          rcases List.mem_cons.mp hp with rfl | hp
          · exact ⟨vs, h1, h3⟩
          · exact g1 p hp
        · intro p hp
          rcases List.mem_cons.mp hp with rfl | hp
          · exact h2 ho
          · exact g2 p hp
        · rw [ge]; rfl
    · right; left
      refine ⟨[], x, xs, _, rfl, by simp, .inl ⟨f, h1, rfl⟩, ?_, ?_⟩
      · intro ho p hp
        simp only [List.nil_append, List.mem_singleton] at hp
        subst hp; exact h2 ho
      · rw [he]; rfl
    · right; left
      refine ⟨[], x, xs, _, rfl, by simp, .inr ⟨vs, h1, h3, rfl⟩, ?_, ?_⟩
      · intro ho p hp
        simp only [List.nil_append, List.mem_singleton] at hp
        subst hp; exact h2 ho
      · rw [he]; rfl
    · right; right
      refine ⟨ho, ⟨[], x, xs, rfl, by simp, by simp, h1⟩, ?_⟩
      rw [he]; rfl

/-! ### Parsing, read backwards -/

theorem numbers_not_bad {text f : List Char} {vs : List Nat} (h : (NumbersT sz) text vs) (hb : (BadFieldT sz) text f) : False := by
  obtain ⟨fields, h1, h2⟩ := h
  obtain ⟨pre, post, h3, _, h5⟩ := hb
  obtain rfl := h1.unique h3
  have : ∀ (l : List (List Char)) us, List.Forall₂ (UsizeT sz) l us → ∀ g ∈ l, ∃ n, (UsizeT sz) g n := by
    intro l us hl
    induction hl with
    | nil => intro g hg; cases hg
    | cons h _ ih =>
      intro g hg
      rcases List.mem_cons.mp hg with rfl | hg
      · exact ⟨_, h⟩
      · exact ih g hg
  exact h5 (this _ _ h2 f (by simp))

theorem bad_unique {text f f' : List Char} (h : (BadFieldT sz) text f) (h' : (BadFieldT sz) text f') : f = f' := by
  obtain ⟨pre, post, h1, h2, h3⟩ := h
  obtain ⟨pre', post', h1', h2', h3'⟩ := h'
  have heq := h1.unique h1'
  have hlen : pre.length = pre'.length := by
    rcases Nat.lt_trichotomy pre.length pre'.length with hl | hl | hl
    · exfalso
      have h := congrArg (fun l => l[pre.length]?) heq
      simp only [List.getElem?_append_left hl, List.getElem?_append_right (Nat.le_refl _), Nat.sub_self,
        List.getElem?_cons_zero] at h
      exact h3 (h2' f (List.mem_of_getElem? h.symm))
    · exact hl
    · exfalso
      have h := congrArg (fun l => l[pre'.length]?) heq
      simp only [List.getElem?_append_left hl, List.getElem?_append_right (Nat.le_refl _), Nat.sub_self,
        List.getElem?_cons_zero] at h
      exact h3' (h2 f' (List.mem_of_getElem? h))
  have := List.append_inj heq hlen
  simp only [List.cons.injEq] at this
  exact this.2.1

theorem parseRule_num (oc : Bool) (bound : Nat) {text : List Char} {vs : List Nat} (h : (NumbersT sz) text vs)
    (ho : oc = true → ¬ (OverflowsT sz) text) :
    parseRuleT sz oc bound text = .ok (if sizeOfT sz oc vs ≤ bound then .ok vs else .error .InvalidRuleDimension) := by
  rcases parseRule_spec oc bound text with ⟨ws, h1, _, h3, he⟩ | ⟨f, h1, _, he⟩ | ⟨ws, h1, _, h3, he⟩ | ⟨h0, h1, he⟩
  · obtain rfl := h.unique h1
    rw [he, if_pos h3]
  · exact absurd h1 (fun hb => numbers_not_bad h hb)
  · obtain rfl := h.unique h1
    rw [he, if_neg (by omega)]
  · exact absurd h1 (ho h0)

theorem parseRule_bad (oc : Bool) (bound : Nat) {text f : List Char} (h : (BadFieldT sz) text f)
    (ho : oc = true → ¬ (OverflowsT sz) text) : parseRuleT sz oc bound text = .ok (.error (.InvalidRule f)) := by
  rcases parseRule_spec oc bound text with ⟨ws, h1, _, h3, he⟩ | ⟨f', h1, _, he⟩ | ⟨ws, h1, _, h3, he⟩ | ⟨h0, h1, he⟩
  · exact absurd h (fun hb => numbers_not_bad h1 hb)
  · rw [he, bad_unique h h1]
  · exact absurd h (fun hb => numbers_not_bad h1 hb)
  · exact absurd h1 (ho h0)

theorem parseRule_over (bound : Nat) {text : List Char} (h : (OverflowsT sz) text) : parseRuleT sz true bound text = .panic := by
  rcases parseRule_spec true bound text with ⟨ws, _, h2, _, _⟩ | ⟨f', _, h2, _⟩ | ⟨ws, _, h2, _, _⟩ | ⟨h0, h1, he⟩
  · exact absurd h (h2 rfl)
  · exact absurd h (h2 rfl)
  · exact absurd h (h2 rfl)
  · exact he

theorem parseAll_good (oc : Bool) (bound : Nat) {parts : List (List Char)} {rules : List (List Nat)}
    (h : List.Forall₂ (fun part vs => (NumbersT sz) part vs ∧ sizeOfT sz oc vs ≤ bound) parts rules)
    (ho : oc = true → ∀ p ∈ parts, ¬ (OverflowsT sz) p) : parseAllT sz oc bound parts = .ok (.ok rules) := by
  induction h with
  | nil => rfl
  | cons h _ ih =>
    rw [parseAllT, parseRule_num oc bound h.1 (fun h0 => ho h0 _ (by simp)), if_pos h.2, Prog.ok_bind]
    simp only
    rw [ih (fun h0 p hp => ho h0 p (by simp [hp]))]
    rfl

theorem parseAll_stop (oc : Bool) (bound : Nat) {pre post : List (List Char)} {part : List Char}
    (hpre : ∀ p ∈ pre, ∃ vs, (NumbersT sz) p vs ∧ sizeOfT sz oc vs ≤ bound) (ho : oc = true → ∀ p ∈ pre, ¬ (OverflowsT sz) p) :
    (parseRuleT sz oc bound part = .panic → parseAllT sz oc bound (pre ++ part :: post) = .panic) ∧
    ∀ e, parseRuleT sz oc bound part = .ok (.error e) → parseAllT sz oc bound (pre ++ part :: post) = .ok (.error e) := by
  induction pre with
  | nil =>
    constructor
    · intro h; rw [List.nil_append, parseAllT, h]; rfl
    · intro e h; rw [List.nil_append, parseAllT, h]; rfl
  | cons x pre ih =>
    obtain ⟨i1, i2⟩ := ih (fun p hp => hpre p (by simp [hp])) (fun h0 p hp => ho h0 p (by simp [hp]))
    obtain ⟨vs, h1, h2⟩ := hpre x (by simp)
    have hx := parseRule_num oc bound h1 (fun h0 => ho h0 x (by simp))
    rw [if_pos h2] at hx
    constructor
    · intro h; rw [List.cons_append, parseAllT, hx, Prog.ok_bind]; simp only; rw [i1 h]; rfl
    · intro e h; rw [List.cons_append, parseAllT, hx, Prog.ok_bind]; simp only; rw [i2 e h]; rfl

/-- A short rule does not overflow. -/
theorem not_overflows {text : List Char} {vs : List Nat} (h : (NumbersT sz) text vs) (hm : minLength vs < 2 ^ (8 * sz)) :
    ¬ (OverflowsT sz) text := by
  intro hov
  -- with overflow checks the parser either panics or accepts; it cannot panic on a short rule
  obtain ⟨fields, hp, hf⟩ := h
  obtain ⟨pre', post', ws, hp', hf', hor⟩ := hov
  obtain rfl := hp'.unique hp
  have h1 := List.forall₂_take pre'.length hf
  rw [List.take_left] at h1
  have h2 := Forall₂.usize_unique hf' h1
  have hsum : ws.sum ≤ vs.sum := by
    rw [h2]
    conv_rhs => rw [← List.take_append_drop pre'.length vs, List.sum_append]
    omega
  rcases hor with h | ⟨rfl, h⟩
  · unfold minLength at hm; omega
  · rw [List.append_nil] at hf
    rw [Forall₂.usize_unique hf' hf] at h
    omega

/-- The full account of the parser. -/
theorem parse_result (oc : Bool) (text : List Char) (bound : Nat) :
    (∃ r, parseNonogramRulesT sz oc text bound = .ok r ∧ (ParsesT sz) (sizeOfT sz oc) text bound r) ∨
    (oc = true ∧ parseNonogramRulesT sz oc text bound = .panic ∧ ∃ pre part post, Pieces ';' text (pre ++ part :: post) ∧
      (∀ p ∈ pre, ∃ vs, (NumbersT sz) p vs ∧ minLength vs ≤ bound) ∧ (OverflowsT sz) part) := by
  have hp := splitOn_pieces ';' text
  unfold parseNonogramRulesT
  rcases parseAll_spec oc bound (splitOn ';' text) with ⟨rules, h1, _, he⟩ | ⟨pre, part, post, e, hx, h1, h2, _, he⟩ |
    ⟨ho, ⟨pre, part, post, hx, h1, _, h3⟩, he⟩
  · exact .inl ⟨_, he, _, hp, h1⟩
  · rw [hx] at hp
    exact .inl ⟨_, he, pre, part, post, hp, h1, h2⟩
  · rw [hx] at hp
    subst ho
    exact .inr ⟨rfl, he, pre, part, post, hp, h1, h3⟩

/-- Without overflow, the parser returns what it should. -/
theorem parse_complete (oc : Bool) {text : List Char} {bound : Nat} {r : Except NonogramError (List (List Nat))}
    (h : (ParsesT sz) (sizeOfT sz oc) text bound r) (ho : oc = true → ∀ parts, Pieces ';' text parts → ∀ p ∈ parts, ¬ (OverflowsT sz) p) :
    parseNonogramRulesT sz oc text bound = .ok r := by
  unfold parseNonogramRulesT
  cases r with
  | ok rules =>
    obtain ⟨parts, hp, hf⟩ := h
    rw [(splitOn_eq_iff _ _ _).mpr hp]
    exact parseAll_good oc bound hf (fun h0 => ho h0 parts hp)
  | error e =>
    obtain ⟨pre, part, post, hp, hpre, he⟩ := h
    rw [(splitOn_eq_iff _ _ _).mpr hp]
    have hop : oc = true → ¬ (OverflowsT sz) part := fun h0 => ho h0 _ hp part (by simp)
    refine (parseAll_stop oc bound hpre (fun h0 p hp' => ho h0 _ hp p (by simp [hp']))).2 e ?_
    rcases he with ⟨f, hf, rfl⟩ | ⟨vs, hv, hlt, rfl⟩
    · exact parseRule_bad oc bound hf hop
    · rw [parseRule_num oc bound hv hop, if_neg (by omega)]

theorem parses_congr {s s' : List Nat → Nat} {text : List Char} {bound : Nat}
    (hs : ∀ parts, Pieces ';' text parts → ∀ p ∈ parts, ∀ vs, (NumbersT sz) p vs → s vs = s' vs)
    {r : Except NonogramError (List (List Nat))} (h : (ParsesT sz) s text bound r) : (ParsesT sz) s' text bound r := by
  cases r with
  | ok rules =>
    obtain ⟨parts, hp, hf⟩ := h
    refine ⟨parts, hp, ?_⟩
    have hs' := hs parts hp
    clear hp hs
    induction hf with
    | nil => exact .nil
    | cons h1 _ ih =>
      exact .cons ⟨h1.1, by rw [← hs' _ (by simp) _ h1.1]; exact h1.2⟩ (ih fun p hp => hs' p (by simp [hp]))
  | error e =>
    obtain ⟨pre, part, post, hp, hpre, he⟩ := h
    refine ⟨pre, part, post, hp, ?_, ?_⟩
    · intro p hpm
      obtain ⟨vs, h1, h2⟩ := hpre p hpm
      exact ⟨vs, h1, by rw [← hs _ hp p (by simp [hpm]) vs h1]; exact h2⟩
    · rcases he with he | ⟨vs, h1, h2, rfl⟩
      · exact .inl he
      · exact .inr ⟨vs, h1, by rw [← hs _ hp part (by simp) vs h1]; exact h2, rfl⟩

theorem size_eq {oc : Bool} {text : List Char} {vs : List Nat} (ho : oc = true ∨ ¬ (OverflowsT sz) text)
    (h : (NumbersT sz) text vs) : sizeOfT sz oc vs = minLength vs := by
  unfold sizeOfT wrapT
  rcases ho with rfl | ho
  · rfl
  · have : minLength vs < 2 ^ (8 * sz) := by
      by_contra hge
      obtain ⟨fields, hfp, hff⟩ := h
      exact ho ⟨fields, [], vs, by rwa [List.append_nil], hff, .inr ⟨rfl, by omega⟩⟩
    rw [Nat.mod_eq_of_lt this, ite_self]

end Nonogram.ParseT
