import Verif.Spec.Nonogram
import Mathlib.Data.List.Forall2
import Mathlib.Tactic.SplitIfs

/-! `parse_nonogram_rules`. -/
namespace Nonogram
open Spec

/-! ### Splitting -/

theorem splitOn_ne_nil (sep : Char) (s : List Char) : splitOn sep s ≠ [] := by
  induction s with
  | nil => simp [splitOn]
  | cons c s ih =>
    rw [splitOn]
    split
    · simp
    · split <;> simp

theorem intercalate_cons₂ (sep : Char) (p q : List Char) (ps : List (List Char)) :
    [sep].intercalate (p :: q :: ps) = p ++ sep :: [sep].intercalate (q :: ps) := by
  simp [List.intercalate, List.intersperse]

theorem intercalate_one (sep : Char) (p : List Char) : [sep].intercalate [p] = p := by
  simp [List.intercalate, List.intersperse]

theorem splitOn_pieces (sep : Char) (s : List Char) : Pieces sep s (splitOn sep s) := by
  refine ⟨splitOn_ne_nil _ _, ?_⟩
  induction s with
  | nil => simp [splitOn, intercalate_one]
  | cons c s ih =>
    have hne := splitOn_ne_nil sep s
    rw [splitOn]
    cases hs : splitOn sep s with
    | nil => exact absurd hs hne
    | cons p ps =>
      rw [hs] at ih
      by_cases hc : c = sep
      · rw [if_pos hc]
        refine ⟨?_, ?_⟩
        · intro q hq
          rcases List.mem_cons.mp hq with rfl | hq
          · simp
          · exact ih.1 q hq
        · rw [intercalate_cons₂, ih.2, hc]; rfl
      · rw [if_neg hc]
        simp only
        refine ⟨?_, ?_⟩
        · intro q hq
          rcases List.mem_cons.mp hq with rfl | hq
          · have := ih.1 p (by simp)
            simp only [List.mem_cons, not_or]
            exact ⟨fun h => hc h.symm, this⟩
          · exact ih.1 q (by simp [hq])
        · rw [← ih.2]
          cases ps with
          | nil => simp [intercalate_one]
          | cons q ps => rw [intercalate_cons₂, intercalate_cons₂]; rfl

theorem splitOn_append (sep : Char) {p : List Char} (h : sep ∉ p) :
    splitOn sep p = [p] ∧ ∀ s, splitOn sep (p ++ sep :: s) = p :: splitOn sep s := by
  induction p with
  | nil => exact ⟨rfl, fun s => by simp [splitOn]⟩
  | cons c p ih =>
    simp only [List.mem_cons, not_or] at h
    obtain ⟨h1, h2⟩ := ih h.2
    have hc : ¬ c = sep := fun e => h.1 e.symm
    constructor
    · rw [splitOn, if_neg hc, h1]
    · intro s
      rw [List.cons_append, splitOn, if_neg hc, h2]

theorem splitOn_eq_iff (sep : Char) (s : List Char) (ps : List (List Char)) : splitOn sep s = ps ↔ Pieces sep s ps := by
  constructor
  · rintro rfl; exact splitOn_pieces sep s
  · rintro ⟨hne, hs, rfl⟩
    induction ps with
    | nil => exact absurd rfl hne
    | cons p ps ih =>
      cases ps with
      | nil => rw [intercalate_one]; exact (splitOn_append sep (hs p (by simp))).1
      | cons q ps =>
        rw [intercalate_cons₂, (splitOn_append sep (hs p (by simp))).2,
          ih (by simp) (fun r hr => hs r (by simp [hr]))]

/-! ### Numbers -/

theorem isDigit_iff (c : Char) : c.isDigit = true ↔ 48 ≤ c.toNat ∧ c.toNat ≤ 57 := by
  simp only [Char.isDigit, Char.toNat, ge_iff_le, Bool.and_eq_true, decide_eq_true_eq, UInt32.le_iff_toNat_le]
  rfl

theorem ofDigitChars_ge (cs : List Char) (a : Nat) : a ≤ Nat.ofDigitChars 10 cs a := by
  induction cs generalizing a with
  | nil => simp
  | cons c cs ih =>
    rw [Nat.ofDigitChars_cons]
    exact Nat.le_trans (by omega) (ih _)

theorem parseDigits_iff (acc : Nat) (cs : List Char) (ha : acc < 2 ^ 64) (n : Nat) :
    parseDigits acc cs = some n ↔
      (∀ c ∈ cs, c.isDigit = true) ∧ Nat.ofDigitChars 10 cs acc = n ∧ n < 2 ^ 64 := by
  induction cs generalizing acc with
  | nil =>
    simp only [parseDigits, List.not_mem_nil, false_implies, implies_true, true_and, Option.some.injEq,
      Nat.ofDigitChars_nil]
    constructor
    · rintro rfl; exact ⟨rfl, ha⟩
    · exact And.left
  | cons c cs ih =>
    rw [parseDigits, Nat.ofDigitChars_cons]
    have h0 : '0'.toNat = 48 := rfl
    rw [h0]
    have hge := ofDigitChars_ge cs (10 * acc + (c.toNat - 48))
    simp only [List.forall_mem_cons, isDigit_iff c]
    by_cases hd : 48 ≤ c.toNat ∧ c.toNat ≤ 57
    · rw [if_pos hd]
      by_cases h1 : acc * 10 + (c.toNat - 48) < 2 ^ 64
      · rw [if_pos (by omega), if_pos h1, ih _ h1, Nat.mul_comm acc 10]
        simp only [hd, true_and]
      · rw [if_neg h1]
        have : (if acc * 10 < 2 ^ 64 then (none : Option Nat) else none) = none := by split <;> rfl
        rw [this]
        constructor
        · intro h; cases h
        · rintro ⟨_, h2, h3⟩; omega
    · rw [if_neg hd]
      constructor
      · intro h; cases h
      · rintro ⟨⟨h, _⟩, _⟩; exact absurd h hd

theorem parseUsize_iff (cs : List Char) (n : Nat) : parseUsize cs = some n ↔ Usize cs n := by
  have hplus : '+'.isDigit = false := by decide
  have key : ∀ ds, ds ≠ [] → (parseDigits 0 ds = some n ↔
      ds ≠ [] ∧ (∀ c ∈ ds, c.isDigit = true) ∧ Nat.ofDigitChars 10 ds 0 = n ∧ n < 2 ^ 64) := by
    intro ds hne
    rw [parseDigits_iff 0 ds (by decide)]
    simp [hne]
  unfold Usize
  cases cs with
  | nil =>
    simp only [parseUsize]
    constructor
    · intro h; cases h
    · rintro ⟨ds, h | h, hne, _⟩
      · exact absurd h.symm hne
      · cases h
  | cons c cs =>
    by_cases hc : c = '+'
    · subst hc
      cases cs with
      | nil =>
        simp only [parseUsize]
        constructor
        · intro h; cases h
        · rintro ⟨ds, h | h, hne, hd, _⟩
          · subst h
            have := hd '+' (by simp)
            rw [hplus] at this; cases this
          · simp only [List.cons.injEq, true_and] at h
            exact absurd h.symm hne
      | cons d cs =>
        have : parseUsize ('+' :: d :: cs) = parseDigits 0 (d :: cs) := rfl
        rw [this, key _ (by simp)]
        constructor
        · intro h; exact ⟨_, .inr rfl, h⟩
        · rintro ⟨ds, h | h, hne, hd, hr⟩
          · subst h
            have := hd '+' (by simp)
            rw [hplus] at this; cases this
          · simp only [List.cons.injEq, true_and] at h
            subst h
            exact ⟨hne, hd, hr⟩
    · have : parseUsize (c :: cs) = parseDigits 0 (c :: cs) := by
        unfold parseUsize
        split
        · rename_i h; cases h
        · rename_i h; simp only [List.cons.injEq] at h; exact absurd h.1 hc
        · rename_i h; simp only [List.cons.injEq] at h; exact absurd h.1 hc
        · rfl
      rw [this, key _ (by simp)]
      constructor
      · intro h; exact ⟨_, .inl rfl, h⟩
      · rintro ⟨ds, h | h, hne, hd, hr⟩
        · subst h; exact ⟨hne, hd, hr⟩
        · simp only [List.cons.injEq] at h; exact absurd h.1 hc

theorem parseUsize_none (cs : List Char) : parseUsize cs = none ↔ ¬ ∃ n, Usize cs n := by
  constructor
  · rintro h ⟨n, hn⟩
    rw [← parseUsize_iff, h] at hn; cases hn
  · intro h
    cases hp : parseUsize cs with
    | none => rfl
    | some n => exact absurd ⟨n, (parseUsize_iff cs n).mp hp⟩ h

theorem Spec.Usize.unique {cs : List Char} {m n : Nat} (h : Usize cs m) (h' : Usize cs n) : m = n := by
  rw [← parseUsize_iff] at h h'
  rw [h] at h'
  exact Option.some.inj h'

theorem toDigits_usize {n : Nat} (h : n < 2 ^ 64) : Usize (Nat.toDigits 10 n) n :=
  ⟨_, .inl rfl, Nat.toDigits_ne_nil, fun c hc => Nat.isDigit_of_mem_toDigits (by decide) (by decide) hc,
    Nat.ofDigitChars_ten_toDigits, h⟩

theorem Spec.Usize.lt {cs : List Char} {n : Nat} (h : Usize cs n) : n < 2 ^ 64 := by
  obtain ⟨_, _, _, _, _, h⟩ := h; exact h

/-! ### Fields -/

/-- The sum that is kept in the variable `size`. -/
def wrap (oc : Bool) (n : Nat) : Nat := if oc = true then n else n % 2 ^ 64

theorem parseFields_spec (oc : Bool) (size : Nat) (hs : size < 2 ^ 64) (xs : List (List Char)) :
    (∃ vs, List.Forall₂ Usize xs vs ∧ (oc = true → size + vs.sum < 2 ^ 64) ∧
      parseFields oc size xs = .ok (.ok (vs, wrap oc (size + vs.sum)))) ∨
    (∃ pre f post, xs = pre ++ f :: post ∧ (∀ g ∈ pre, ∃ n, Usize g n) ∧ (¬ ∃ n, Usize f n) ∧
      (oc = true → ∀ vs, List.Forall₂ Usize pre vs → size + vs.sum < 2 ^ 64) ∧
      parseFields oc size xs = .ok (.error (.InvalidRule f))) ∨
    (oc = true ∧ (∃ pre post vs, xs = pre ++ post ∧ List.Forall₂ Usize pre vs ∧ 2 ^ 64 ≤ size + vs.sum) ∧
      parseFields oc size xs = .panic) := by
  induction xs generalizing size with
  | nil =>
    left
    refine ⟨[], .nil, fun _ => by simpa using hs, ?_⟩
    simp only [parseFields, List.sum_nil, Nat.add_zero, wrap]
    rw [Nat.mod_eq_of_lt hs, ite_self]
  | cons x xs ih =>
    rw [parseFields]
    cases hp : parseUsize x with
    | none =>
      right; left
      refine ⟨[], x, xs, rfl, by simp, (parseUsize_none x).mp hp, ?_, rfl⟩
      rintro _ vs hvs
      cases hvs
      simpa using hs
    | some v =>
      have hv := (parseUsize_iff x v).mp hp
      simp only
      have hadd : (oc = true ∧ 2 ^ 64 ≤ size + v ∧ addW oc 64 size v = .panic) ∨
          ((oc = true → size + v < 2 ^ 64) ∧ ∃ s, s < 2 ^ 64 ∧ s = wrap oc (size + v) ∧ addW oc 64 size v = .ok s) := by
        unfold addW wrap
        by_cases h : size + v < 2 ^ 64
        · right
          refine ⟨fun _ => h, _, h, ?_, by rw [if_pos h]⟩
          rw [Nat.mod_eq_of_lt h, ite_self]
        · cases oc with
          | true => left; refine ⟨rfl, by omega, by rw [if_neg h]; rfl⟩
          | false =>
            right
            refine ⟨by simp, (size + v) % 2 ^ 64, Nat.mod_lt _ (by decide), rfl, by rw [if_neg h]; rfl⟩
      rcases hadd with ⟨ho, hle, ha⟩ | ⟨hno, s, hs', hsv, ha⟩
      · right; right
        refine ⟨ho, ⟨[x], xs, [v], rfl, .cons hv .nil, by simpa using hle⟩, ?_⟩
        rw [ha]; rfl
      · rw [ha, Prog.ok_bind]
        have hsum : ∀ t, oc = true → (s + t = size + (v + t)) := by
          intro t ho; rw [hsv, wrap, if_pos ho]; omega
        rcases ih s hs' with ⟨vs, hf, hb, he⟩ | ⟨pre, f, post, rfl, h1, h2, h3, he⟩ | ⟨ho, ⟨pre, post, vs, rfl, h1, h2⟩, he⟩
        · left
          refine ⟨v :: vs, .cons hv hf, ?_, ?_⟩
          · intro ho; rw [List.sum_cons, ← hsum _ ho]; exact hb ho
          · rw [he, Prog.ok_bind]
            simp only
            congr 3
            rw [hsv, List.sum_cons]
            unfold wrap
            cases oc
            · simp only [Bool.false_eq_true, if_false]; omega
            · simp only [if_true]; omega
        · right; left
          refine ⟨x :: pre, f, post, rfl, ?_, h2, ?_, ?_⟩
          · intro g hg
            rcases List.mem_cons.mp hg with rfl | hg
            · exact ⟨v, hv⟩
            · exact h1 g hg
          · intro ho vs hvs
            cases hvs with
            | @cons _ w _ ws hw hws =>
              obtain rfl := hv.unique hw
              rw [List.sum_cons, ← hsum _ ho]
              exact h3 ho ws hws
          · rw [he]; rfl
        · right; right
          refine ⟨ho, ⟨x :: pre, post, v :: vs, rfl, .cons hv h1, ?_⟩, ?_⟩
          · rw [List.sum_cons, ← hsum _ ho]; exact h2
          · rw [he]; rfl

theorem Forall₂.usize_unique {xs : List (List Char)} {vs ws : List Nat} (h : List.Forall₂ Usize xs vs)
    (h' : List.Forall₂ Usize xs ws) : vs = ws := by
  induction h generalizing ws with
  | nil => cases h'; rfl
  | cons h _ ih =>
    cases h' with
    | cons h1 h2 => rw [h.unique h1, ih h2]

theorem Spec.Pieces.unique {sep : Char} {s : List Char} {ps qs : List (List Char)} (h : Pieces sep s ps) (h' : Pieces sep s qs) :
    ps = qs := by
  rw [← splitOn_eq_iff] at h h'
  rw [← h, h']

theorem Spec.Numbers.unique {s : List Char} {vs ws : List Nat} (h : Numbers s vs) (h' : Numbers s ws) : vs = ws := by
  obtain ⟨f, h1, h2⟩ := h
  obtain ⟨f', h1', h2'⟩ := h'
  obtain rfl := h1.unique h1'
  exact Forall₂.usize_unique h2 h2'

theorem Spec.Numbers.ne_nil {s : List Char} {vs : List Nat} (h : Numbers s vs) : vs ≠ [] := by
  obtain ⟨f, h1, h2⟩ := h
  rintro rfl
  cases h2
  exact h1.1 rfl

/-- The size that a rule is compared with. -/
def sizeOf' (oc : Bool) (vs : List Nat) : Nat := wrap oc (minLength vs)

theorem parseRule_spec (oc : Bool) (bound : Nat) (text : List Char) :
    (∃ vs, Numbers text vs ∧ (oc = true → ¬ Overflows text) ∧ sizeOf' oc vs ≤ bound ∧ parseRule oc bound text = .ok (.ok vs)) ∨
    (∃ f, BadField text f ∧ (oc = true → ¬ Overflows text) ∧ parseRule oc bound text = .ok (.error (.InvalidRule f))) ∨
    (∃ vs, Numbers text vs ∧ (oc = true → ¬ Overflows text) ∧ bound < sizeOf' oc vs ∧
      parseRule oc bound text = .ok (.error .InvalidRuleDimension)) ∨
    (oc = true ∧ Overflows text ∧ parseRule oc bound text = .panic) := by
  have hp := splitOn_pieces ',' text
  have hnil : splitOn ',' text ≠ [] := hp.1
  generalize splitOn ',' text = fields at hp hnil
  have hsplit : splitOn ',' text = fields := (splitOn_eq_iff _ _ _).mpr hp
  unfold parseRule
  rw [hsplit]
  rcases parseFields_spec oc 0 (by decide) fields with ⟨vs, hf, hb, he⟩ | ⟨pre, f, post, hx, h1, h2, h3, he⟩ |
    ⟨ho, ⟨pre, post, vs, hx, h1, h2⟩, he⟩
  · rw [he, Prog.ok_bind]
    simp only [Nat.zero_add] at hb he ⊢
    have hvl : vs.length = fields.length := hf.length_eq.symm
    have hv1 : 1 ≤ vs.length := by
      rw [hvl]; exact List.length_pos_iff.mpr hnil
    have hempty : vs.isEmpty = false := by
      cases vs with
      | nil => simp at hv1
      | cons => rfl
    rw [subW_ok hv1, Prog.ok_bind]
    have hnum : Numbers text vs := ⟨fields, hp, hf⟩
    have hover : oc = true → minLength vs < 2 ^ 64 → ¬ Overflows text := by
      rintro ho hm ⟨pre', post', ws, hp', hf', hor⟩
      obtain rfl := hp'.unique hp
      have hsum : ws.sum ≤ vs.sum := by
        obtain ⟨us, us', h1, h2, rfl⟩ : ∃ us us', List.Forall₂ Usize pre' us ∧ List.Forall₂ Usize post' us' ∧ vs = us ++ us' := by
          have hh := hf
          rw [← List.take_append_drop pre'.length vs]
          have hlen : pre'.length ≤ vs.length := by rw [hvl]; simp
          refine ⟨vs.take pre'.length, vs.drop pre'.length, ?_, ?_, rfl⟩
          · have := List.forall₂_take pre'.length hh
            simpa using this
          · have := List.forall₂_drop pre'.length hh
            simpa using this
        rw [Forall₂.usize_unique hf' h1, List.sum_append]; omega
      rcases hor with h | ⟨rfl, h⟩
      · unfold minLength at hm; omega
      · rw [List.append_nil] at hf
        rw [Forall₂.usize_unique hf' hf] at h
        omega
    by_cases hw : wrap oc vs.sum + (vs.length - 1) < 2 ^ 64
    · rw [addW_ok hw, Prog.ok_bind, hempty]
      have hsz : sizeOf' oc vs = wrap oc vs.sum + (vs.length - 1) := by
        unfold sizeOf' wrap minLength at *
        cases oc
        · simp only [Bool.false_eq_true, if_false] at hw ⊢; omega
        · rfl
      have hno : oc = true → ¬ Overflows text := fun ho => hover ho (by
        rw [wrap, if_pos ho] at hw; exact hw)
      by_cases hbd : bound < wrap oc vs.sum + (vs.length - 1)
      · right; right; left
        refine ⟨vs, hnum, hno, by rw [hsz]; exact hbd, ?_⟩
        rw [if_pos (.inr hbd)]
      · left
        refine ⟨vs, hnum, hno, by rw [hsz]; omega, ?_⟩
        rw [if_neg (by simp; omega)]
    · cases oc with
      | true =>
        right; right; right
        refine ⟨rfl, ⟨fields, [], vs, by rwa [List.append_nil], hf, .inr ⟨rfl, ?_⟩⟩, ?_⟩
        · rw [wrap, if_pos rfl] at hw; unfold minLength; omega
        · unfold addW; rw [if_neg hw]; rfl
      | false =>
        have hadd : addW false 64 (wrap false vs.sum) (vs.length - 1) = .ok (sizeOf' false vs) := by
          unfold addW; rw [if_neg hw]
          simp only [Bool.false_eq_true, if_false, sizeOf', wrap, minLength]
          congr 1; omega
        rw [hadd, Prog.ok_bind, hempty]
        by_cases hbd : bound < sizeOf' false vs
        · right; right; left
          refine ⟨vs, hnum, by simp, hbd, ?_⟩
          rw [if_pos (.inr hbd)]
        · left
          refine ⟨vs, hnum, by simp, by omega, ?_⟩
          rw [if_neg (by simp; omega)]
  · right; left
    subst hx
    refine ⟨f, ⟨pre, post, hp, h1, h2⟩, ?_, ?_⟩
    · rintro ho ⟨pre', post', ws, hp', hf', hor⟩
      have heq := hp'.unique hp
      -- the fields read before the bad one form a prefix
      have hpref : ∃ t, pre = pre' ++ t ∧ post' ≠ [] := by
        have hlt : pre'.length ≤ pre.length := by
          by_contra hlt
          apply h2
          have hm : f ∈ pre' := by
            have h' : pre'[pre.length]? = some f := by
              have h1 := congrArg (fun l => l[pre.length]?) heq
              simp only [List.getElem?_append_left (show pre.length < pre'.length by omega),
                List.getElem?_append_right (Nat.le_refl _), Nat.sub_self, List.getElem?_cons_zero] at h1
              exact h1
            exact List.mem_of_getElem? h'
          obtain ⟨i, hi⟩ := List.getElem?_of_mem hm
          obtain ⟨hi1, hi2⟩ := List.getElem?_eq_some_iff.mp hi
          rw [List.forall₂_iff_get] at hf'
          refine ⟨ws.get ⟨i, by rw [← hf'.1]; exact hi1⟩, ?_⟩
          have := hf'.2 i hi1 (by rw [← hf'.1]; exact hi1)
          simp only [List.get_eq_getElem, hi2] at this ⊢
          exact this
        obtain ⟨t, ht⟩ : pre' <+: pre := List.prefix_of_prefix_length_le (l₃ := pre ++ f :: post)
          ⟨post', heq⟩ ⟨f :: post, rfl⟩ hlt
        refine ⟨t, ht.symm, ?_⟩
        rintro rfl
        have := congrArg List.length heq
        simp at this; omega
      obtain ⟨t, rfl, hpost⟩ := hpref
      rcases hor with h | ⟨h, _⟩
      · have hall : ∀ (l : List (List Char)), (∀ g ∈ l, ∃ n, Usize g n) → ∃ us, List.Forall₂ Usize l us := by
          intro l hl
          induction l with
          | nil => exact ⟨[], .nil⟩
          | cons a l ih =>
            obtain ⟨n, hn⟩ := hl a (by simp)
            obtain ⟨us, hus⟩ := ih (fun g hg => hl g (by simp [hg]))
            exact ⟨n :: us, .cons hn hus⟩
        obtain ⟨us, hus⟩ := hall t (fun g hg => h1 g (by simp [hg]))
        have := h3 ho (ws ++ us) (List.rel_append hf' hus)
        rw [List.sum_append] at this
        omega
      · exact hpost h
    · rw [he]; rfl
  · right; right; right
    refine ⟨ho, ⟨pre, post, vs, by rw [← hx]; exact hp, h1, .inl (by simpa using h2)⟩, ?_⟩
    rw [he]; rfl

/-! ### Rules -/

theorem parseAll_spec (oc : Bool) (bound : Nat) (parts : List (List Char)) :
    (∃ rules, List.Forall₂ (fun part vs => Numbers part vs ∧ sizeOf' oc vs ≤ bound) parts rules ∧
      (oc = true → ∀ p ∈ parts, ¬ Overflows p) ∧ parseAll oc bound parts = .ok (.ok rules)) ∨
    (∃ pre part post e, parts = pre ++ part :: post ∧ (∀ p ∈ pre, ∃ vs, Numbers p vs ∧ sizeOf' oc vs ≤ bound) ∧
      ((∃ f, BadField part f ∧ e = .InvalidRule f) ∨
       (∃ vs, Numbers part vs ∧ bound < sizeOf' oc vs ∧ e = .InvalidRuleDimension)) ∧
      (oc = true → ∀ p ∈ pre ++ [part], ¬ Overflows p) ∧ parseAll oc bound parts = .ok (.error e)) ∨
    (oc = true ∧ (∃ pre part post, parts = pre ++ part :: post ∧ (∀ p ∈ pre, ∃ vs, Numbers p vs ∧ sizeOf' oc vs ≤ bound) ∧
      (∀ p ∈ pre, ¬ Overflows p) ∧ Overflows part) ∧ parseAll oc bound parts = .panic) := by
  induction parts with
  | nil => exact .inl ⟨[], .nil, by simp, rfl⟩
  | cons x xs ih =>
    rw [parseAll]
    rcases parseRule_spec oc bound x with ⟨vs, h1, h2, h3, he⟩ | ⟨f, h1, h2, he⟩ | ⟨vs, h1, h2, h3, he⟩ | ⟨ho, h1, he⟩
    · rw [he, Prog.ok_bind]
      simp only
      rcases ih with ⟨rules, g1, g2, ge⟩ | ⟨pre, part, post, e, rfl, g1, g2, g3, ge⟩ |
        ⟨ho, ⟨pre, part, post, rfl, g1, g2, g3⟩, ge⟩
      · left
        refine ⟨vs :: rules, .cons ⟨h1, h3⟩ g1, ?_, ?_⟩
        · intro ho p hp
          rcases List.mem_cons.mp hp with rfl | hp
          · exact h2 ho
          · exact g2 ho p hp
        · rw [ge]; rfl
      · right; left
        refine ⟨x :: pre, part, post, e, rfl, ?_, g2, ?_, ?_⟩
        · intro p hp
          rcases List.mem_cons.mp hp with rfl | hp
          · exact ⟨vs, h1, h3⟩
          · exact g1 p hp
        · intro ho p hp
          rw [List.cons_append] at hp
          rcases List.mem_cons.mp hp with rfl | hp
          · exact h2 ho
          · exact g3 ho p hp
        · rw [ge]; rfl
      · right; right
        refine ⟨ho, ⟨x :: pre, part, post, rfl, ?_, ?_, g3⟩, ?_⟩
        · intro p hp
          rcases List.mem_cons.mp hp with rfl | hp
          · exact ⟨vs, h1, h3⟩
          · exact g1 p hp
        · intro p hp
          rcases List.mem_cons.mp hp with rfl | hp
          · exact h2 ho
          · exact g2 p hp
        · rw [ge]; rfl
    · right; left
      refine ⟨[], x, xs, _, rfl, by simp, .inl ⟨f, h1, rfl⟩, ?_, ?_⟩
      · intro ho p hp
        simp only [List.nil_append, List.mem_singleton] at hp
        subst hp; exact h2 ho
      · rw [he]; rfl
    · right; left
      refine ⟨[], x, xs, _, rfl, by simp, .inr ⟨vs, h1, h3, rfl⟩, ?_, ?_⟩
      · intro ho p hp
        simp only [List.nil_append, List.mem_singleton] at hp
        subst hp; exact h2 ho
      · rw [he]; rfl
    · right; right
      refine ⟨ho, ⟨[], x, xs, rfl, by simp, by simp, h1⟩, ?_⟩
      rw [he]; rfl

/-! ### Parsing, read backwards -/

theorem numbers_not_bad {text f : List Char} {vs : List Nat} (h : Numbers text vs) (hb : BadField text f) : False := by
  obtain ⟨fields, h1, h2⟩ := h
  obtain ⟨pre, post, h3, _, h5⟩ := hb
  obtain rfl := h1.unique h3
  have : ∀ (l : List (List Char)) us, List.Forall₂ Usize l us → ∀ g ∈ l, ∃ n, Usize g n := by
    intro l us hl
    induction hl with
    | nil => intro g hg; cases hg
    | cons h _ ih =>
      intro g hg
      rcases List.mem_cons.mp hg with rfl | hg
      · exact ⟨_, h⟩
      · exact ih g hg
  exact h5 (this _ _ h2 f (by simp))

theorem bad_unique {text f f' : List Char} (h : BadField text f) (h' : BadField text f') : f = f' := by
  obtain ⟨pre, post, h1, h2, h3⟩ := h
  obtain ⟨pre', post', h1', h2', h3'⟩ := h'
  have heq := h1.unique h1'
  have hlen : pre.length = pre'.length := by
    rcases Nat.lt_trichotomy pre.length pre'.length with hl | hl | hl
    · exfalso
      have h := congrArg (fun l => l[pre.length]?) heq
      simp only [List.getElem?_append_left hl, List.getElem?_append_right (Nat.le_refl _), Nat.sub_self,
        List.getElem?_cons_zero] at h
      exact h3 (h2' f (List.mem_of_getElem? h.symm))
    · exact hl
    · exfalso
      have h := congrArg (fun l => l[pre'.length]?) heq
      simp only [List.getElem?_append_left hl, List.getElem?_append_right (Nat.le_refl _), Nat.sub_self,
        List.getElem?_cons_zero] at h
      exact h3' (h2 f' (List.mem_of_getElem? h))
  have := List.append_inj heq hlen
  simp only [List.cons.injEq] at this
  exact this.2.1

theorem parseRule_num (oc : Bool) (bound : Nat) {text : List Char} {vs : List Nat} (h : Numbers text vs)
    (ho : oc = true → ¬ Overflows text) :
    parseRule oc bound text = .ok (if sizeOf' oc vs ≤ bound then .ok vs else .error .InvalidRuleDimension) := by
  rcases parseRule_spec oc bound text with ⟨ws, h1, _, h3, he⟩ | ⟨f, h1, _, he⟩ | ⟨ws, h1, _, h3, he⟩ | ⟨h0, h1, he⟩
  · obtain rfl := h.unique h1
    rw [he, if_pos h3]
  · exact absurd h1 (fun hb => numbers_not_bad h hb)
  · obtain rfl := h.unique h1
    rw [he, if_neg (by omega)]
  · exact absurd h1 (ho h0)

theorem parseRule_bad (oc : Bool) (bound : Nat) {text f : List Char} (h : BadField text f)
    (ho : oc = true → ¬ Overflows text) : parseRule oc bound text = .ok (.error (.InvalidRule f)) := by
  rcases parseRule_spec oc bound text with ⟨ws, h1, _, h3, he⟩ | ⟨f', h1, _, he⟩ | ⟨ws, h1, _, h3, he⟩ | ⟨h0, h1, he⟩
  · exact absurd h (fun hb => numbers_not_bad h1 hb)
  · rw [he, bad_unique h h1]
  · exact absurd h (fun hb => numbers_not_bad h1 hb)
  · exact absurd h1 (ho h0)

theorem parseRule_over (bound : Nat) {text : List Char} (h : Overflows text) : parseRule true bound text = .panic := by
  rcases parseRule_spec true bound text with ⟨ws, _, h2, _, _⟩ | ⟨f', _, h2, _⟩ | ⟨ws, _, h2, _, _⟩ | ⟨h0, h1, he⟩
  · exact absurd h (h2 rfl)
  · exact absurd h (h2 rfl)
  · exact absurd h (h2 rfl)
  · exact he

theorem parseAll_good (oc : Bool) (bound : Nat) {parts : List (List Char)} {rules : List (List Nat)}
    (h : List.Forall₂ (fun part vs => Numbers part vs ∧ sizeOf' oc vs ≤ bound) parts rules)
    (ho : oc = true → ∀ p ∈ parts, ¬ Overflows p) : parseAll oc bound parts = .ok (.ok rules) := by
  induction h with
  | nil => rfl
  | cons h _ ih =>
    rw [parseAll, parseRule_num oc bound h.1 (fun h0 => ho h0 _ (by simp)), if_pos h.2, Prog.ok_bind]
    simp only
    rw [ih (fun h0 p hp => ho h0 p (by simp [hp]))]
    rfl

theorem parseAll_stop (oc : Bool) (bound : Nat) {pre post : List (List Char)} {part : List Char}
    (hpre : ∀ p ∈ pre, ∃ vs, Numbers p vs ∧ sizeOf' oc vs ≤ bound) (ho : oc = true → ∀ p ∈ pre, ¬ Overflows p) :
    (parseRule oc bound part = .panic → parseAll oc bound (pre ++ part :: post) = .panic) ∧
    ∀ e, parseRule oc bound part = .ok (.error e) → parseAll oc bound (pre ++ part :: post) = .ok (.error e) := by
  induction pre with
  | nil =>
    constructor
    · intro h; rw [List.nil_append, parseAll, h]; rfl
    · intro e h; rw [List.nil_append, parseAll, h]; rfl
  | cons x pre ih =>
    obtain ⟨i1, i2⟩ := ih (fun p hp => hpre p (by simp [hp])) (fun h0 p hp => ho h0 p (by simp [hp]))
    obtain ⟨vs, h1, h2⟩ := hpre x (by simp)
    have hx := parseRule_num oc bound h1 (fun h0 => ho h0 x (by simp))
    rw [if_pos h2] at hx
    constructor
    · intro h; rw [List.cons_append, parseAll, hx, Prog.ok_bind]; simp only; rw [i1 h]; rfl
    · intro e h; rw [List.cons_append, parseAll, hx, Prog.ok_bind]; simp only; rw [i2 e h]; rfl

/-- A short rule does not overflow. -/
theorem not_overflows {text : List Char} {vs : List Nat} (h : Numbers text vs) (hm : minLength vs < 2 ^ 64) :
    ¬ Overflows text := by
  intro hov
  -- with overflow checks the parser either panics or accepts; it cannot panic on a short rule
  obtain ⟨fields, hp, hf⟩ := h
  obtain ⟨pre', post', ws, hp', hf', hor⟩ := hov
  obtain rfl := hp'.unique hp
  have h1 := List.forall₂_take pre'.length hf
  rw [List.take_left] at h1
  have h2 := Forall₂.usize_unique hf' h1
  have hsum : ws.sum ≤ vs.sum := by
    rw [h2]
    conv_rhs => rw [← List.take_append_drop pre'.length vs, List.sum_append]
    omega
  rcases hor with h | ⟨rfl, h⟩
  · unfold minLength at hm; omega
  · rw [List.append_nil] at hf
    rw [Forall₂.usize_unique hf' hf] at h
    omega

/-- The full account of the parser. -/
theorem parse_result (oc : Bool) (text : List Char) (bound : Nat) :
    (∃ r, parseNonogramRules oc text bound = .ok r ∧ Parses (sizeOf' oc) text bound r) ∨
    (oc = true ∧ parseNonogramRules oc text bound = .panic ∧ ∃ pre part post, Pieces ';' text (pre ++ part :: post) ∧
      (∀ p ∈ pre, ∃ vs, Numbers p vs ∧ minLength vs ≤ bound) ∧ Overflows part) := by
  have hp := splitOn_pieces ';' text
  unfold parseNonogramRules
  rcases parseAll_spec oc bound (splitOn ';' text) with ⟨rules, h1, _, he⟩ | ⟨pre, part, post, e, hx, h1, h2, _, he⟩ |
    ⟨ho, ⟨pre, part, post, hx, h1, _, h3⟩, he⟩
  · exact .inl ⟨_, he, _, hp, h1⟩
  · rw [hx] at hp
    exact .inl ⟨_, he, pre, part, post, hp, h1, h2⟩
  · rw [hx] at hp
    subst ho
    exact .inr ⟨rfl, he, pre, part, post, hp, h1, h3⟩

/-- Without overflow, the parser returns what it should. -/
theorem parse_complete (oc : Bool) {text : List Char} {bound : Nat} {r : Except NonogramError (List (List Nat))}
    (h : Parses (sizeOf' oc) text bound r) (ho : oc = true → ∀ parts, Pieces ';' text parts → ∀ p ∈ parts, ¬ Overflows p) :
    parseNonogramRules oc text bound = .ok r := by
  unfold parseNonogramRules
  cases r with
  | ok rules =>
    obtain ⟨parts, hp, hf⟩ := h
    rw [(splitOn_eq_iff _ _ _).mpr hp]
    exact parseAll_good oc bound hf (fun h0 => ho h0 parts hp)
  | error e =>
    obtain ⟨pre, part, post, hp, hpre, he⟩ := h
    rw [(splitOn_eq_iff _ _ _).mpr hp]
    have hop : oc = true → ¬ Overflows part := fun h0 => ho h0 _ hp part (by simp)
    refine (parseAll_stop oc bound hpre (fun h0 p hp' => ho h0 _ hp p (by simp [hp']))).2 e ?_
    rcases he with ⟨f, hf, rfl⟩ | ⟨vs, hv, hlt, rfl⟩
    · exact parseRule_bad oc bound hf hop
    · rw [parseRule_num oc bound hv hop, if_neg (by omega)]

theorem mem_le_sum {l : List Nat} {v : Nat} (h : v ∈ l) : v ≤ l.sum := by
  induction l with
  | nil => cases h
  | cons a l ih =>
    rw [List.sum_cons]
    rcases List.mem_cons.mp h with rfl | h
    · omega
    · have := ih h; omega

theorem parses_congr {s s' : List Nat → Nat} {text : List Char} {bound : Nat}
    (hs : ∀ parts, Pieces ';' text parts → ∀ p ∈ parts, ∀ vs, Numbers p vs → s vs = s' vs)
    {r : Except NonogramError (List (List Nat))} (h : Parses s text bound r) : Parses s' text bound r := by
  cases r with
  | ok rules =>
    obtain ⟨parts, hp, hf⟩ := h
    refine ⟨parts, hp, ?_⟩
    have hs' := hs parts hp
    clear hp hs
    induction hf with
    | nil => exact .nil
    | cons h1 _ ih =>
      exact .cons ⟨h1.1, by rw [← hs' _ (by simp) _ h1.1]; exact h1.2⟩ (ih fun p hp => hs' p (by simp [hp]))
  | error e =>
    obtain ⟨pre, part, post, hp, hpre, he⟩ := h
    refine ⟨pre, part, post, hp, ?_, ?_⟩
    · intro p hpm
      obtain ⟨vs, h1, h2⟩ := hpre p hpm
      exact ⟨vs, h1, by rw [← hs _ hp p (by simp [hpm]) vs h1]; exact h2⟩
    · rcases he with he | ⟨vs, h1, h2, rfl⟩
      · exact .inl he
      · exact .inr ⟨vs, h1, by rw [← hs _ hp part (by simp) vs h1]; exact h2, rfl⟩

theorem size_eq {oc : Bool} {text : List Char} {vs : List Nat} (ho : oc = true ∨ ¬ Overflows text)
    (h : Numbers text vs) : sizeOf' oc vs = minLength vs := by
  unfold sizeOf' wrap
  rcases ho with rfl | ho
  · rfl
  · have : minLength vs < 2 ^ 64 := by
      by_contra hge
      obtain ⟨fields, hfp, hff⟩ := h
      exact ho ⟨fields, [], vs, by rwa [List.append_nil], hff, .inr ⟨rfl, by omega⟩⟩
    rw [Nat.mod_eq_of_lt this, ite_self]

end Nonogram
