import Verif.Props.DisjointSet

/-! Lemmas for C101: unions of equal sets. -/
namespace DisjointSet.Props
open DisjointSet DisjointSet.Spec

/-- Unions of equal sets: the `2 ^ k` elements from `off` on are put into one set, halves first. -/
def tournament (off : Nat) : Nat → List Op
  | 0 => []
  | k + 1 => tournament off k ++ tournament (off + 2 ^ k) k ++ [.union off (off + 2 ^ k)]

theorem tournament_unions (off k : Nat) : ∀ op ∈ tournament off k, ∃ i j, op = .union i j := by
  induction k generalizing off with
  | zero => simp [tournament]
  | succ k ih =>
    intro op h
    simp only [tournament, List.mem_append, List.mem_singleton] at h
    rcases h with (h | h) | h
    · exact ih _ op h
    · exact ih _ op h
    · exact ⟨_, _, h⟩

theorem tournament_length (off k : Nat) : (tournament off k).length + 1 = 2 ^ k := by
  induction k generalizing off with
  | zero => rfl
  | succ k ih =>
    have h1 := ih off
    have h2 := ih (off + 2 ^ k)
    simp only [tournament, List.length_append, List.length_singleton, Nat.pow_succ]
    omega

theorem run_append (s : DSU) (xs ys : List Op) : run s (xs ++ ys) = (run s xs >>= fun t => run t ys) := by
  induction xs generalizing s with
  | nil => rfl
  | cons x xs ih =>
    rw [List.cons_append, run, run]
    cases step s x with
    | ok t => simp only [Prog.ok_bind]; exact ih t
    | _ => rfl

theorem chain_append {s : DSU} {a b c k l : Nat} (h : Chain s a k b) (g : Chain s b l c) : Chain s a (k + l) c := by
  induction h with
  | nil a => simpa using g
  | cons h _ ih => rw [Nat.add_right_comm]; exact .cons h (ih g)

theorem find_root {s : DSU} {a v : Nat} (h : s[a]? = some ⟨true, v⟩) : find s a = .ok (some a, s) := by
  have ha := (List.getElem?_eq_some_iff.1 h).1
  unfold find
  rw [if_neg (by omega), findHelper, getP, h]
  rfl

theorem union_roots {s : DSU} {a b v : Nat} (hab : a ≠ b) (ha : s[a]? = some ⟨true, v⟩) (hb : s[b]? = some ⟨true, v⟩) :
    union s a b = .ok (some b, (s.set a ⟨true, v + v⟩).set b ⟨false, a⟩) := by
  have h1 := (List.getElem?_eq_some_iff.1 ha).1
  have h2 := (List.getElem?_eq_some_iff.1 hb).1
  unfold union
  rw [find_root ha]
  simp only [Prog.ok_bind]
  rw [find_root hb]
  simp only [Prog.ok_bind]
  rw [if_neg hab, getP_some ha, Prog.ok_bind, getP_some hb, Prog.ok_bind]
  simp only [Nat.lt_irrefl, if_false]
  rw [getP_some hb, Prog.ok_bind, getP_some ha, Prog.ok_bind]
  simp [setP, h1, h2, Element.fromParent]

theorem tournament_spec (k : Nat) : ∀ (off : Nat) (s : DSU), (∀ j, off ≤ j → j < off + 2 ^ k → s[j]? = some Element.new) →
    ∃ s', run s (tournament off k) = .ok s' ∧ s'[off]? = some ⟨true, 2 ^ k⟩ ∧
      (∀ j, j < off ∨ off + 2 ^ k ≤ j → s'[j]? = s[j]?) ∧
      ∀ t : DSU, (∀ j, off < j → j < off + 2 ^ k → t[j]? = s'[j]?) → Chain t (off + 2 ^ k - 1) k off := by
  induction k with
  | zero =>
    intro off s h
    exact ⟨s, rfl, h off (Nat.le_refl _) (by simp), fun _ _ => rfl, fun t _ => .nil off⟩
  | succ k ih =>
    intro off s h
    have hp : 0 < 2 ^ k := Nat.two_pow_pos k
    have h2 : 2 ^ (k + 1) = 2 ^ k + 2 ^ k := by rw [Nat.pow_succ]; omega
    obtain ⟨s1, e1, r1, f1, _⟩ := ih off s fun j h1 h3 => h j h1 (by omega)
    obtain ⟨s2, e2, r2, f2, c2⟩ := ih (off + 2 ^ k) s1 fun j h1 h3 => by rw [f1 j (.inr h1)]; exact h j (by omega) (by omega)
    have r1' : s2[off]? = some ⟨true, 2 ^ k⟩ := by rw [f2 off (.inl (by omega))]; exact r1
    have l1 := (List.getElem?_eq_some_iff.1 r1').1
    have l2 := (List.getElem?_eq_some_iff.1 r2).1
    have hu := union_roots (by omega) r1' r2
    refine ⟨(s2.set off ⟨true, 2 ^ k + 2 ^ k⟩).set (off + 2 ^ k) ⟨false, off⟩, ?_, ?_, ?_, ?_⟩
    · rw [tournament, run_append, run_append, e1, Prog.ok_bind, e2, Prog.ok_bind]
      simp [run, step, hu]
    · rw [List.getElem?_set_ne (by omega), List.getElem?_set_self (by omega), h2]
    · intro j hj
      rw [List.getElem?_set_ne (by omega), List.getElem?_set_ne (by omega), f2 j (by omega), f1 j (by omega)]
    · intro t ht
      have c := c2 t fun j h1 h3 => by
        rw [ht j (by omega) (by omega), List.getElem?_set_ne (by omega), List.getElem?_set_ne (by omega)]
      have hs : ParentStep t (off + 2 ^ k) off :=
        ⟨⟨false, off⟩, by rw [ht _ (by omega) (by omega), List.getElem?_set_self (by simpa using l2)], rfl, rfl⟩
      rw [show off + 2 ^ (k + 1) - 1 = off + 2 ^ k + 2 ^ k - 1 by omega]
      exact chain_append c (.cons hs (.nil off))

theorem findHelper_chain {s : DSU} {a k r : Nat} (hc : Chain s a k r) (hr : s[r]?.map Element.root = some true) :
    ∃ s', findHelper s a = .ok (r, s') ∧ s'.length = s.length := by
  induction hc with
  | nil a =>
    cases he : s[a]? with
    | none => simp [he] at hr
    | some e => rw [he] at hr; exact ⟨s, by rw [findHelper, getP_some he]; simp [by simpa using hr], rfl⟩
  | @cons a b c k hab _ ih =>
    obtain ⟨e, he, hf, rfl⟩ := hab
    obtain ⟨s', h1, h2⟩ := ih hr
    have ha := (List.getElem?_eq_some_iff.1 he).1
    refine ⟨s'.set a { s'[a]'(by omega) with value := c }, ?_, by simpa using h2⟩
    rw [findHelper, getP_some he]
    simp [hf, h1, getP, setP, h2, ha]

end DisjointSet.Props
