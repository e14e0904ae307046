import Verif.Spec.DisjointSet
import Mathlib.Logic.Relation
import Mathlib.Data.List.Induction

/-! Helper lemmas for the disjoint-set properties. -/
namespace DisjointSet

/-- Number of indices below `n` whose representative is `r`. -/
def cnt (n : Nat) (rep : Nat → Nat) (r : Nat) : Nat := (List.range n).countP (fun j => rep j = r)

/-- Forest invariant with ghost representative and rank functions. -/
structure Inv (s : DSU) (rep rank : Nat → Nat) : Prop where
  nonroot : ∀ i e, s[i]? = some e → e.root = false →
    e.value < s.length ∧ rep e.value = rep i ∧ rank i < rank e.value
  root : ∀ i e, s[i]? = some e → e.root = true →
    rep i = i ∧ e.value = cnt s.length rep i ∧ 2 ^ rank i ≤ e.value
  repRoot : ∀ i, i < s.length → ∃ e, s[rep i]? = some e ∧ e.root = true
  bound : ∀ i, i < s.length → rank i ≤ rank (rep i)

theorem Inv.rep_lt {s rep rank} (h : Inv s rep rank) {i : Nat} (hi : i < s.length) :
    rep i < s.length := by
  obtain ⟨e, he, _⟩ := h.repRoot i hi
  exact (List.getElem?_eq_some_iff.mp he).1

theorem Inv.rep_rep {s rep rank} (h : Inv s rep rank) {i : Nat} (hi : i < s.length) :
    rep (rep i) = rep i := by
  obtain ⟨e, he, hr⟩ := h.repRoot i hi
  exact (h.root _ e he hr).1

/-- What `find` may do to the vector: only non-root values change. -/
structure Compressed (s s' : DSU) : Prop where
  len : s'.length = s.length
  flag : ∀ i : Nat, (s'[i]?).map Element.root = (s[i]?).map Element.root
  roots : ∀ (i : Nat) (e : Element), s[i]? = some e → e.root = true → s'[i]? = some e

theorem Compressed.refl (s : DSU) : Compressed s s := ⟨rfl, fun _ => rfl, fun _ _ h _ => h⟩
theorem Compressed.trans {s s' s'' : DSU} (h : Compressed s s') (h' : Compressed s' s'') :
    Compressed s s'' :=
  ⟨h'.len.trans h.len, fun i => (h'.flag i).trans (h.flag i),
   fun i e hi he => h'.roots i e (h.roots i e hi he) he⟩

theorem getP_some {α : Type} {v : List α} {i : Nat} {a : α} (h : v[i]? = some a) : getP v i = .ok a := by
  simp [getP, h]

theorem findHelper_spec {rep rank : Nat → Nat} : ∀ (k : Nat) (s : DSU) (i : Nat), Inv s rep rank →
    i < s.length → rank (rep i) - rank i ≤ k →
    ∃ s', findHelper s i = .ok (rep i, s') ∧ Inv s' rep rank ∧ Compressed s s' := by
  intro k
  induction k with
  | zero =>
    intro s i hI hi hk
    rw [findHelper]
    have hget : s[i]? = some s[i] := List.getElem?_eq_getElem hi
    cases hr : s[i].root with
    | true =>
      have := (hI.root i _ hget hr).1
      exact ⟨s, by simp [getP_some hget, hr, this], hI, .refl s⟩
    | false =>
      obtain ⟨h1, h2, h3⟩ := hI.nonroot i _ hget hr
      have := hI.bound _ h1
      rw [h2] at this
      omega
  | succ k ih =>
    intro s i hI hi hk
    rw [findHelper]
    have hget : s[i]? = some s[i] := List.getElem?_eq_getElem hi
    cases hr : s[i].root with
    | true =>
      have := (hI.root i _ hget hr).1
      exact ⟨s, by simp [getP_some hget, hr, this], hI, .refl s⟩
    | false =>
      obtain ⟨h1, h2, h3⟩ := hI.nonroot i _ hget hr
      obtain ⟨s', hs', hI', hc⟩ := ih s s[i].value hI h1 (by rw [h2]; omega)
      have hi' : i < s'.length := hc.len ▸ hi
      have hget' : s'[i]? = some s'[i] := List.getElem?_eq_getElem hi'
      have hr' : s'[i].root = false := by
        have := hc.flag i
        simp only [hget, hget', Option.map_some, hr] at this
        simpa using this
      refine ⟨s'.set i { s'[i] with value := rep i }, ?_, ?_, ?_⟩
      · simp [getP_some hget, hr, hs', getP_some hget', setP_ok hi', h2]
      · -- invariant after compression
        have hlen : (s'.set i { s'[i] with value := rep i }).length = s'.length := by simp
        refine ⟨?_, ?_, ?_, ?_⟩
        · intro j e hj he
          rw [hlen]
          by_cases hij : i = j
          · subst hij
            rw [List.getElem?_set_self hi'] at hj
            cases hj
            refine ⟨hI'.rep_lt hi', hI'.rep_rep hi', ?_⟩
            simp only
            have := hI.bound _ h1
            rw [h2] at this
            omega
          · rw [List.getElem?_set_ne hij] at hj
            exact hI'.nonroot j e hj he
        · intro j e hj he
          rw [hlen]
          by_cases hij : i = j
          · subst hij
            rw [List.getElem?_set_self hi'] at hj
            cases hj
            simp [hr'] at he
          · rw [List.getElem?_set_ne hij] at hj
            exact hI'.root j e hj he
        · intro j hj
          rw [hlen] at hj
          obtain ⟨e, he, her⟩ := hI'.repRoot j hj
          refine ⟨e, ?_, her⟩
          by_cases hij : i = rep j
          · rw [← hij, hget'] at he
            cases he
            simp [hr'] at her
          · rw [List.getElem?_set_ne hij]; exact he
        · intro j hj
          rw [hlen] at hj
          exact hI'.bound j hj
      · refine hc.trans ⟨by simp, ?_, ?_⟩
        · intro j
          by_cases hij : i = j
          · subst hij
            rw [List.getElem?_set_self hi', hget']
            rfl
          · rw [List.getElem?_set_ne hij]
        · intro j e hj he
          by_cases hij : i = j
          · subst hij
            rw [hget'] at hj; cases hj
            simp [hr'] at he
          · rw [List.getElem?_set_ne hij]; exact hj

theorem find_spec {rep rank : Nat → Nat} {s : DSU} (hI : Inv s rep rank) {i : Nat} (hi : i < s.length) :
    ∃ s', find s i = .ok (some (rep i), s') ∧ Inv s' rep rank ∧ Compressed s s' := by
  obtain ⟨s', h, hI', hc⟩ := findHelper_spec _ s i hI hi (Nat.le_refl _)
  exact ⟨s', by simp [find, show ¬ s.length ≤ i by omega, h], hI', hc⟩

theorem find_none {s : DSU} {i : Nat} (hi : s.length ≤ i) : find s i = .ok (none, s) := by
  simp [find, hi]

theorem commonSet_spec {rep rank : Nat → Nat} {s : DSU} (hI : Inv s rep rank) {i j : Nat}
    (hi : i < s.length) (hj : j < s.length) :
    ∃ s', commonSet s i j = .ok (some (rep i == rep j), s') ∧ Inv s' rep rank ∧ Compressed s s' := by
  obtain ⟨s1, h1, hI1, hc1⟩ := find_spec hI hi
  obtain ⟨s2, h2, hI2, hc2⟩ := find_spec hI1 (hc1.len ▸ hj)
  exact ⟨s2, by simp [commonSet, h1, h2], hI2, hc1.trans hc2⟩

theorem commonSet_none {rep rank : Nat → Nat} {s : DSU} (hI : Inv s rep rank) {i j : Nat}
    (h : ¬ (i < s.length ∧ j < s.length)) :
    ∃ s', commonSet s i j = .ok (none, s') ∧ Inv s' rep rank ∧ Compressed s s' := by
  by_cases hi : i < s.length
  · obtain ⟨s1, h1, hI1, hc1⟩ := find_spec hI hi
    have : s1.length ≤ j := by rw [hc1.len]; omega
    exact ⟨s1, by simp [commonSet, h1, find_none this], hI1, hc1⟩
  · exact ⟨s, by simp [commonSet, find_none (show s.length ≤ i by omega)], hI, .refl s⟩

theorem union_none {rep rank : Nat → Nat} {s : DSU} (hI : Inv s rep rank) {i j : Nat}
    (h : ¬ (i < s.length ∧ j < s.length)) :
    ∃ s', union s i j = .ok (none, s') ∧ Inv s' rep rank ∧ Compressed s s' := by
  by_cases hi : i < s.length
  · obtain ⟨s1, h1, hI1, hc1⟩ := find_spec hI hi
    have : s1.length ≤ j := by rw [hc1.len]; omega
    exact ⟨s1, by simp [union, h1, find_none this], hI1, hc1⟩
  · exact ⟨s, by simp [union, find_none (show s.length ≤ i by omega)], hI, .refl s⟩

theorem countP_split (l : List Nat) (rep : Nat → Nat) (a b : Nat) (hab : a ≠ b) :
    l.countP (fun j => decide ((if rep j = a then b else rep j) = b)) =
      l.countP (fun j => decide (rep j = b)) + l.countP (fun j => decide (rep j = a)) := by
  induction l with
  | nil => rfl
  | cons x l ih =>
    simp only [List.countP_cons, ih]
    by_cases h1 : rep x = a
    · have h2 : rep x ≠ b := by rw [h1]; exact hab
      simp [h1, hab]; omega
    · by_cases h2 : rep x = b
      · simp [h2, hab.symm]; omega
      · simp [h1, h2]

theorem countP_other (l : List Nat) (rep : Nat → Nat) (a b r : Nat) (hra : r ≠ a) (hrb : r ≠ b) :
    l.countP (fun j => decide ((if rep j = a then b else rep j) = r)) =
      l.countP (fun j => decide (rep j = r)) := by
  apply List.countP_congr
  intro x _
  by_cases h1 : rep x = a
  · simp [h1]
    constructor <;> intro h
    · exact absurd h.symm hrb
    · exact absurd h.symm hra
  · simp [h1]

/-- Merging step of `union`: link root `a` (smaller) below root `b` (larger). -/
theorem merge_rank_inv {rep rank : Nat → Nat} {s : DSU} (hI : Inv s rep rank) {a b : Nat} {ea eb : Element}
    (ha : s[a]? = some ea) (hb : s[b]? = some eb) (hra : ea.root = true) (hrb : eb.root = true)
    (hab : a ≠ b) {ρ : Nat} (h1ρ : rank b ≤ ρ) (h2ρ : rank a < ρ) (h3ρ : 2 ^ ρ ≤ eb.value + ea.value) :
    Inv ((s.set b { eb with value := eb.value + ea.value }).set a (Element.fromParent b))
      (fun i => if rep i = a then b else rep i)
      (fun i => if i = b then ρ else rank i) := by
  have hal : a < s.length := (List.getElem?_eq_some_iff.mp ha).1
  have hbl : b < s.length := (List.getElem?_eq_some_iff.mp hb).1
  obtain ⟨rea, vea, pa⟩ := hI.root a ea ha hra
  obtain ⟨reb, veb, pb⟩ := hI.root b eb hb hrb
  have hlen : ((s.set b { eb with value := eb.value + ea.value }).set a (Element.fromParent b)).length
      = s.length := by simp
  have get_a : ((s.set b { eb with value := eb.value + ea.value }).set a (Element.fromParent b))[a]?
      = some (Element.fromParent b) := by
    rw [List.getElem?_set_self (by simpa using hal)]
  have get_b : ((s.set b { eb with value := eb.value + ea.value }).set a (Element.fromParent b))[b]?
      = some { eb with value := eb.value + ea.value } := by
    rw [List.getElem?_set_ne hab, List.getElem?_set_self hbl]
  have get_o : ∀ j, j ≠ a → j ≠ b →
      ((s.set b { eb with value := eb.value + ea.value }).set a (Element.fromParent b))[j]? = s[j]? := by
    intro j h1 h2
    rw [List.getElem?_set_ne (Ne.symm h1), List.getElem?_set_ne (Ne.symm h2)]
  refine ⟨?_, ?_, ?_, ?_⟩
  · intro i e hi he
    rw [hlen]
    by_cases h1 : i = a
    · subst h1
      rw [get_a] at hi; cases hi
      refine ⟨hbl, ?_, ?_⟩
      · simp [Element.fromParent, rea, reb]
      · simp [Element.fromParent, hab]; omega
    · by_cases h2 : i = b
      · subst h2
        rw [get_b] at hi; cases hi
        simp [hrb] at he
      · rw [get_o i h1 h2] at hi
        obtain ⟨q1, q2, q3⟩ := hI.nonroot i e hi he
        refine ⟨q1, by simp [q2], ?_⟩
        simp only [h2, if_false]
        by_cases h3 : e.value = b
        · simp [h3]; rw [h3] at q3; omega
        · simp [h3, q3]
  · intro i e hi he
    rw [hlen]
    by_cases h1 : i = a
    · subst h1
      rw [get_a] at hi; cases hi
      simp [Element.fromParent] at he
    · by_cases h2 : i = b
      · subst h2
        rw [get_b] at hi; cases hi
        refine ⟨by simp [reb, hab.symm], ?_, ?_⟩
        · simp only [cnt]
          rw [countP_split _ _ _ _ hab]
          simp only [cnt] at vea veb
          omega
        · simp only [if_true]
          exact h3ρ
      · rw [get_o i h1 h2] at hi
        obtain ⟨q1, q2, q3⟩ := hI.root i e hi he
        refine ⟨by simp [q1, h1], ?_, by simp [h2, q3]⟩
        simp only [cnt] at q2 ⊢
        rw [countP_other _ _ _ _ _ h1 h2]; exact q2
  · intro i hi
    rw [hlen] at hi
    by_cases h1 : rep i = a
    · simp only [h1, if_true]
      exact ⟨_, get_b, hrb⟩
    · simp only [h1, if_false]
      by_cases h2 : rep i = b
      · rw [h2]; exact ⟨_, get_b, hrb⟩
      · rw [get_o _ h1 h2]; exact hI.repRoot i hi
  · intro i hi
    rw [hlen] at hi
    have hb' := hI.bound i hi
    by_cases h2 : i = b
    · subst h2; simp [reb, hab.symm]
    · simp only [h2, if_false]
      by_cases h1 : rep i = a
      · rw [h1] at hb'; simp [h1]; omega
      · simp only [h1, if_false]
        by_cases h3 : rep i = b
        · rw [h3] at hb'; simp [h3]; omega
        · simp [h3, hb']

theorem merge_inv {rep rank : Nat → Nat} {s : DSU} (hI : Inv s rep rank) {a b : Nat} {ea eb : Element}
    (ha : s[a]? = some ea) (hb : s[b]? = some eb) (hra : ea.root = true) (hrb : eb.root = true)
    (hab : a ≠ b) (hle : ea.value ≤ eb.value) :
    Inv ((s.set b { eb with value := eb.value + ea.value }).set a (Element.fromParent b))
      (fun i => if rep i = a then b else rep i)
      (fun i => if i = b then max (rank b) (rank a + 1) else rank i) := by
  refine merge_rank_inv hI ha hb hra hrb hab (by omega) (by omega) ?_
  have pa := (hI.root a ea ha hra).2.2
  have pb := (hI.root b eb hb hrb).2.2
  rcases Nat.le_total (rank b) (rank a + 1) with h | h
  · rw [Nat.max_eq_right h, Nat.pow_succ]; omega
  · rw [Nat.max_eq_left h]; omega

/-- The effect of an in-range `union` on the ghost representative. -/
theorem union_spec {rep rank : Nat → Nat} {s : DSU} (hI : Inv s rep rank) {i j : Nat}
    (hi : i < s.length) (hj : j < s.length) :
    ∃ s' r rep' rank', union s i j = .ok (some r, s') ∧ Inv s' rep' rank' ∧ s'.length = s.length ∧
      ((rep i = rep j ∧ r = rep i ∧ rep' = rep) ∨
       (rep i ≠ rep j ∧ ((r = rep i ∧ rep' = fun k => if rep k = rep i then rep j else rep k) ∨
                         (r = rep j ∧ rep' = fun k => if rep k = rep j then rep i else rep k)))) := by
  obtain ⟨s1, h1, hI1, hc1⟩ := find_spec hI hi
  obtain ⟨s2, h2, hI2, hc2⟩ := find_spec hI1 (hc1.len ▸ hj)
  have hlen : s2.length = s.length := hc2.len.trans hc1.len
  by_cases heq : rep i = rep j
  · exact ⟨s2, rep i, rep, rank, by simp [union, h1, h2, heq], hI2, hlen, .inl ⟨heq, rfl, rfl⟩⟩
  · obtain ⟨e1, g1, r1⟩ := hI2.repRoot i (hlen ▸ hi)
    obtain ⟨e2, g2, r2⟩ := hI2.repRoot j (hlen ▸ hj)
    have l1 : rep i < s2.length := (List.getElem?_eq_some_iff.mp g1).1
    have l2 : rep j < s2.length := (List.getElem?_eq_some_iff.mp g2).1
    by_cases hlt : e1.value < e2.value
    · refine ⟨_, rep i, _, _, ?_, merge_inv hI2 g1 g2 r1 r2 heq (by omega), by simpa using hlen,
        .inr ⟨heq, .inl ⟨rfl, rfl⟩⟩⟩
      simp [union, h1, h2, heq, getP_some g1, getP_some g2, hlt, setP, l1, l2]
    · refine ⟨_, rep j, _, _, ?_, merge_inv hI2 g2 g1 r2 r1 (Ne.symm heq) (by omega), by simpa using hlen,
        .inr ⟨heq, .inr ⟨rfl, rfl⟩⟩⟩
      simp [union, h1, h2, heq, getP_some g1, getP_some g2, hlt, setP, l1, l2]

theorem add_inv {rep rank : Nat → Nat} {s : DSU} (hI : Inv s rep rank)
    (hrep : ∀ i, s.length ≤ i → rep i = i) :
    Inv (add s) rep (fun i => if i = s.length then 0 else rank i) := by
  have hlen : (add s).length = s.length + 1 := by simp [add]
  have get_lt : ∀ i, i < s.length → (add s)[i]? = s[i]? := by
    intro i hi; simp [add, List.getElem?_append_left hi]
  have get_n : (add s)[s.length]? = some Element.new := by simp [add]
  have hself : rep s.length = s.length := hrep _ (Nat.le_refl _)
  have hne : ∀ i, i < s.length → rep i ≠ s.length := fun i hi => by
    have := hI.rep_lt hi; omega
  have key : ∀ i e, (add s)[i]? = some e → (i < s.length ∧ s[i]? = some e) ∨ (i = s.length ∧ e = .new) := by
    intro i e h
    have hi : i < (add s).length := (List.getElem?_eq_some_iff.mp h).1
    by_cases h1 : i < s.length
    · exact .inl ⟨h1, by rw [← get_lt i h1]; exact h⟩
    · have : i = s.length := by omega
      subst this
      rw [get_n] at h; cases h
      exact .inr ⟨rfl, rfl⟩
  refine ⟨?_, ?_, ?_, ?_⟩
  · intro i e hi he
    rcases key i e hi with ⟨h1, h2⟩ | ⟨h1, h2⟩
    · obtain ⟨q1, q2, q3⟩ := hI.nonroot i e h2 he
      refine ⟨by omega, q2, ?_⟩
      rw [if_neg (by omega), if_neg (by omega)]; exact q3
    · subst h2; simp [Element.new] at he
  · intro i e hi he
    rcases key i e hi with ⟨h1, h2⟩ | ⟨h1, h2⟩
    · obtain ⟨q1, q2, q3⟩ := hI.root i e h2 he
      refine ⟨q1, ?_, ?_⟩
      · rw [hlen]
        simp only [cnt, List.range_succ, List.countP_append] at q2 ⊢
        simp [hself, show ¬ s.length = i by omega, q2]
      · rw [if_neg (by omega)]; exact q3
    · subst h1 h2
      refine ⟨hself, ?_, by simp [Element.new]⟩
      rw [hlen]
      simp only [cnt, List.range_succ, List.countP_append]
      have : (List.range s.length).countP (fun j => decide (rep j = s.length)) = 0 := by
        rw [List.countP_eq_zero]
        intro x hx
        simpa using hne x (by simpa using hx)
      simp [this, hself, Element.new]
  · intro i hi
    by_cases h1 : i < s.length
    · rw [get_lt _ (hI.rep_lt h1)]; exact hI.repRoot i h1
    · have : i = s.length := by omega
      subst this
      rw [hself]; exact ⟨_, get_n, rfl⟩
  · intro i hi
    by_cases h1 : i < s.length
    · rw [if_neg (by omega), if_neg (hne i h1)]; exact hI.bound i h1
    · have : i = s.length := by omega
      subst this
      simp [hself]

/-- Ghost state tied to a history. -/
structure Hist (n : Nat) (ops : List Op) (s : DSU) : Prop where
  len : s.length = Spec.size n ops
  ex : ∃ rep rank, Inv s rep rank ∧ (∀ i, s.length ≤ i → rep i = i) ∧
    ∀ a b, rep a = rep b ↔ Spec.Linked n ops a b

theorem size_append (n : Nat) (ops : List Op) (op : Op) :
    Spec.size n (ops ++ [op]) = match op with | .add => Spec.size n ops + 1 | _ => Spec.size n ops := by
  induction ops generalizing n with
  | nil => cases op <;> rfl
  | cons o ops ih => cases o <;> simp [Spec.size, ih]

theorem links_append (n : Nat) (ops : List Op) (op : Op) :
    Spec.links n (ops ++ [op]) = Spec.links n ops ++
      match op with
      | .union i j => if i < Spec.size n ops ∧ j < Spec.size n ops then [(i, j)] else []
      | _ => [] := by
  induction ops generalizing n with
  | nil => cases op <;> (simp [Spec.links, Spec.size]; try rfl)
  | cons o ops ih =>
    cases o with
    | union i j =>
      simp only [List.cons_append, Spec.links, Spec.size, ih]
      split <;> simp <;> rfl
    | _ => simp [Spec.links, Spec.size, ih]; rfl

theorem eqvGen_mono {α : Type} {r r' : α → α → Prop} (h : ∀ a b, r a b → r' a b) {a b : α}
    (hab : Relation.EqvGen r a b) : Relation.EqvGen r' a b := by
  induction hab with
  | rel x y hxy => exact .rel _ _ (h _ _ hxy)
  | refl x => exact .refl x
  | symm x y _ ih => exact .symm _ _ ih
  | trans x y z _ _ ih1 ih2 => exact .trans _ _ _ ih1 ih2

theorem linked_same {n : Nat} {ops : List Op} {op : Op} (h : Spec.links n (ops ++ [op]) = Spec.links n ops)
    (a b : Nat) : Spec.Linked n (ops ++ [op]) a b ↔ Spec.Linked n ops a b := by
  simp [Spec.Linked, h]

/-- Merging two classes of the kernel of `rep` = adding one generating pair. -/
theorem merge_linked {r : Nat → Nat → Prop} {rep : Nat → Nat}
    (h : ∀ a b, rep a = rep b ↔ Relation.EqvGen r a b) (i j x y : Nat) (rep' : Nat → Nat)
    (hxy : (x = rep i ∧ y = rep j) ∨ (x = rep j ∧ y = rep i))
    (hrep' : rep' = fun k => if rep k = x then y else rep k) (a b : Nat) :
    rep' a = rep' b ↔ Relation.EqvGen (fun u v => r u v ∨ (u = i ∧ v = j)) a b := by
  have up : ∀ u v, rep u = rep v → Relation.EqvGen (fun u v => r u v ∨ (u = i ∧ v = j)) u v :=
    fun u v huv => eqvGen_mono (fun _ _ h => .inl h) ((h u v).1 huv)
  have hij : Relation.EqvGen (fun u v => r u v ∨ (u = i ∧ v = j)) i j := .rel _ _ (.inr ⟨rfl, rfl⟩)
  subst hrep'
  constructor
  · intro hab
    simp only at hab
    rcases hxy with ⟨hx, hy⟩ | ⟨hx, hy⟩
    · subst hx hy
      by_cases h1 : rep a = rep i <;> by_cases h2 : rep b = rep i
      · exact up a b (h1.trans h2.symm)
      · simp only [h1, h2, if_true, if_false] at hab
        exact .trans _ _ _ (up a i h1) (.trans _ _ _ hij (up j b hab))
      · simp only [h1, h2, if_true, if_false] at hab
        exact .trans _ _ _ (up a j hab) (.trans _ _ _ (.symm _ _ hij) (up i b h2.symm))
      · simp only [h1, h2, if_false] at hab
        exact up a b hab
    · subst hx hy
      by_cases h1 : rep a = rep j <;> by_cases h2 : rep b = rep j
      · exact up a b (h1.trans h2.symm)
      · simp only [h1, h2, if_true, if_false] at hab
        exact .trans _ _ _ (up a j h1) (.trans _ _ _ (.symm _ _ hij) (up i b hab))
      · simp only [h1, h2, if_true, if_false] at hab
        exact .trans _ _ _ (up a i hab) (.trans _ _ _ hij (up j b h2.symm))
      · simp only [h1, h2, if_false] at hab
        exact up a b hab
  · intro hab
    induction hab with
    | rel u v huv =>
      rcases huv with huv | ⟨rfl, rfl⟩
      · have := (h u v).2 (.rel _ _ huv)
        simp [this]
      · rcases hxy with ⟨hx, hy⟩ | ⟨hx, hy⟩ <;> subst hx hy
        · by_cases h2 : rep v = rep u <;> simp [h2]
        · by_cases h2 : rep u = rep v <;> simp [h2]
    | refl u => rfl
    | symm u v _ ih => exact ih.symm
    | trans u v w _ _ ih1 ih2 => exact ih1.trans ih2

theorem eqvGen_iff {α : Type} {r r' : α → α → Prop} (h : ∀ a b, r a b ↔ r' a b) (a b : α) :
    Relation.EqvGen r a b ↔ Relation.EqvGen r' a b :=
  ⟨eqvGen_mono fun a b => (h a b).1, eqvGen_mono fun a b => (h a b).2⟩

theorem step_hist {n : Nat} {ops : List Op} {s : DSU} (h : Hist n ops s) (op : Op) :
    ∃ s', step s op = .ok s' ∧ Hist n (ops ++ [op]) s' := by
  obtain ⟨hlen, rep, rank, hI, hout, hlink⟩ := h
  cases op with
  | add =>
    refine ⟨_, rfl, ?_, rep, _, add_inv hI hout, ?_, ?_⟩
    · simp [size_append, add, hlen]
    · intro i hi; exact hout i (by simp [add] at hi; omega)
    · intro a b
      rw [linked_same (by simp [links_append])]; exact hlink a b
  | find i =>
    have hl : ∀ a b, rep a = rep b ↔ Spec.Linked n (ops ++ [.find i]) a b := fun a b => by
      rw [linked_same (by simp [links_append])]; exact hlink a b
    by_cases hi : i < s.length
    · obtain ⟨s', h1, hI', hc⟩ := find_spec hI hi
      exact ⟨s', by simp [step, h1], by simp [size_append, hc.len, hlen], rep, rank, hI',
        by rw [hc.len]; exact hout, hl⟩
    · exact ⟨s, by simp [step, find_none (show s.length ≤ i by omega)], by simp [size_append, hlen],
        rep, rank, hI, hout, hl⟩
  | commonSet i j =>
    have hl : ∀ a b, rep a = rep b ↔ Spec.Linked n (ops ++ [.commonSet i j]) a b := fun a b => by
      rw [linked_same (by simp [links_append])]; exact hlink a b
    by_cases hij : i < s.length ∧ j < s.length
    · obtain ⟨s', h1, hI', hc⟩ := commonSet_spec hI hij.1 hij.2
      exact ⟨s', by simp [step, h1], by simp [size_append, hc.len, hlen], rep, rank, hI',
        by rw [hc.len]; exact hout, hl⟩
    · obtain ⟨s', h1, hI', hc⟩ := commonSet_none hI hij
      exact ⟨s', by simp [step, h1], by simp [size_append, hc.len, hlen], rep, rank, hI',
        by rw [hc.len]; exact hout, hl⟩
  | union i j =>
    by_cases hij : i < s.length ∧ j < s.length
    · obtain ⟨s', r, rep', rank', h1, hI', hlen', hcase⟩ := union_spec hI hij.1 hij.2
      have hlinks : Spec.links n (ops ++ [.union i j]) = Spec.links n ops ++ [(i, j)] := by
        rw [links_append, ← hlen]; simp [hij]
      have hL : ∀ a b, Relation.EqvGen (fun u v => (u, v) ∈ Spec.links n ops ∨ (u = i ∧ v = j)) a b ↔
          Spec.Linked n (ops ++ [.union i j]) a b := by
        intro a b
        simp only [Spec.Linked, hlinks]
        apply eqvGen_iff
        intro u v; simp
      refine ⟨s', by simp [step, h1], by simp [size_append, hlen', hlen], rep', rank', hI', ?_, ?_⟩
      · intro k hk
        rw [hlen'] at hk
        have hk' := hout k hk
        rcases hcase with ⟨_, _, rfl⟩ | ⟨_, ⟨_, rfl⟩ | ⟨_, rfl⟩⟩
        · exact hk'
        · have := hI.rep_lt hij.1
          simp only
          rw [if_neg (by omega)]; exact hk'
        · have := hI.rep_lt hij.2
          simp only
          rw [if_neg (by omega)]; exact hk'
      · intro a b
        rw [← hL]
        rcases hcase with ⟨heq, _, rfl⟩ | ⟨_, ⟨_, rfl⟩ | ⟨_, rfl⟩⟩
        · rw [← merge_linked hlink i j _ _ rep' (.inl ⟨rfl, rfl⟩)]
          funext k
          by_cases hk : rep' k = rep' i
          · simp [hk, heq]
          · simp [hk]
        · exact merge_linked hlink i j _ _ _ (.inl ⟨rfl, rfl⟩) rfl a b
        · exact merge_linked hlink i j _ _ _ (.inr ⟨rfl, rfl⟩) rfl a b
    · have hl : ∀ a b, rep a = rep b ↔ Spec.Linked n (ops ++ [.union i j]) a b := fun a b => by
        rw [linked_same (by rw [links_append, ← hlen]; simp; omega)]; exact hlink a b
      obtain ⟨s', h1, hI', hc⟩ := union_none hI hij
      exact ⟨s', by simp [step, h1], by simp [size_append, hc.len, hlen], rep, rank, hI',
        by rw [hc.len]; exact hout, hl⟩

theorem run_append (s : DSU) (ops : List Op) (op : Op) :
    run s (ops ++ [op]) = run s ops >>= fun s => step s op := by
  induction ops generalizing s with
  | nil => simp only [List.nil_append, run]; rw [Prog.ok_bind]; cases step s op <;> rfl
  | cons o ops ih => simp only [List.cons_append, run, bind_assoc, ih]

theorem cnt_id (n i : Nat) (hi : i < n) : cnt n (fun j => j) i = 1 := by
  induction n with
  | zero => omega
  | succ n ih =>
    simp only [cnt, List.range_succ, List.countP_append] at ih ⊢
    by_cases h : i = n
    · subst h
      have : (List.range i).countP (fun j => decide (j = i)) = 0 := by
        rw [List.countP_eq_zero]; intro x hx; simp at hx ⊢; omega
      simp [this]
    · rw [ih (by omega)]; simp; omega

theorem init_hist (n : Nat) : Hist n [] (List.replicate n Element.new) := by
  refine ⟨by simp [Spec.size], fun i => i, fun _ => 0, ⟨?_, ?_, ?_, ?_⟩, ?_, ?_⟩
  · intro i e hi he
    simp [List.getElem?_replicate] at hi
    rw [← hi.2] at he; simp [Element.new] at he
  · intro i e hi he
    simp [List.getElem?_replicate] at hi
    rw [← hi.2]
    simp [Element.new, cnt_id n i hi.1]
  · intro i hi
    simp at hi
    exact ⟨.new, by simp [hi], rfl⟩
  · intro i hi; simp
  · intro i _; rfl
  · intro a b
    constructor
    · rintro rfl; exact .refl _
    · intro h
      simp only [Spec.Linked, Spec.links] at h
      induction h with
      | rel x y hxy => simp at hxy
      | refl x => rfl
      | symm x y _ ih => exact ih.symm
      | trans x y z _ _ ih1 ih2 => exact ih1.trans ih2

/-- Every history from `with_size n` runs to completion and keeps the ghost invariant. -/
theorem run_hist (n : Nat) (ops : List Op) :
    ∃ s, run (List.replicate n Element.new) ops = .ok s ∧ Hist n ops s := by
  induction ops using List.reverseRecOn with
  | nil => exact ⟨_, rfl, init_hist n⟩
  | append_singleton ops op ih =>
    obtain ⟨s, hs, hH⟩ := ih
    obtain ⟨s', hs', hH'⟩ := step_hist hH op
    exact ⟨s', by rw [run_append, hs]; exact hs', hH'⟩

end DisjointSet
