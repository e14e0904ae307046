import Verif.Proofs.DisjointSetPath
import Verif.Proofs.DisjointSetPure

/-!
Property theorems C20-C23, C63, C64 (disjoint set). Statements use `DisjointSet.Spec` (history of calls) only.
A history starts from `with_size(n)` (`n = 0` is `DisjointSet::new()`).
-/
namespace DisjointSet.Props
open DisjointSet DisjointSet.Spec

/-! Concrete histories, to which the theorems are applied below. -/

theorem findHelper_root (s : DSU) (i : Nat) (h : s[i]?.map Element.root = some true) : findHelper s i = .ok (i, s) := by
  rw [findHelper]
  cases he : s[i]? with
  | none => simp [he] at h
  | some e => rw [he] at h; simp [getP, he, by simpa using h]
theorem findHelper_child (s : DSU) (i : Nat) (h : s[i]?.map Element.root = some false)
    (hp : s[(s[i]?.getD .new).value]?.map Element.root = some true) :
    findHelper s i = .ok ((s[i]?.getD .new).value, s) := by
  rw [findHelper]
  cases he : s[i]? with
  | none => simp [he] at h
  | some e =>
    rw [he] at h hp
    have hi : i < s.length := (List.getElem?_eq_some_iff.mp he).1
    have hs : s.set i e = s := by rw [← (List.getElem?_eq_some_iff.mp he).2]; simp
    simp only [Option.getD_some] at hp ⊢
    have hr : e.root = false := by simpa using h
    simp only [getP_some he, Prog.ok_bind, hr, Bool.false_eq_true, if_false, findHelper_root s e.value hp, setP, hi,
      if_true, Prog.pure_eq]
    rw [← hr, hs]

/-- A history after which element 4 is two links away from its root, as in the test `find_path_compression`. -/
theorem deep_run : run (List.replicate 5 Element.new) [.union 0 1, .union 2 1, .union 3 4, .union 4 2] =
    .ok [⟨true, 5⟩, ⟨false, 0⟩, ⟨false, 0⟩, ⟨false, 0⟩, ⟨false, 3⟩] := by
  simp [run, step, union, find, List.replicate, findHelper_root, findHelper_child, getP, setP, Element.new, Element.fromParent]

/-- Three elements, a union, a fourth element, another union: 3 and 0 are linked, 3 and 2 are not. -/
abbrev hist : List Op := [.union 0 1, .add, .union 3 1]
example : size 3 hist = 4 := rfl
theorem hist_linked : Linked 3 hist 3 0 :=
  .trans _ 1 _ (.rel _ _ (by decide)) (.symm _ _ (.rel _ _ (by decide)))
theorem hist_apart : ¬ Linked 3 hist 3 2 := by
  intro h
  have key : ∀ a b, Linked 3 hist a b → (a = 2 ↔ b = 2) := by
    intro a b hab
    induction hab with
    | rel x y hxy =>
      have : (x, y) ∈ [(0, 1), (3, 1)] := hxy
      simp at this; omega
    | refl x => rfl
    | symm x y _ ih => exact ih.symm
    | trans x y z _ _ ih1 ih2 => exact ih1.trans ih2
  have := (key 3 2 h).2 rfl
  omega
/-- `with_size(n)` succeeds for every size that fits the address space and yields the initial state all
histories below start from. -/
theorem withSize_ok (n : Nat) (hn : n * 16 < 2 ^ 63) : withSize n = .ok (List.replicate n Element.new) := by
  simp [withSize, vecRepeat, hn]

example : withSize 1000 = .ok (List.replicate 1000 Element.new) := withSize_ok 1000 (by decide)

/-- C20: after any history, `common_set(a, b)` with both indices in range answers whether `a` and `b` are
linked by earlier unions. -/
theorem C20_common_set_iff_linked (n : Nat) (ops : List Op) :
    ∃ s, run (List.replicate n Element.new) ops = .ok s ∧
      ∀ a b, a < size n ops → b < size n ops →
        ∃ s' ans, commonSet s a b = .ok (some ans, s') ∧ (ans = true ↔ Linked n ops a b) := by
  obtain ⟨s, hs, hlen, rep, rank, hI, _, hl⟩ := run_hist n ops
  refine ⟨s, hs, fun a b ha hb => ?_⟩
  obtain ⟨s', h, _⟩ := commonSet_spec hI (hlen ▸ ha) (hlen ▸ hb)
  exact ⟨s', _, h, by simpa using hl a b⟩

example : ∃ s s1 s2, run (List.replicate 3 Element.new) hist = .ok s ∧ commonSet s 3 0 = .ok (some true, s1) ∧
    commonSet s 3 2 = .ok (some false, s2) := by
  obtain ⟨s, h, key⟩ := C20_common_set_iff_linked 3 hist
  obtain ⟨s1, a1, h1, e1⟩ := key 3 0 (by decide) (by decide)
  obtain ⟨s2, a2, h2, e2⟩ := key 3 2 (by decide) (by decide)
  rw [e1.mpr hist_linked] at h1
  rw [Bool.eq_false_iff.mpr fun h => hist_apart (e2.mp h)] at h2
  exact ⟨s, s1, s2, h, h1, h2⟩

/-- C21 (representative): after any history there is one choice of representatives — constant on linked
elements, itself a member of the class — that every in-range `find` returns. -/
theorem C21_find_canonical (n : Nat) (ops : List Op) :
    ∃ (s : DSU) (rep : Nat → Nat), run (List.replicate n Element.new) ops = .ok s ∧
      (∀ a, a < size n ops → rep a < size n ops ∧ Linked n ops a (rep a) ∧
        ∃ s', find s a = .ok (some (rep a), s')) ∧
      (∀ a b, a < size n ops → b < size n ops → (rep a = rep b ↔ Linked n ops a b)) := by
  obtain ⟨s, hs, hlen, rep, rank, hI, _, hl⟩ := run_hist n ops
  refine ⟨s, rep, hs, fun a ha => ?_, fun a b _ _ => hl a b⟩
  obtain ⟨s', h, _⟩ := find_spec hI (hlen ▸ ha)
  exact ⟨hlen ▸ hI.rep_lt (hlen ▸ ha), (hl _ _).1 (hI.rep_rep (hlen ▸ ha)).symm, s', h⟩

example : ∃ s r s1 s2, run (List.replicate 3 Element.new) hist = .ok s ∧ find s 3 = .ok (some r, s1) ∧
    find s 0 = .ok (some r, s2) ∧ r ≠ 2 := by
  obtain ⟨s, rep, h, key, same⟩ := C21_find_canonical 3 hist
  obtain ⟨_, l1, s1, h1⟩ := key 3 (by decide)
  obtain ⟨_, _, s2, h2⟩ := key 0 (by decide)
  rw [← (same 3 0 (by decide) (by decide)).mpr hist_linked] at h2
  exact ⟨s, rep 3, s1, s2, h, h1, h2, fun e => hist_apart (e ▸ l1)⟩

/-- C21 (purity): interposing a `find` or `common_set` (in range or not) anywhere in a history changes
neither the answer of `find`, nor of `common_set`, nor of `union`. -/
theorem C21_queries_pure (n : Nat) (ops : List Op) (q : Op)
    (hq : (∃ i, q = .find i) ∨ (∃ i j, q = .commonSet i j)) :
    ∃ s t, run (List.replicate n Element.new) ops = .ok s ∧ step s q = .ok t ∧
      (∀ a, ∃ r s' t', find s a = .ok (r, s') ∧ find t a = .ok (r, t')) ∧
      (∀ a b, ∃ r s' t', commonSet s a b = .ok (r, s') ∧ commonSet t a b = .ok (r, t')) ∧
      (∀ a b, ∃ r s' t', union s a b = .ok (r, s') ∧ union t a b = .ok (r, t')) := by
  obtain ⟨s, hs, hlen, rep, rank, hI, hout, hl⟩ := run_hist n ops
  have key : ∃ t, step s q = .ok t ∧ Inv t rep rank ∧ Compressed s t := by
    rcases hq with ⟨i, rfl⟩ | ⟨i, j, rfl⟩
    · by_cases hi : i < s.length
      · obtain ⟨t, h1, h2, h3⟩ := find_spec hI hi
        exact ⟨t, by simp [step, h1], h2, h3⟩
      · exact ⟨s, by simp [step, find_none (show s.length ≤ i by omega)], hI, .refl s⟩
    · by_cases hij : i < s.length ∧ j < s.length
      · obtain ⟨t, h1, h2, h3⟩ := commonSet_spec hI hij.1 hij.2
        exact ⟨t, by simp [step, h1], h2, h3⟩
      · obtain ⟨t, h1, h2, h3⟩ := commonSet_none hI hij
        exact ⟨t, by simp [step, h1], h2, h3⟩
  obtain ⟨t, ht, hIt, hc⟩ := key
  refine ⟨s, t, hs, ht, fun a => ?_, fun a b => ?_, fun a b => ?_⟩
  · by_cases ha : a < s.length
    · obtain ⟨s', h1, _⟩ := find_spec hI ha
      obtain ⟨t', h2, _⟩ := find_spec hIt (hc.len ▸ ha)
      exact ⟨_, s', t', h1, h2⟩
    · exact ⟨none, s, t, find_none (by omega), find_none (by rw [hc.len]; omega)⟩
  · by_cases hab : a < s.length ∧ b < s.length
    · obtain ⟨s', h1, _⟩ := commonSet_spec hI hab.1 hab.2
      obtain ⟨t', h2, _⟩ := commonSet_spec hIt (hc.len ▸ hab.1) (hc.len ▸ hab.2)
      exact ⟨_, s', t', h1, h2⟩
    · obtain ⟨s', h1, _⟩ := commonSet_none hI hab
      obtain ⟨t', h2, _⟩ := commonSet_none hIt (by rw [hc.len]; exact hab)
      exact ⟨none, s', t', h1, h2⟩
  · by_cases hab : a < s.length ∧ b < s.length
    · -- both runs see the same roots with the same counts
      obtain ⟨s1, h1, hI1, c1⟩ := find_spec hI hab.1
      obtain ⟨s2, h2, hI2, c2⟩ := find_spec hI1 (c1.len ▸ hab.2)
      obtain ⟨t1, g1, hJ1, d1⟩ := find_spec hIt (hc.len ▸ hab.1)
      obtain ⟨t2, g2, hJ2, d2⟩ := find_spec hJ1 (d1.len ▸ hc.len ▸ hab.2)
      by_cases heq : rep a = rep b
      · exact ⟨some (rep a), s2, t2, by simp [union, h1, h2, heq], by simp [union, g1, g2, heq]⟩
      · obtain ⟨ea, qa, ra⟩ := hI.repRoot a hab.1
        obtain ⟨eb, qb, rb⟩ := hI.repRoot b hab.2
        have sa := (c1.trans c2).roots _ _ qa ra
        have sb := (c1.trans c2).roots _ _ qb rb
        have ta := ((hc.trans d1).trans d2).roots _ _ qa ra
        have tb := ((hc.trans d1).trans d2).roots _ _ qb rb
        have l1 := (List.getElem?_eq_some_iff.mp sa).1
        have l2 := (List.getElem?_eq_some_iff.mp sb).1
        have l3 := (List.getElem?_eq_some_iff.mp ta).1
        have l4 := (List.getElem?_eq_some_iff.mp tb).1
        by_cases hlt : ea.value < eb.value
        · exact ⟨some (rep a), _, _,
            by simp [union, h1, h2, heq, getP_some sa, getP_some sb, hlt, setP, l1, l2]; rfl,
            by simp [union, g1, g2, heq, getP_some ta, getP_some tb, hlt, setP, l3, l4]; rfl⟩
        · exact ⟨some (rep b), _, _,
            by simp [union, h1, h2, heq, getP_some sa, getP_some sb, hlt, setP, l1, l2]; rfl,
            by simp [union, g1, g2, heq, getP_some ta, getP_some tb, hlt, setP, l3, l4]; rfl⟩
    · obtain ⟨s', h1, _⟩ := union_none hI hab
      obtain ⟨t', h2, _⟩ := union_none hIt (by rw [hc.len]; exact hab)
      exact ⟨none, s', t', h1, h2⟩

/-- Also for the query that moves element 4 up. -/
example : ∃ t, step [⟨true, 5⟩, ⟨false, 0⟩, ⟨false, 0⟩, ⟨false, 0⟩, ⟨false, 3⟩] (.find 4) = .ok t ∧
    ∀ a, ∃ r s' t', find [⟨true, 5⟩, ⟨false, 0⟩, ⟨false, 0⟩, ⟨false, 0⟩, ⟨false, 3⟩] a = .ok (r, s') ∧ find t a = .ok (r, t') := by
  obtain ⟨s, t, h, ht, key, _⟩ := C21_queries_pure 5 [.union 0 1, .union 2 1, .union 3 4, .union 4 2] (.find 4) (.inl ⟨4, rfl⟩)
  rw [deep_run] at h
  cases h
  exact ⟨t, ht, key⟩

/-- C21 (purity, all later calls): whatever calls follow, a `find` or `common_set` put in before them changes none of the
values they return. -/
theorem C21_queries_pure_later (n : Nat) (ops : List Op) (q : Op)
    (hq : (∃ i, q = .find i) ∨ (∃ i j, q = .commonSet i j)) (later : List Op) :
    ∃ s t as s' t', run (List.replicate n Element.new) ops = .ok s ∧ step s q = .ok t ∧
      calls s later = .ok (as, s') ∧ calls t later = .ok (as, t') := by
  obtain ⟨s, hs, hlen, rep, rank, hI, hout, hl⟩ := run_hist n ops
  have key : ∃ t, step s q = .ok t ∧ Inv t rep rank ∧ Compressed s t := by
    rcases hq with ⟨i, rfl⟩ | ⟨i, j, rfl⟩
    · by_cases hi : i < s.length
      · obtain ⟨t, h1, h2, h3⟩ := find_spec hI hi
        exact ⟨t, by simp [step, h1], h2, h3⟩
      · exact ⟨s, by simp [step, find_none (show s.length ≤ i by omega)], hI, .refl s⟩
    · by_cases hij : i < s.length ∧ j < s.length
      · obtain ⟨t, h1, h2, h3⟩ := commonSet_spec hI hij.1 hij.2
        exact ⟨t, by simp [step, h1], h2, h3⟩
      · obtain ⟨t, h1, h2, h3⟩ := commonSet_none hI hij
        exact ⟨t, by simp [step, h1], h2, h3⟩
  obtain ⟨t, ht, hIt, hc⟩ := key
  have T : Twin s t := ⟨hc.len.symm, rep, rank, rank, hI, hIt, hout⟩
  obtain ⟨as, s', t', h1, h2⟩ := T.calls later
  exact ⟨s, t, as, s', t', hs, ht, h1, h2⟩

example : ∃ s t as s' t', run (List.replicate 3 Element.new) hist = .ok s ∧ step s (.commonSet 3 0) = .ok t ∧
    calls s [.union 3 2, .find 0, .find 9] = .ok (as, s') ∧ calls t [.union 3 2, .find 0, .find 9] = .ok (as, t') :=
  C21_queries_pure_later 3 hist (.commonSet 3 0) (.inr ⟨3, 0, rfl⟩) _

/-- C22: every history runs to completion without panic (so `find_helper`'s recursion always ends), the
number of elements is as expected, and each query returns `None` exactly if an index is out of range. -/
theorem C22_total_and_none_iff (n : Nat) (ops : List Op) :
    ∃ s, run (List.replicate n Element.new) ops = .ok s ∧ s.length = size n ops ∧
      (∀ a, ∃ r s', find s a = .ok (r, s') ∧ (r = none ↔ ¬ a < size n ops)) ∧
      (∀ a b, ∃ r s', commonSet s a b = .ok (r, s') ∧ (r = none ↔ ¬ (a < size n ops ∧ b < size n ops))) ∧
      (∀ a b, ∃ r s', union s a b = .ok (r, s') ∧ (r = none ↔ ¬ (a < size n ops ∧ b < size n ops))) := by
  obtain ⟨s, hs, hlen, rep, rank, hI, hout, hl⟩ := run_hist n ops
  rw [← hlen]
  refine ⟨s, hs, rfl, fun a => ?_, fun a b => ?_, fun a b => ?_⟩
  · by_cases ha : a < s.length
    · obtain ⟨s', h1, _⟩ := find_spec hI ha
      exact ⟨_, s', h1, by simp [ha]⟩
    · exact ⟨none, s, find_none (by omega), by simp; omega⟩
  · by_cases hab : a < s.length ∧ b < s.length
    · obtain ⟨s', h1, _⟩ := commonSet_spec hI hab.1 hab.2
      exact ⟨_, s', h1, by simp [hab]⟩
    · obtain ⟨s', h1, _⟩ := commonSet_none hI hab
      exact ⟨none, s', h1, by simp only [true_iff]; exact hab⟩
  · by_cases hab : a < s.length ∧ b < s.length
    · obtain ⟨s', r, _, _, h1, _⟩ := union_spec hI hab.1 hab.2
      exact ⟨_, s', h1, by simp [hab]⟩
    · obtain ⟨s', h1, _⟩ := union_none hI hab
      exact ⟨none, s', h1, by simp only [true_iff]; exact hab⟩

example : ∃ s s', run (List.replicate 3 Element.new) hist = .ok s ∧ s.length = 4 ∧ union s 3 4 = .ok (none, s') := by
  obtain ⟨s, h, l, _, _, key⟩ := C22_total_and_none_iff 3 hist
  obtain ⟨r, s', h1, h2⟩ := key 3 4
  rw [h2.mpr (by decide)] at h1
  exact ⟨s, s', h, l, h1⟩

/-- `Linked` after one more `union(i, j)`: exactly the two classes are merged (a fact about the
specification, used to read C23). -/
theorem linked_union (n : Nat) (ops : List Op) (i j : Nat) (hi : i < size n ops) (hj : j < size n ops)
    (a b : Nat) :
    Linked n (ops ++ [.union i j]) a b ↔
      Linked n ops a b ∨ (Linked n ops a i ∧ Linked n ops j b) ∨ (Linked n ops a j ∧ Linked n ops i b) := by
  obtain ⟨s, hs, hlen, rep, rank, hI, hout, hl⟩ := run_hist n ops
  have hlinks : links n (ops ++ [.union i j]) = links n ops ++ [(i, j)] := by
    rw [links_append]; simp [hi, hj]
  have h1 := merge_linked hl i j (rep i) (rep j) _ (.inl ⟨rfl, rfl⟩) rfl a b
  have h2 : Linked n (ops ++ [.union i j]) a b ↔
      Relation.EqvGen (fun u v => (u, v) ∈ links n ops ∨ (u = i ∧ v = j)) a b := by
    simp only [Linked, hlinks]
    apply eqvGen_iff
    intro u v; simp
  rw [h2, ← h1, ← hl, ← hl, ← hl, ← hl, ← hl]
  by_cases p : rep a = rep i <;> by_cases q : rep b = rep i <;> simp only [p, q, if_true, if_false] <;> grind

/-- C23 (merge): `union(i, j)` in range returns `Some`, and afterwards two elements are in a common set
exactly if they were before or one was with `i` and the other with `j`. -/
theorem C23_union_merges (n : Nat) (ops : List Op) (i j : Nat) (hi : i < size n ops) (hj : j < size n ops) :
    ∃ s r s', run (List.replicate n Element.new) ops = .ok s ∧ union s i j = .ok (some r, s') ∧
      ∀ a b, a < size n ops → b < size n ops → ∃ ans s'', commonSet s' a b = .ok (some ans, s'') ∧
        (ans = true ↔
          Linked n ops a b ∨ (Linked n ops a i ∧ Linked n ops j b) ∨ (Linked n ops a j ∧ Linked n ops i b)) := by
  obtain ⟨s, hs, hH⟩ := run_hist n ops
  obtain ⟨hlen, rep, rank, hI, hout, hl⟩ := hH
  obtain ⟨s', r, rep', rank', h1, hI', hlen', _⟩ := union_spec hI (hlen ▸ hi) (hlen ▸ hj)
  obtain ⟨s2, h2, hlen2, rep2, rank2, hI2, _, hl2⟩ :=
    step_hist (n := n) (ops := ops) (s := s) ⟨hlen, rep, rank, hI, hout, hl⟩ (.union i j)
  have : s2 = s' := by simp [step, h1] at h2; exact h2.symm
  subst this
  refine ⟨s, r, s2, hs, h1, fun a b ha hb => ?_⟩
  obtain ⟨s3, h3, _⟩ := commonSet_spec hI2 (i := a) (j := b) (by rw [hlen', hlen]; exact ha)
    (by rw [hlen', hlen]; exact hb)
  refine ⟨_, s3, h3, ?_⟩
  rw [← linked_union n ops i j hi hj a b, ← hl2]
  simp

/-- `union(3, 2)` brings 2 and 0 together. -/
example : ∃ s r s' s'', run (List.replicate 3 Element.new) hist = .ok s ∧ union s 3 2 = .ok (some r, s') ∧
    commonSet s' 2 0 = .ok (some true, s'') := by
  obtain ⟨s, r, s', h, hu, key⟩ := C23_union_merges 3 hist 3 2 (by decide) (by decide)
  obtain ⟨ans, s'', h1, h2⟩ := key 2 0 (by decide) (by decide)
  rw [h2.mpr (.inr (.inr ⟨.refl _, hist_linked⟩))] at h1
  exact ⟨s, r, s', s'', h, hu, h1⟩

/-- C23 (return value): `union` returns a former representative: the common one if the sets were already
equal, otherwise the representative that lost its status. -/
theorem C23_union_return (n : Nat) (ops : List Op) (i j : Nat) (hi : i < size n ops) (hj : j < size n ops) :
    ∃ s r s' ri rj si sj, run (List.replicate n Element.new) ops = .ok s ∧
      union s i j = .ok (some r, s') ∧ find s i = .ok (some ri, si) ∧ find s j = .ok (some rj, sj) ∧
      (r = ri ∨ r = rj) ∧
      (ri ≠ rj → ∃ f s'', find s' r = .ok (some f, s'') ∧ f ≠ r ∧ (f = ri ∨ f = rj)) := by
  obtain ⟨s, hs, hlen, rep, rank, hI, hout, hl⟩ := run_hist n ops
  have hi' : i < s.length := hlen ▸ hi
  have hj' : j < s.length := hlen ▸ hj
  obtain ⟨s', r, rep', rank', h1, hI', hlen', hcase⟩ := union_spec hI hi' hj'
  obtain ⟨si, hsi, _⟩ := find_spec hI hi'
  obtain ⟨sj, hsj, _⟩ := find_spec hI hj'
  refine ⟨s, r, s', rep i, rep j, si, sj, hs, h1, hsi, hsj, ?_, ?_⟩
  · rcases hcase with ⟨_, h, _⟩ | ⟨_, ⟨h, _⟩ | ⟨h, _⟩⟩
    · exact .inl h
    · exact .inl h
    · exact .inr h
  · intro hne
    rcases hcase with ⟨h, _⟩ | ⟨_, ⟨h, hr⟩ | ⟨h, hr⟩⟩
    · exact absurd h hne
    · have hrl : r < s'.length := by rw [hlen', h]; exact hI.rep_lt hi'
      obtain ⟨s'', h2, _⟩ := find_spec hI' hrl
      refine ⟨_, s'', h2, ?_⟩
      have : rep' r = rep j := by rw [hr, h]; simp [hI.rep_rep hi']
      rw [this, h]; exact ⟨Ne.symm hne, .inr rfl⟩
    · have hrl : r < s'.length := by rw [hlen', h]; exact hI.rep_lt hj'
      obtain ⟨s'', h2, _⟩ := find_spec hI' hrl
      refine ⟨_, s'', h2, ?_⟩
      have : rep' r = rep i := by rw [hr, h]; simp [hI.rep_rep hj']
      rw [this, h]; exact ⟨hne, .inl rfl⟩

example : ∃ s r s' ri si, run (List.replicate 3 Element.new) hist = .ok s ∧ union s 3 0 = .ok (some r, s') ∧
    find s 3 = .ok (some ri, si) ∧ r = ri := by
  obtain ⟨s, r, s', ri, rj, si, sj, h, hu, h1, h2, h3, _⟩ := C23_union_return 3 hist 3 0 (by decide) (by decide)
  obtain ⟨s1, rep, e, key, same⟩ := C21_find_canonical 3 hist
  obtain rfl := Prog.ok.inj (h.symm.trans e)
  obtain ⟨_, _, t, ht⟩ := key 3 (by decide)
  obtain ⟨_, _, t', ht'⟩ := key 0 (by decide)
  rw [h1] at ht; rw [h2] at ht'
  cases ht; cases ht'
  refine ⟨s, r, s', _, _, h, hu, h1, ?_⟩
  rw [← (same 3 0 (by decide) (by decide)).mpr hist_linked, or_self] at h3
  exact h3

/-- Number of elements linked to `a` (as a specification: count over all indices). -/
noncomputable def classSize (n : Nat) (ops : List Op) (a : Nat) : Nat :=
  open Classical in (List.range (size n ops)).countP (fun b => decide (Linked n ops a b))

theorem cnt_classSize {n ops rep} (hl : ∀ a b, rep a = rep b ↔ Linked n ops a b) (a r : Nat) (h : rep a = r) :
    cnt (size n ops) rep r = classSize n ops a := by
  simp only [cnt, classSize]
  apply List.countP_congr
  intro x _
  simp only [decide_eq_true_eq, ← hl, h]
  exact eq_comm

/-- C23 (sizes): the count stored at a root is the number of elements linked to it. -/
theorem C23_root_counts (n : Nat) (ops : List Op) :
    ∃ s, run (List.replicate n Element.new) ops = .ok s ∧
      ∀ r e, s[r]? = some e → e.root = true → e.value = classSize n ops r := by
  obtain ⟨s, hs, hlen, rep, rank, hI, hout, hl⟩ := run_hist n ops
  refine ⟨s, hs, fun r e hr he => ?_⟩
  obtain ⟨h1, h2, _⟩ := hI.root r e hr he
  rw [h2, hlen]; exact cnt_classSize hl r r h1

/-- In the run above the root 0 holds the count 5. -/
example : (5 : Nat) = classSize 5 [.union 0 1, .union 2 1, .union 3 4, .union 4 2] 0 := by
  obtain ⟨s, h, key⟩ := C23_root_counts 5 [.union 0 1, .union 2 1, .union 3 4, .union 4 2]
  rw [deep_run] at h
  cases h
  exact key 0 ⟨true, 5⟩ rfl rfl

/-- Every stored count is at most the number of elements (so `value += value` cannot overflow `usize`). -/
theorem size_le (n : Nat) (ops : List Op) :
    ∃ s, run (List.replicate n Element.new) ops = .ok s ∧
      ∀ (r : Nat) (e : Element), s[r]? = some e → e.value ≤ s.length := by
  obtain ⟨s, hs, hlen, rep, rank, hI, hout, hl⟩ := run_hist n ops
  refine ⟨s, hs, fun r e hr => ?_⟩
  cases he : e.root with
  | true => 
    rw [(hI.root r e hr he).2.1, cnt]
    exact Nat.le_trans (List.countP_le_length) (by simp)
  | false => exact Nat.le_of_lt (hI.nonroot r e hr he).1

theorem chain_rank {s rep rank} (hI : Inv s rep rank) {a k b : Nat} (h : Chain s a k b) (ha : a < s.length) :
    rank a + k ≤ rank b ∧ rep b = rep a ∧ b < s.length := by
  induction h with
  | nil a => exact ⟨Nat.le_refl _, rfl, ha⟩
  | cons hab _ ih =>
    obtain ⟨e, he, hr, rfl⟩ := hab
    obtain ⟨q1, q2, q3⟩ := hI.nonroot _ e he hr
    obtain ⟨i1, i2, i3⟩ := ih q1
    exact ⟨by omega, i2.trans q2, i3⟩

/-- C23 (balance): every chain of `k` parent links starting at `a` satisfies `2^k ≤` size of the class of
`a`; so `find_helper` recurses at most `log2` of the class size deep. -/
theorem C23_depth_log (n : Nat) (ops : List Op) :
    ∃ s, run (List.replicate n Element.new) ops = .ok s ∧
      ∀ a k b, a < size n ops → Chain s a k b → 2 ^ k ≤ classSize n ops a := by
  obtain ⟨s, hs, hlen, rep, rank, hI, hout, hl⟩ := run_hist n ops
  refine ⟨s, hs, fun a k b ha hch => ?_⟩
  have ha' : a < s.length := hlen ▸ ha
  obtain ⟨h1, h2, h3⟩ := chain_rank hI hch ha'
  obtain ⟨e, he, hr⟩ := hI.repRoot a ha'
  obtain ⟨q1, q2, q3⟩ := hI.root _ e he hr
  have hb := hI.bound b h3
  rw [h2] at hb
  rw [q2, hlen, cnt_classSize hl a (rep a) rfl] at q3
  exact Nat.le_trans (Nat.pow_le_pow_right (by omega) (by omega)) q3

example : Chain [⟨true, 5⟩, ⟨false, 0⟩, ⟨false, 0⟩, ⟨false, 0⟩, ⟨false, 3⟩] 4 2 0 :=
  .cons ⟨_, rfl, rfl, rfl⟩ (.cons ⟨_, rfl, rfl, rfl⟩ (.nil 0))

theorem chain_end {s rep rank} (hI : Inv s rep rank) : ∀ (m a : Nat), a < s.length → rank (rep a) - rank a ≤ m →
    ∃ k r, Chain s a k r ∧ s[r]?.map Element.root = some true := by
  intro m
  induction m with
  | zero =>
    intro a ha hm
    have hget : s[a]? = some s[a] := List.getElem?_eq_getElem ha
    cases he : s[a].root with
    | true => exact ⟨0, a, .nil a, by simp [hget, he]⟩
    | false =>
      obtain ⟨q1, q2, q3⟩ := hI.nonroot a _ hget he
      have := hI.bound _ q1
      rw [q2] at this; omega
  | succ m ih =>
    intro a ha hm
    have hget : s[a]? = some s[a] := List.getElem?_eq_getElem ha
    cases he : s[a].root with
    | true => exact ⟨0, a, .nil a, by simp [hget, he]⟩
    | false =>
      obtain ⟨q1, q2, q3⟩ := hI.nonroot a _ hget he
      obtain ⟨k, r, hc, hr⟩ := ih _ q1 (by rw [q2]; omega)
      exact ⟨k + 1, r, .cons ⟨_, hget, he, rfl⟩ hc, hr⟩

theorem boundedFind_chain {s : DSU} {a k r : Nat} (hc : Chain s a k r) (hr : s[r]?.map Element.root = some true) :
    boundedFind (k + 1) s a = findHelper s a ∧ boundedFind k s a = .panic := by
  induction hc with
  | nil a =>
    refine ⟨?_, rfl⟩
    rw [findHelper, boundedFind]
    cases he : s[a]? with
    | none => simp [he] at hr
    | some e => rw [he] at hr; simp [getP, he, by simpa using hr]
  | cons hab _ ih =>
    obtain ⟨e, he, hf, rfl⟩ := hab
    obtain ⟨h1, h2⟩ := ih hr
    constructor
    · rw [findHelper, boundedFind, getP_some he]
      simp only [Prog.ok_bind, h1]
    · rw [boundedFind, getP_some he, Prog.ok_bind, hf]
      simp only [Bool.false_eq_true, if_false, Prog.ok_bind, h2]
      rfl

/-- C89. After any history `find_helper` needs exactly one frame more than there are parent links to follow; it gets
along with `log2` of the size of the set plus one, so its stack is bounded by the logarithm of the number of elements. -/
theorem C89_find_frames (n : Nat) (ops : List Op) :
    ∃ s, run (List.replicate n Element.new) ops = .ok s ∧ ∀ a < size n ops,
      ∃ k r, Chain s a k r ∧ s[r]?.map Element.root = some true ∧
        boundedFind (k + 1) s a = findHelper s a ∧ boundedFind k s a = .panic ∧ k ≤ Nat.log2 (classSize n ops a) ∧
        k ≤ Nat.log2 (size n ops) := by
  obtain ⟨s, hs, hlen, rep, rank, hI, hout, hl⟩ := run_hist n ops
  obtain ⟨s', hs', hd⟩ := C23_depth_log n ops
  obtain rfl := Prog.ok.inj (hs.symm.trans hs')
  refine ⟨s, hs, fun a ha => ?_⟩
  obtain ⟨k, r, hc, hr⟩ := chain_end hI _ a (hlen ▸ ha) (Nat.le_refl _)
  obtain ⟨h1, h2⟩ := boundedFind_chain hc hr
  have h3 := hd a k r ha hc
  have h4 : classSize n ops a ≤ size n ops := by
    unfold classSize
    exact Nat.le_trans List.countP_le_length (by simp)
  have hpos : 0 < 2 ^ k := Nat.two_pow_pos k
  exact ⟨k, r, hc, hr, h1, h2, (Nat.le_log2 (by omega)).mpr h3, (Nat.le_log2 (by omega)).mpr (Nat.le_trans h3 h4)⟩

/-- There `find_helper` needs three frames, and the next time two (C89, C63). -/
example : boundedFind 3 [⟨true, 5⟩, ⟨false, 0⟩, ⟨false, 0⟩, ⟨false, 0⟩, ⟨false, 3⟩] 4 =
      .ok (0, [⟨true, 5⟩, ⟨false, 0⟩, ⟨false, 0⟩, ⟨false, 0⟩, ⟨false, 0⟩]) ∧
    boundedFind 2 [⟨true, 5⟩, ⟨false, 0⟩, ⟨false, 0⟩, ⟨false, 0⟩, ⟨false, 3⟩] 4 = .panic ∧
    boundedFind 2 [⟨true, 5⟩, ⟨false, 0⟩, ⟨false, 0⟩, ⟨false, 0⟩, ⟨false, 0⟩] 4 =
      .ok (0, [⟨true, 5⟩, ⟨false, 0⟩, ⟨false, 0⟩, ⟨false, 0⟩, ⟨false, 0⟩]) := ⟨rfl, rfl, rfl⟩

/-- C63 (path compression): after any history, an in-range `find(a)` returning `r` makes `r` the parent of every
non-root element on the parent chain of `a` — and changes nothing else. -/
theorem C63_path_compression (n : Nat) (ops : List Op) (a : Nat) (ha : a < size n ops) :
    ∃ s r s', run (List.replicate n Element.new) ops = .ok s ∧ find s a = .ok (some r, s') ∧
      s'.length = s.length ∧ ∀ j e, s[j]? = some e →
        ((∃ d, Chain s a d j) ∧ e.root = false → s'[j]? = some ⟨false, r⟩) ∧
        (¬ ((∃ d, Chain s a d j) ∧ e.root = false) → s'[j]? = some e) := by
  obtain ⟨s, hs, hlen, rep, rank, hI, hout, hl⟩ := run_hist n ops
  obtain ⟨s', h1, h2, h3⟩ := find_exact hI (i := a) (hlen ▸ ha)
  exact ⟨s, rep a, s', hs, h1, h2, h3⟩

/-- `find(4)` after the run above: 4 now hangs from the root 0. -/
example : ∃ s r s', run (List.replicate 5 Element.new) [.union 0 1, .union 2 1, .union 3 4, .union 4 2] = .ok s ∧
    find s 4 = .ok (some r, s') ∧ s[4]? = some ⟨false, 3⟩ ∧ s'[4]? = some ⟨false, r⟩ := by
  obtain ⟨s, r, s', h, hf, _, key⟩ := C63_path_compression 5 [.union 0 1, .union 2 1, .union 3 4, .union 4 2] 4 (by decide)
  rw [deep_run] at h
  cases h
  exact ⟨_, r, s', deep_run, hf, rfl, (key 4 _ rfl).1 ⟨⟨0, .nil 4⟩, rfl⟩⟩

/-- C63 (consequence): right after `find(a)`, every chain starting at `a` has at most one link. -/
theorem C63_second_find_short (n : Nat) (ops : List Op) (a : Nat) (ha : a < size n ops) :
    ∃ s r s', run (List.replicate n Element.new) ops = .ok s ∧ find s a = .ok (some r, s') ∧
      ∀ k b, Chain s' a k b → k ≤ 1 := by
  obtain ⟨s, hs, hlen, rep, rank, hI, hout, hl⟩ := run_hist n ops
  have ha' : a < s.length := hlen ▸ ha
  obtain ⟨s', h1, h2, h3⟩ := find_exact hI ha'
  obtain ⟨s'', g1, hI'', hc⟩ := find_spec hI ha'
  have : s'' = s' := by rw [h1] at g1; simpa using g1.symm
  subst this
  refine ⟨s, rep a, s'', hs, h1, fun k b hch => ?_⟩
  obtain ⟨er, her, hrr⟩ := hI''.repRoot a (h2 ▸ ha')
  cases hch with
  | nil => omega
  | cons hab hbc =>
    obtain ⟨e, he, hr, rfl⟩ := hab
    have hget : s[a]? = some s[a] := List.getElem?_eq_getElem ha'
    have hf := hc.flag a
    rw [he, hget] at hf
    have hra : s[a].root = false := by simpa [hr] using hf.symm
    have := (h3 a _ hget).1 ⟨⟨0, .nil a⟩, hra⟩
    rw [he] at this
    cases this
    cases hbc with
    | nil => omega
    | cons hbd _ =>
      obtain ⟨e', he', hr', _⟩ := hbd
      rw [her] at he'; cases he'; simp [hrr] at hr'

example : ∃ s r s', run (List.replicate 5 Element.new) [.union 0 1, .union 2 1, .union 3 4, .union 4 2] = .ok s ∧
    find s 4 = .ok (some r, s') ∧ ∀ k b, Chain s' 4 k b → k ≤ 1 :=
  C63_second_find_short 5 [.union 0 1, .union 2 1, .union 3 4, .union 4 2] 4 (by decide)

/-- C64 (union by size): `union(i, j)` of different sets dissolves the representative of the smaller set — the second
one on a tie —, returns it, and the other representative stands for both sets from then on. -/
theorem C64_union_by_size (n : Nat) (ops : List Op) (i j : Nat) (hi : i < size n ops) (hj : j < size n ops)
    (hij : ¬ Linked n ops i j) :
    ∃ s s' ri rj si sj, run (List.replicate n Element.new) ops = .ok s ∧
      find s i = .ok (some ri, si) ∧ find s j = .ok (some rj, sj) ∧
      union s i j = .ok (some (if classSize n ops i < classSize n ops j then ri else rj), s') ∧
      ∀ k, Linked n ops k i ∨ Linked n ops k j → k < size n ops → ∃ s'',
        find s' k = .ok (some (if classSize n ops i < classSize n ops j then rj else ri), s'') := by
  obtain ⟨s, hs, hlen, rep, rank, hI, hout, hl⟩ := run_hist n ops
  have hi' : i < s.length := hlen ▸ hi
  have hj' : j < s.length := hlen ▸ hj
  have hne : rep i ≠ rep j := fun h => hij ((hl i j).1 h)
  obtain ⟨si, hsi, _⟩ := find_spec hI hi'
  obtain ⟨sj, hsj, _⟩ := find_spec hI hj'
  obtain ⟨s', r, rep', rank', h1, hI', hlen', hlt, hge⟩ := union_by_size hI hi' hj' hne
  rw [hlen, cnt_classSize hl i _ rfl, cnt_classSize hl j _ rfl] at hlt hge
  refine ⟨s, s', rep i, rep j, si, sj, hs, hsi, hsj, ?_, fun k hk hkl => ?_⟩
  · by_cases h : classSize n ops i < classSize n ops j
    · rw [if_pos h, h1, (hlt h).1]
    · rw [if_neg h, h1, (hge h).1]
  · rw [← hl, ← hl] at hk
    obtain ⟨s'', h2, _⟩ := find_spec hI' (i := k) (by rw [hlen', hlen]; exact hkl)
    refine ⟨s'', ?_⟩
    rw [h2]
    by_cases h : classSize n ops i < classSize n ops j
    · rw [if_pos h, (hlt h).2]
      rcases hk with hk | hk
      · simp [hk]
      · simp [hk, Ne.symm hne]
    · rw [if_neg h, (hge h).2]
      rcases hk with hk | hk
      · simp [hk, hne]
      · simp [hk]

/-- 3 and 2 of the history `hist` are in different sets. -/
example : ∃ s s' ri rj si sj, run (List.replicate 3 Element.new) hist = .ok s ∧
    find s 3 = .ok (some ri, si) ∧ find s 2 = .ok (some rj, sj) ∧
    union s 3 2 = .ok (some (if classSize 3 hist 3 < classSize 3 hist 2 then ri else rj), s') := by
  obtain ⟨s, s', ri, rj, si, sj, h, h1, h2, h3, _⟩ := C64_union_by_size 3 hist 3 2 (by decide) (by decide) hist_apart
  exact ⟨s, s', ri, rj, si, sj, h, h1, h2, h3⟩

end DisjointSet.Props
