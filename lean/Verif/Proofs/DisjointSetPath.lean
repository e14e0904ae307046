import Verif.Proofs.DisjointSet

/-! Path compression: the exact vector `find_helper` leaves behind. -/
namespace DisjointSet

theorem chain_root {s : DSU} {a k b : Nat} {e : Element} (h : Spec.Chain s a k b) (he : s[a]? = some e)
    (hr : e.root = true) : b = a := by
  cases h with
  | nil => rfl
  | cons hab _ =>
    obtain ⟨e', h1, h2, _⟩ := hab
    rw [he] at h1; cases h1; simp [hr] at h2

/-- Exact effect of `find_helper`: every non-root element on the parent chain of `i` gets the root as parent, nothing
else changes. -/
theorem findHelper_exact {rep rank : Nat → Nat} : ∀ (k : Nat) (s : DSU) (i : Nat), Inv s rep rank →
    i < s.length → rank (rep i) - rank i ≤ k →
    ∃ s', findHelper s i = .ok (rep i, s') ∧ s'.length = s.length ∧ ∀ j e, s[j]? = some e →
      ((∃ d, Spec.Chain s i d j) ∧ e.root = false → s'[j]? = some ⟨false, rep i⟩) ∧
      (¬ ((∃ d, Spec.Chain s i d j) ∧ e.root = false) → s'[j]? = some e) := by
  intro k
  induction k with
  | zero =>
    intro s i hI hi hk
    have hget : s[i]? = some s[i] := List.getElem?_eq_getElem hi
    cases hr : s[i].root with
    | true =>
      have := (hI.root i _ hget hr).1
      refine ⟨s, by rw [findHelper]; simp [getP_some hget, hr, this], rfl, fun j e he => ⟨?_, fun _ => he⟩⟩
      rintro ⟨⟨d, hd⟩, hf⟩
      rw [chain_root hd hget hr, hget] at he
      cases he
      simp [hr] at hf
    | false =>
      obtain ⟨h1, h2, h3⟩ := hI.nonroot i _ hget hr
      have := hI.bound _ h1
      rw [h2] at this
      omega
  | succ k ih =>
    intro s i hI hi hk
    have hget : s[i]? = some s[i] := List.getElem?_eq_getElem hi
    cases hr : s[i].root with
    | true =>
      have := (hI.root i _ hget hr).1
      refine ⟨s, by rw [findHelper]; simp [getP_some hget, hr, this], rfl, fun j e he => ⟨?_, fun _ => he⟩⟩
      rintro ⟨⟨d, hd⟩, hf⟩
      rw [chain_root hd hget hr, hget] at he
      cases he
      simp [hr] at hf
    | false =>
      obtain ⟨h1, h2, h3⟩ := hI.nonroot i _ hget hr
      obtain ⟨s', hs', hl, hex⟩ := ih s s[i].value hI h1 (by rw [h2]; omega)
      have hi' : i < s'.length := hl ▸ hi
      have hget' : s'[i]? = some s'[i] := List.getElem?_eq_getElem hi'
      have hr' : s'[i].root = false := by
        have h := hex i _ hget
        by_cases hc : (∃ d, Spec.Chain s s[i].value d i) ∧ s[i].root = false
        · have := h.1 hc
          rw [hget'] at this
          cases h'' : s'[i]; rw [h''] at this; cases this; rfl
        · have := h.2 hc
          rw [hget'] at this
          rw [Option.some.inj this]; exact hr
      refine ⟨s'.set i { s'[i] with value := rep i }, ?_, by simp [hl], ?_⟩
      · rw [findHelper]
        simp [getP_some hget, hr, hs', getP_some hget', setP_ok hi', h2]
      · intro j e he
        by_cases hij : i = j
        · subst hij
          rw [hget] at he; cases he
          rw [List.getElem?_set_self hi']
          refine ⟨fun _ => by simp [hr'], fun hn => absurd ⟨⟨0, .nil i⟩, hr⟩ hn⟩
        · rw [List.getElem?_set_ne hij]
          have hiff : (∃ d, Spec.Chain s i d j) ↔ ∃ d, Spec.Chain s s[i].value d j := by
            constructor
            · rintro ⟨d, hd⟩
              cases hd with
              | nil => exact absurd rfl hij
              | cons hab g4 =>
                obtain ⟨e', g1, g2, g3⟩ := hab
                rw [hget] at g1; cases g1; subst g3; exact ⟨_, g4⟩
            · rintro ⟨d, hd⟩; exact ⟨d + 1, .cons ⟨_, hget, hr, rfl⟩ hd⟩
          rw [hiff, ← h2]
          exact hex j e he

theorem find_exact {rep rank : Nat → Nat} {s : DSU} (hI : Inv s rep rank) {i : Nat} (hi : i < s.length) :
    ∃ s', find s i = .ok (some (rep i), s') ∧ s'.length = s.length ∧ ∀ j e, s[j]? = some e →
      ((∃ d, Spec.Chain s i d j) ∧ e.root = false → s'[j]? = some ⟨false, rep i⟩) ∧
      (¬ ((∃ d, Spec.Chain s i d j) ∧ e.root = false) → s'[j]? = some e) := by
  obtain ⟨s', h, hl, hc⟩ := findHelper_exact _ s i hI hi (Nat.le_refl _)
  exact ⟨s', by simp [find, show ¬ s.length ≤ i by omega, h], hl, hc⟩

/-- Which root `union` keeps: the one with the larger count, the first one on a tie. -/
theorem union_by_size {rep rank : Nat → Nat} {s : DSU} (hI : Inv s rep rank) {i j : Nat}
    (hi : i < s.length) (hj : j < s.length) (hne : rep i ≠ rep j) :
    ∃ s' r rep' rank', union s i j = .ok (some r, s') ∧ Inv s' rep' rank' ∧ s'.length = s.length ∧
      (cnt s.length rep (rep i) < cnt s.length rep (rep j) → r = rep i ∧
        rep' = fun k => if rep k = rep i then rep j else rep k) ∧
      (¬ cnt s.length rep (rep i) < cnt s.length rep (rep j) → r = rep j ∧
        rep' = fun k => if rep k = rep j then rep i else rep k) := by
  obtain ⟨s1, h1, hI1, hc1⟩ := find_spec hI hi
  obtain ⟨s2, h2, hI2, hc2⟩ := find_spec hI1 (hc1.len ▸ hj)
  have hlen : s2.length = s.length := hc2.len.trans hc1.len
  obtain ⟨e1, g1, r1⟩ := hI2.repRoot i (hlen ▸ hi)
  obtain ⟨e2, g2, r2⟩ := hI2.repRoot j (hlen ▸ hj)
  have l1 : rep i < s2.length := (List.getElem?_eq_some_iff.mp g1).1
  have l2 : rep j < s2.length := (List.getElem?_eq_some_iff.mp g2).1
  have v1 : e1.value = cnt s.length rep (rep i) := by rw [← hlen]; exact (hI2.root _ _ g1 r1).2.1
  have v2 : e2.value = cnt s.length rep (rep j) := by rw [← hlen]; exact (hI2.root _ _ g2 r2).2.1
  rw [← v1, ← v2]
  by_cases hlt : e1.value < e2.value
  · refine ⟨_, rep i, _, _, ?_, merge_inv hI2 g1 g2 r1 r2 hne (by omega), by simpa using hlen,
      fun _ => ⟨rfl, rfl⟩, fun h => absurd hlt h⟩
    simp [union, h1, h2, hne, getP_some g1, getP_some g2, hlt, setP, l1, l2]
  · refine ⟨_, rep j, _, _, ?_, merge_inv hI2 g2 g1 r2 r1 (Ne.symm hne) (by omega), by simpa using hlen,
      fun h => absurd h hlt, fun _ => ⟨rfl, rfl⟩⟩
    simp [union, h1, h2, hne, getP_some g1, getP_some g2, hlt, setP, l1, l2]

end DisjointSet
