import Verif.Proofs.DisjointSet
import Verif.Proofs.DisjointSetPath
import Verif.Spec.DisjointSet

/-! Two forests for the same sets with the same representatives answer alike (C21). -/
namespace DisjointSet
open Spec

/-- Both forests have the representatives `rep`. -/
def Twin (s t : DSU) : Prop := s.length = t.length ∧
  ∃ rep rank rank', Inv s rep rank ∧ Inv t rep rank' ∧ ∀ i, s.length ≤ i → rep i = i

theorem rep_ext {s : DSU} {rep rank : Nat → Nat} (hI : Inv s rep rank) (ho : ∀ i, s.length ≤ i → rep i = i) {a b : Nat}
    (ha : a < s.length) (hb : b < s.length) :
    ∀ i, s.length ≤ i → (fun k => if rep k = rep a then rep b else rep k) i = i := by
  intro i hi
  have h1 := hI.rep_lt ha
  have h2 := ho i hi
  show (if rep i = rep a then rep b else rep i) = i
  rw [if_neg (by omega), h2]

theorem Twin.call {s t : DSU} (T : Twin s t) (op : Op) :
    ∃ a s' t', Spec.call s op = .ok (a, s') ∧ Spec.call t op = .ok (a, t') ∧ Twin s' t' := by
  obtain ⟨hl, rep, rank, rank', hI, hJ, ho⟩ := T
  cases op with
  | add =>
    refine ⟨_, _, _, rfl, rfl, by simp [add, hl], rep, _, _, add_inv hI ho, add_inv hJ (hl ▸ ho), fun i hi => ho i ?_⟩
    simp [add] at hi; omega
  | find i =>
    by_cases hi : i < s.length
    · obtain ⟨s', h1, h2, h3⟩ := find_spec hI hi
      obtain ⟨t', g1, g2, g3⟩ := find_spec hJ (hl ▸ hi)
      exact ⟨_, s', t', by simp [Spec.call, h1]; rfl, by simp [Spec.call, g1], by rw [h3.len, g3.len, hl], rep, _, _, h2, g2,
        by rw [h3.len]; exact ho⟩
    · refine ⟨.index none, s, t, ?_, ?_, hl, rep, _, _, hI, hJ, ho⟩
      · simp [Spec.call, find_none (show s.length ≤ i by omega)]
      · simp [Spec.call, find_none (show t.length ≤ i by omega)]
  | commonSet i j =>
    by_cases hij : i < s.length ∧ j < s.length
    · obtain ⟨s', h1, h2, h3⟩ := commonSet_spec hI hij.1 hij.2
      obtain ⟨t', g1, g2, g3⟩ := commonSet_spec hJ (hl ▸ hij.1) (hl ▸ hij.2)
      exact ⟨_, s', t', by simp [Spec.call, h1]; rfl, by simp [Spec.call, g1], by rw [h3.len, g3.len, hl], rep, _, _, h2, g2,
        by rw [h3.len]; exact ho⟩
    · obtain ⟨s', h1, h2, h3⟩ := commonSet_none hI hij
      obtain ⟨t', g1, g2, g3⟩ := commonSet_none hJ (hl ▸ hij)
      exact ⟨_, s', t', by simp [Spec.call, h1]; rfl, by simp [Spec.call, g1], by rw [h3.len, g3.len, hl], rep, _, _, h2, g2,
        by rw [h3.len]; exact ho⟩
  | union i j =>
    by_cases hij : i < s.length ∧ j < s.length
    · by_cases heq : rep i = rep j
      · obtain ⟨s', r, rep1, rk1, h1, h2, h3, ⟨_, rfl, rfl⟩ | ⟨hne, _⟩⟩ := union_spec hI hij.1 hij.2
        · obtain ⟨t', r, rep2, rk2, g1, g2, g3, ⟨_, rfl, rfl⟩ | ⟨hne, _⟩⟩ := union_spec hJ (hl ▸ hij.1) (hl ▸ hij.2)
          · exact ⟨_, s', t', by simp [Spec.call, h1]; rfl, by simp [Spec.call, g1], by rw [h3, g3, hl], _, _, _, h2, g2,
              by rw [h3]; exact ho⟩
          · exact absurd heq hne
        · exact absurd heq hne
      · obtain ⟨s', r, rep1, rk1, h1, h2, h3, hlt, hge⟩ := union_by_size hI hij.1 hij.2 heq
        obtain ⟨t', r', rep2, rk2, g1, g2, g3, hlt', hge'⟩ := union_by_size hJ (hl ▸ hij.1) (hl ▸ hij.2) heq
        rw [← hl] at hlt' hge'
        by_cases hc : cnt s.length rep (rep i) < cnt s.length rep (rep j)
        · obtain ⟨rfl, rfl⟩ := hlt hc
          obtain ⟨rfl, rfl⟩ := hlt' hc
          exact ⟨_, s', t', by simp [Spec.call, h1]; rfl, by simp [Spec.call, g1], by rw [h3, g3, hl], _, _, _, h2, g2,
            by rw [h3]; exact rep_ext hI ho hij.1 hij.2⟩
        · obtain ⟨rfl, rfl⟩ := hge hc
          obtain ⟨rfl, rfl⟩ := hge' hc
          exact ⟨_, s', t', by simp [Spec.call, h1]; rfl, by simp [Spec.call, g1], by rw [h3, g3, hl], _, _, _, h2, g2,
            by rw [h3]; exact rep_ext hI ho hij.2 hij.1⟩
    · obtain ⟨s', h1, h2, h3⟩ := union_none hI hij
      obtain ⟨t', g1, g2, g3⟩ := union_none hJ (hl ▸ hij)
      exact ⟨_, s', t', by simp [Spec.call, h1]; rfl, by simp [Spec.call, g1], by rw [h3.len, g3.len, hl], rep, _, _, h2, g2,
        by rw [h3.len]; exact ho⟩

theorem Twin.calls (ops : List Op) : ∀ {s t : DSU}, Twin s t →
    ∃ as s' t', Spec.calls s ops = .ok (as, s') ∧ Spec.calls t ops = .ok (as, t') := by
  induction ops with
  | nil => exact fun _ => ⟨_, _, _, rfl, rfl⟩
  | cons op ops ih =>
    intro s t T
    obtain ⟨a, s1, t1, h1, g1, T1⟩ := T.call op
    obtain ⟨as, s2, t2, h2, g2⟩ := ih T1
    exact ⟨a :: as, s2, t2, by rw [Spec.calls, h1]; simp [h2], by rw [Spec.calls, g1]; simp [g2]⟩

end DisjointSet
