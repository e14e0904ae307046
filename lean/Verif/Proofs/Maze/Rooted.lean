import Verif.Proofs.Maze.Dfs

/-! Helper lemmas: the order of the cells of a tree along the routes from cell 0. -/
namespace Maze
open Spec

variable {w h : Nat}

section graph

variable {V : Type} {G : SimpleGraph V} {r : V}

/-- `a` lies on a path from `r` to `b`. -/
def Anc (G : SimpleGraph V) (r a b : V) : Prop := ∃ p : G.Walk r b, p.IsPath ∧ a ∈ p.support

theorem path_unique (hG : G.IsAcyclic) {a b : V} {p q : G.Walk a b} (hp : p.IsPath) (hq : q.IsPath) : p = q :=
  congrArg Subtype.val ((hG.subsingleton_path _ _).elim ⟨p, hp⟩ ⟨q, hq⟩)

theorem Anc.refl (hG : G.Connected) (a : V) : Anc G r a a := by
  classical
  obtain ⟨p⟩ := hG.preconnected r a
  exact ⟨p.toPath.1, p.toPath.2, SimpleGraph.Walk.end_mem_support _⟩

theorem Anc.root (hG : G.Connected) (a : V) : Anc G r r a := by
  classical
  obtain ⟨p⟩ := hG.preconnected r a
  exact ⟨p.toPath.1, p.toPath.2, SimpleGraph.Walk.start_mem_support _⟩

theorem Anc.trans (hG : G.IsAcyclic) {a b c : V} (h1 : Anc G r a b) (h2 : Anc G r b c) : Anc G r a c := by
  classical
  obtain ⟨p, hp, ha⟩ := h1
  obtain ⟨q, hq, hb⟩ := h2
  obtain rfl := path_unique hG hp (hq.takeUntil hb)
  exact ⟨q, hq, q.support_takeUntil_subset_support hb ha⟩

theorem Anc.antisymm (hG : G.IsAcyclic) {a b : V} (h1 : Anc G r a b) (h2 : Anc G r b a) : a = b := by
  classical
  by_contra hne
  obtain ⟨p, hp, ha⟩ := h1
  obtain ⟨q, hq, hb⟩ := h2
  have e1 := path_unique hG hp (hq.takeUntil hb)
  have e2 := path_unique hG hq (hp.takeUntil ha)
  have l1 := SimpleGraph.Walk.length_takeUntil_lt hb (Ne.symm hne)
  have l2 := SimpleGraph.Walk.length_takeUntil_lt ha hne
  rw [← e1] at l1
  rw [← e2] at l2
  omega

/-- Two cells on one route. -/
theorem Anc.chain {a b x : V} (hG : G.IsAcyclic) (h1 : Anc G r a x) (h2 : Anc G r b x) :
    Anc G r a b ∨ Anc G r b a := by
  classical
  obtain ⟨p, hp, ha⟩ := h1
  obtain ⟨q, hq, hb⟩ := h2
  obtain rfl := path_unique hG hp hq
  have hs := p.take_spec hb
  rw [← hs, SimpleGraph.Walk.mem_support_append_iff] at ha
  rcases ha with ha | ha
  · exact .inl ⟨_, hp.takeUntil hb, ha⟩
  · right
    refine ⟨(p.takeUntil b hb).append ((p.dropUntil b hb).takeUntil a ha), ?_, ?_⟩
    · have : ((p.takeUntil b hb).append ((p.dropUntil b hb).takeUntil a ha)).append
          ((p.dropUntil b hb).dropUntil a ha) = p := by
        rw [← SimpleGraph.Walk.append_assoc, SimpleGraph.Walk.take_spec, hs]
      rw [← this] at hp
      exact hp.of_append_left
    · rw [SimpleGraph.Walk.mem_support_append_iff]
      exact .inl (SimpleGraph.Walk.end_mem_support _)

/-- `u` is the next cell after `c` on the route to `u`. -/
structure Child (G : SimpleGraph V) (r c u : V) : Prop where
  adj : G.Adj c u
  anc : Anc G r c u

theorem Child.of_adj (hG : G.IsTree) {a b : V} (hab : G.Adj a b) : Child G r a b ∨ Child G r b a := by
  classical
  obtain ⟨p, hp, -⟩ := Anc.refl (r := r) hG.connected a
  by_cases hb : b ∈ p.support
  · exact .inr ⟨hab.symm, p, hp, hb⟩
  · refine .inl ⟨hab, p.concat hab, hp.concat hb hab, ?_⟩
    rw [SimpleGraph.Walk.support_concat]
    simp

/-- What lies before `b` on the route to `b`. -/
theorem Child.before (hG : G.IsTree) {c b x : V} (hc : Child G r c b) (hx : Anc G r x b) : x = b ∨ Anc G r x c := by
  classical
  obtain ⟨p, hp, -⟩ := Anc.refl (r := r) hG.connected c
  have hb : b ∉ p.support := fun hb =>
    hc.adj.ne (Anc.antisymm hG.isAcyclic hc.anc ⟨p, hp, hb⟩)
  obtain ⟨q, hq, hm⟩ := hx
  obtain rfl := path_unique hG.isAcyclic hq (hp.concat hb hc.adj)
  rw [SimpleGraph.Walk.support_concat] at hm
  simp only [List.mem_append, List.mem_singleton] at hm
  rcases hm with hm | hm
  · exact .inr ⟨p, hp, hm⟩
  · exact .inl hm

/-- The next cell on the route from `c` to `x`. -/
theorem Anc.next {c x : V} (h1 : Anc G r c x) (hne : c ≠ x) : ∃ u, Child G r c u ∧ Anc G r u x := by
  classical
  obtain ⟨p, hp, hm⟩ := h1
  have hs := p.take_spec hm
  cases hd : p.dropUntil c hm with
  | nil => exact absurd rfl hne
  | cons hadj q =>
    rename_i u
    rw [hd, ← SimpleGraph.Walk.concat_append] at hs
    have hp' := hp
    rw [← hs] at hp'
    refine ⟨u, ⟨hadj, _, hp'.of_append_left, ?_⟩, p, hp, ?_⟩
    · rw [SimpleGraph.Walk.support_concat]
      simp
    · rw [← hs, SimpleGraph.Walk.mem_support_append_iff]
      exact .inr (SimpleGraph.Walk.start_mem_support _)

theorem Child.unique (hG : G.IsTree) {c u v x : V} (hu : Child G r c u) (hv : Child G r c v) (h1 : Anc G r u x)
    (h2 : Anc G r v x) : u = v := by
  have key : ∀ {u v : V}, Child G r c u → Child G r c v → Anc G r u v → u = v := by
    intro u v hu hv h
    rcases hv.before hG h with h | h
    · exact h
    · exact absurd (Anc.antisymm hG.isAcyclic hu.anc h) hu.adj.ne
  rcases Anc.chain hG.isAcyclic h1 h2 with h | h
  · exact key hu hv h
  · exact (key hv hu h).symm

theorem Child.parent (hG : G.IsTree) {c c' u : V} (h1 : Child G r c u) (h2 : Child G r c' u) : c = c' := by
  rcases h1.before hG h2.anc with h | h
  · exact absurd h h2.adj.ne
  · rcases h2.before hG h1.anc with h' | h'
    · exact absurd h' h1.adj.ne
    · exact Anc.antisymm hG.isAcyclic h' h

theorem Anc.parent (hG : G.Connected) {u : V} (hu : u ≠ r) : ∃ c, Child G r c u := by
  classical
  obtain ⟨p, hp, -⟩ := Anc.refl (r := r) hG u
  cases p with
  | nil => exact absurd rfl hu
  | cons hadj q =>
    obtain ⟨x, q', hx, e⟩ := SimpleGraph.Walk.exists_cons_eq_concat hadj q
    rw [e] at hp
    refine ⟨x, hx, _, hp, ?_⟩
    rw [SimpleGraph.Walk.support_concat]
    simp

end graph

end Maze
