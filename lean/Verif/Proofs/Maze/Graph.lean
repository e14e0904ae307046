import Verif.Spec.Maze
import Verif.Proofs.DisjointSet
import Mathlib.Combinatorics.SimpleGraph.Acyclic
import Mathlib.Combinatorics.SimpleGraph.Metric

/-! Helper lemmas: opening one wall adds one edge to the passage graph. -/
namespace Maze
open Spec

variable {w h : Nat}

/-- Reachability between cell numbers. -/
def R (w h : Nat) (g : List MazeNode) (a b : Nat) : Prop :=
  ∃ (ha : a < w * h) (hb : b < w * h), (graph w h g).Reachable ⟨a, ha⟩ ⟨b, hb⟩

theorem R.refl {g a} (ha : a < w * h) : R w h g a a := ⟨ha, ha, SimpleGraph.Reachable.refl _⟩
theorem R.symm {g a b} (H : R w h g a b) : R w h g b a := by
  obtain ⟨ha, hb, H⟩ := H; exact ⟨hb, ha, H.symm⟩
theorem R.trans {g a b c} (H : R w h g a b) (H' : R w h g b c) : R w h g a c := by
  obtain ⟨ha, hb, H⟩ := H; obtain ⟨_, hc, H'⟩ := H'; exact ⟨ha, hc, H.trans H'⟩

theorem reachable_sup_edge {V : Type} (G : SimpleGraph V) (s t x y : V) :
    (G ⊔ SimpleGraph.edge s t).Reachable x y ↔
      G.Reachable x y ∨ (G.Reachable x s ∧ G.Reachable t y) ∨ (G.Reachable x t ∧ G.Reachable s y) := by
  constructor
  · rintro ⟨p⟩
    induction p with
    | nil => exact .inl (SimpleGraph.Reachable.refl _)
    | cons hadj p ih =>
      rename_i a b c
      rcases (SimpleGraph.sup_adj ..).mp hadj with h1 | h1
      · have h2 := h1.reachable
        rcases ih with h | ⟨h, h'⟩ | ⟨h, h'⟩
        · exact .inl (h2.trans h)
        · exact .inr (.inl ⟨h2.trans h, h'⟩)
        · exact .inr (.inr ⟨h2.trans h, h'⟩)
      · rw [SimpleGraph.edge_adj] at h1
        rcases h1.1 with ⟨rfl, rfl⟩ | ⟨rfl, rfl⟩
        · rcases ih with h | ⟨h, h'⟩ | ⟨h, h'⟩
          · exact .inr (.inl ⟨.refl _, h⟩)
          · exact .inr (.inl ⟨.refl _, h'⟩)
          · exact .inl h'
        · rcases ih with h | ⟨h, h'⟩ | ⟨h, h'⟩
          · exact .inr (.inr ⟨.refl _, h⟩)
          · exact .inl h'
          · exact .inr (.inr ⟨.refl _, h'⟩)
  · have le : G ≤ G ⊔ SimpleGraph.edge s t := le_sup_left
    have e : (G ⊔ SimpleGraph.edge s t).Reachable s t := by
      by_cases hst : s = t
      · subst hst; exact .refl _
      · apply SimpleGraph.Adj.reachable
        rw [SimpleGraph.sup_adj, SimpleGraph.edge_adj]; right; exact ⟨.inl ⟨rfl, rfl⟩, hst⟩
    rintro (h | ⟨h, h'⟩ | ⟨h, h'⟩)
    · exact h.mono le
    · exact (h.mono le).trans (e.trans (h'.mono le))
    · exact (h.mono le).trans (e.symm.trans (h'.mono le))

/-- `g'` is `g` with the wall between `a` and `b` opened. -/
structure Opens (w h : Nat) (g g' : List MazeNode) (a b : Nat) : Prop where
  ha : a < w * h
  hb : b < w * h
  len : g'.length = g.length
  eq : graph w h g' = graph w h g ⊔ SimpleGraph.edge ⟨a, ha⟩ ⟨b, hb⟩

theorem Opens.reach {g g' a b} (H : Opens w h g g' a b) (x y : Nat) :
    R w h g' x y ↔ R w h g x y ∨ (R w h g x a ∧ R w h g b y) ∨ (R w h g x b ∧ R w h g a y) := by
  obtain ⟨ha, hb, _, he⟩ := H
  unfold R
  rw [he]
  constructor
  · rintro ⟨hx, hy, hr⟩
    rcases (reachable_sup_edge ..).mp hr with h | ⟨h, h'⟩ | ⟨h, h'⟩
    · exact .inl ⟨hx, hy, h⟩
    · exact .inr (.inl ⟨⟨hx, ha, h⟩, ⟨hb, hy, h'⟩⟩)
    · exact .inr (.inr ⟨⟨hx, hb, h⟩, ⟨ha, hy, h'⟩⟩)
  · rintro (⟨hx, hy, h⟩ | ⟨⟨hx, _, h⟩, ⟨_, hy, h'⟩⟩ | ⟨⟨hx, _, h⟩, ⟨_, hy, h'⟩⟩)
    · exact ⟨hx, hy, (reachable_sup_edge ..).mpr (.inl h)⟩
    · exact ⟨hx, hy, (reachable_sup_edge ..).mpr (.inr (.inl ⟨h, h'⟩))⟩
    · exact ⟨hx, hy, (reachable_sup_edge ..).mpr (.inr (.inr ⟨h, h'⟩))⟩

theorem rightOpen_set_right {g : List MazeNode} {c : Nat} (hc : c < g.length) (x : Nat) :
    rightOpen (g.set c { g[c] with right := false }) x = (rightOpen g x || x == c) := by
  unfold rightOpen
  by_cases hx : x = c
  · subst hx; simp [hc]
  · have : (x == c) = false := by simpa using hx
    simp [Ne.symm hx, this]

theorem downOpen_set_right {g : List MazeNode} {c : Nat} (hc : c < g.length) (x : Nat) :
    downOpen (g.set c { g[c] with right := false }) x = downOpen g x := by
  unfold downOpen
  by_cases hx : x = c
  · subst hx; simp [hc]
  · simp [Ne.symm hx]

theorem downOpen_set_down {g : List MazeNode} {c : Nat} (hc : c < g.length) (x : Nat) :
    downOpen (g.set c { g[c] with down := false }) x = (downOpen g x || x == c) := by
  unfold downOpen
  by_cases hx : x = c
  · subst hx; simp [hc]
  · have : (x == c) = false := by simpa using hx
    simp [Ne.symm hx, this]

theorem rightOpen_set_down {g : List MazeNode} {c : Nat} (hc : c < g.length) (x : Nat) :
    rightOpen (g.set c { g[c] with down := false }) x = rightOpen g x := by
  unfold rightOpen
  by_cases hx : x = c
  · subst hx; simp [hc]
  · simp [Ne.symm hx]

theorem succ_lt_of_mod {c : Nat} (hc : c < w * h) (hm : c % w + 1 < w) : c + 1 < w * h := by
  have hw : 0 < w := by omega
  have h1 : c / w < h := by rw [Nat.div_lt_iff_lt_mul hw, Nat.mul_comm]; exact hc
  have h2 := Nat.div_add_mod c w
  have h3 : w * (c / w + 1) ≤ w * h := Nat.mul_le_mul_left _ h1
  rw [Nat.mul_add] at h3
  omega

theorem opens_right {g : List MazeNode} {c : Nat} (hl : g.length = w * h) (hc : c < w * h)
    (hm : c % w + 1 < w) :
    Opens w h g (g.set c { g[c] with right := false }) c (c + 1) := by
  refine ⟨hc, succ_lt_of_mod hc hm, by simp, ?_⟩
  ext a b
  simp only [graph, SimpleGraph.fromRel_adj, SimpleGraph.sup_adj, SimpleGraph.edge_adj, Passage,
    rightOpen_set_right (hl ▸ hc), downOpen_set_right (hl ▸ hc), Bool.or_eq_true, beq_iff_eq,
    ne_eq, Fin.ext_iff]
  constructor
  · rintro ⟨hne, h1⟩
    rcases h1 with (⟨e1, e2, e3 | e3⟩ | h1) | (⟨e1, e2, e3 | e3⟩ | h1)
    · exact .inl ⟨hne, .inl (.inl ⟨e1, e2, e3⟩)⟩
    · exact .inr ⟨.inl ⟨e3, by omega⟩, hne⟩
    · exact .inl ⟨hne, .inl (.inr h1)⟩
    · exact .inl ⟨hne, .inr (.inl ⟨e1, e2, e3⟩)⟩
    · exact .inr ⟨.inr ⟨by omega, e3⟩, hne⟩
    · exact .inl ⟨hne, .inr (.inr h1)⟩
  · rintro (⟨hne, h1⟩ | ⟨h1, hne⟩)
    · refine ⟨hne, ?_⟩
      rcases h1 with (⟨e1, e2, e3⟩ | h1) | (⟨e1, e2, e3⟩ | h1)
      · exact .inl (.inl ⟨e1, e2, .inl e3⟩)
      · exact .inl (.inr h1)
      · exact .inr (.inl ⟨e1, e2, .inl e3⟩)
      · exact .inr (.inr h1)
    · refine ⟨hne, ?_⟩
      rcases h1 with ⟨e1, e2⟩ | ⟨e1, e2⟩
      · exact .inl (.inl ⟨by omega, by rw [e1]; exact hm, .inr e1⟩)
      · exact .inr (.inl ⟨by omega, by rw [e2]; exact hm, .inr e2⟩)

theorem opens_down {g : List MazeNode} {c : Nat} (hl : g.length = w * h) (hc : c < w * h)
    (hm : c + w < w * h) :
    Opens w h g (g.set c { g[c] with down := false }) c (c + w) := by
  refine ⟨hc, hm, by simp, ?_⟩
  ext a b
  simp only [graph, SimpleGraph.fromRel_adj, SimpleGraph.sup_adj, SimpleGraph.edge_adj, Passage,
    rightOpen_set_down (hl ▸ hc), downOpen_set_down (hl ▸ hc), Bool.or_eq_true, beq_iff_eq,
    ne_eq, Fin.ext_iff]
  constructor
  · rintro ⟨hne, h1⟩
    rcases h1 with (h1 | ⟨e1, e3 | e3⟩) | (h1 | ⟨e1, e3 | e3⟩)
    · exact .inl ⟨hne, .inl (.inl h1)⟩
    · exact .inl ⟨hne, .inl (.inr ⟨e1, e3⟩)⟩
    · exact .inr ⟨.inl ⟨e3, by omega⟩, hne⟩
    · exact .inl ⟨hne, .inr (.inl h1)⟩
    · exact .inl ⟨hne, .inr (.inr ⟨e1, e3⟩)⟩
    · exact .inr ⟨.inr ⟨by omega, e3⟩, hne⟩
  · rintro (⟨hne, h1⟩ | ⟨h1, hne⟩)
    · refine ⟨hne, ?_⟩
      rcases h1 with (h1 | ⟨e1, e3⟩) | (h1 | ⟨e1, e3⟩)
      · exact .inl (.inl h1)
      · exact .inl (.inr ⟨e1, .inl e3⟩)
      · exact .inr (.inl h1)
      · exact .inr (.inr ⟨e1, .inl e3⟩)
    · refine ⟨hne, ?_⟩
      rcases h1 with ⟨e1, e2⟩ | ⟨e1, e2⟩
      · exact .inl (.inr ⟨by omega, .inr e1⟩)
      · exact .inr (.inr ⟨by omega, .inr e2⟩)

theorem Opens.symm {g g' a b} (H : Opens w h g g' a b) : Opens w h g g' b a :=
  ⟨H.hb, H.ha, H.len, by rw [H.eq, SimpleGraph.edge_comm]⟩

/-- A relation closed under the four neighbours of the grid and containing cell 0 contains every cell. -/
theorem grid_connected {g : List MazeNode} (hw : 0 < w)
    (H : ∀ c, R w h g 0 c → ∀ d m, nbr w h c d = some m → R w h g 0 m) {c : Nat} (hc : c < w * h) :
    R w h g 0 c := by
  have hrow : ∀ y, w * y < w * h → R w h g 0 (w * y) := by
    intro y
    induction y with
    | zero => intro h0; exact R.refl h0
    | succ y ih =>
      intro hy
      rw [Nat.mul_succ] at hy ⊢
      exact H _ (ih (by omega)) .Down _ (by simp [nbr, hy])
  have hcol : ∀ x y, x < w → w * y + x < w * h → R w h g 0 (w * y + x) := by
    intro x
    induction x with
    | zero => intro y _ hy; exact hrow y hy
    | succ x ih =>
      intro y hx hy
      refine H _ (ih y (by omega) (by omega)) .Right _ ?_
      have : (w * y + x) % w = x := by rw [Nat.mul_add_mod, Nat.mod_eq_of_lt (by omega)]
      simp [nbr, this, hx, Nat.add_assoc]
  have := hcol (c % w) (c / w) (Nat.mod_lt _ hw) (by rw [Nat.div_add_mod]; exact hc)
  rwa [Nat.div_add_mod] at this

end Maze
