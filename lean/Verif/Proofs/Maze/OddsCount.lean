import Verif.Proofs.Maze.Odds
import Mathlib.Algebra.BigOperators.Fin

/-! Helper lemmas: how many orders of the directions make a given maze. -/
namespace Maze
open Spec

variable {w h : Nat} {g : List MazeNode}

theorem between_start (hT : (graph w h g).IsTree) (h0 : 0 < w * h) : Between w h g [0] 0 := by
  refine ⟨h0, by simp, ?_, ?_⟩
  · intro x hx y hy
    obtain rfl : x = 0 := by simpa using hx
    have := onRoute_antisymm hT hy (onRoute_root hT (onRoute_lt hy).1)
    simp [this]
  · intro x hx
    obtain rfl : x = 0 := by simpa using hx
    exact .inl (onRoute_refl hT h0)

theorem within_new (n : Nat) : Within (List.replicate n MazeNode.new) g := by
  intro x
  by_cases hx : x < n <;> simp [rightOpen, downOpen, List.getElem?_replicate, hx, MazeNode.new]

/-- The orders of a search that makes the tree `g` suit `g`. -/
theorem MadeBy.ordered (hw : 0 < w) (h0 : 0 < w * h) (hT : (graph w h g).IsTree) {ord : Nat → List MazeDirection}
    (hall : ∀ c, c < w * h → ∀ d, d ∈ ord c) (H : MadeBy w h ord g) (c : Nat) (hc : c < w * h) :
    Ordered w h g [] c (ord c) := by
  obtain ⟨V, hV⟩ := H
  obtain ⟨h1, h2, h3⟩ := explores_ordered hw hT hall hV (by simp) (between_start hT h0) (fun _ => ⟨id, id⟩)
  by_cases e : c = 0
  · subst e
    intro pre e post he v hv _ d u hk hr
    refine h2 pre e post he v hv ?_ d u hk hr
    intro hv0
    obtain rfl : v = 0 := by simpa using hv0
    exact hk.ne hw (onRoute_antisymm hT hk.2 hr)
  · refine h3 c ?_ (by simpa using e)
    have hroot := onRoute_root hT hc
    obtain ⟨d, u, hk, hr⟩ := onRoute_next hw hroot (Ne.symm e)
    exact (h1 c).mpr (.inr ⟨d, hall 0 h0 d, u, hk, hr⟩)

/-- A search whose orders suit the tree `g` opens only passages of `g`. -/
theorem MadeBy.within (hw : 0 < w) (h0 : 0 < w * h) (hT : (graph w h g).IsTree) (hD : DepthFirst w h g)
    {ord : Nat → List MazeDirection} (hall : ∀ c, c < w * h → ∀ d, d ∈ ord c)
    (hord : ∀ c, c < w * h → Ordered w h g [] c (ord c)) {g' : List MazeNode} (H : MadeBy w h ord g') :
    Within g' g := by
  obtain ⟨V, hV⟩ := H
  refine (explores_suits hw hT hD hall hord hV (between_start hT h0) ?_ (within_new _)).2
  exact fun pre e post he v hv _ d u hk hr => hord 0 h0 pre e post he v hv (by simp) d u hk hr

theorem within_graph {m g : List MazeNode} (H : Within m g) : graph w h m ≤ graph w h g := by
  intro a b hab
  rw [graph, SimpleGraph.fromRel_adj] at hab ⊢
  refine ⟨hab.1, ?_⟩
  have key : ∀ x y, Passage w m x y → Passage w g x y := by
    rintro x y (⟨h1, h2, h3⟩ | ⟨h1, h2⟩)
    · exact .inl ⟨h1, h2, (H _).1 h3⟩
    · exact .inr ⟨h1, (H _).2 h2⟩
  exact hab.2.imp (key _ _) (key _ _)

theorem within_eq (hw : 0 < w) (hh : 0 < h) {m g : List MazeNode} (hm : ClosedTree w h m) (hg : ClosedTree w h g)
    (H : Within m g) : m = g := by
  have p := hm.perfect hw hh
  have q := hg.perfect hw hh
  exact grid_ext hw p.len q.len p.borderR p.borderD q.borderR q.borderD
    (tree_eq_of_le (within_graph H) hm.tree.connected hg.tree.isAcyclic)

/-! ### Counting the orders of one cell -/

/-- Going through the directions `l`, none is preceded by its mark unless they are equal; `seen` are the directions
already gone through. -/
def obeys (lab : MazeDirection → Option MazeDirection) : List MazeDirection → List MazeDirection → Bool
  | _, [] => true
  | seen, e :: l => (match lab e with | none => true | some d => d = e || seen.contains d) && obeys lab (e :: seen) l

theorem obeys_iff (lab : MazeDirection → Option MazeDirection) (l : List MazeDirection) :
    ∀ seen, obeys lab seen l = true ↔
      ∀ pre e post, l = pre ++ e :: post → ∀ d, lab e = some d → d = e ∨ d ∈ pre ∨ d ∈ seen := by
  induction l with
  | nil => intro seen; simp [obeys]
  | cons a l ih =>
    intro seen
    rw [obeys, Bool.and_eq_true, ih]
    constructor
    · rintro ⟨h1, h2⟩ pre e post he d hd
      cases pre with
      | nil =>
        obtain ⟨rfl, rfl⟩ : a = e ∧ l = post := by simpa using he
        rw [hd] at h1
        have : d = a ∨ d ∈ seen := by simpa using h1
        rcases this with h | h
        · exact .inl h
        · exact .inr (.inr h)
      | cons p pre =>
        obtain ⟨rfl, he'⟩ : a = p ∧ l = pre ++ e :: post := by simpa using he
        rcases h2 pre e post he' d hd with h | h | h
        · exact .inl h
        · exact .inr (.inl (by simp [h]))
        · rcases List.mem_cons.mp h with rfl | h
          · exact .inr (.inl (by simp))
          · exact .inr (.inr h)
    · intro H
      constructor
      · cases hl : lab a with
        | none => rfl
        | some d =>
          rcases H [] a l rfl d hl with h | h | h
          · simp [h]
          · cases h
          · simp [h]
      · intro pre e post he d hd
        rcases H (a :: pre) e post (by simp [he]) d hd with h | h | h
        · exact .inl h
        · rcases List.mem_cons.mp h with rfl | h
          · exact .inr (.inr (by simp))
          · exact .inr (.inl h)
        · exact .inr (.inr (by simp [h]))

/-- The function with these four values. -/
def marks (a b c d : Option MazeDirection) : MazeDirection → Option MazeDirection
  | .Right => a
  | .Down => b
  | .Left => c
  | .Up => d

def markValues : List (Option MazeDirection) := [none, some .Right, some .Down, some .Left, some .Up]

theorem obeys_table : ∀ a ∈ markValues, ∀ b ∈ markValues, ∀ c ∈ markValues, ∀ d ∈ markValues,
    (∀ e ∈ directions, (marks a b c d e).all fun x => marks a b c d x = some x) →
    directions.permutations'.countP (obeys (marks a b c d) []) *
      (directions.map fun x => if marks a b c d x = some x then directions.countP fun e => marks a b c d e = some x
        else 1).prod = 24 := by
  decide +kernel

theorem obeys_count (lab : MazeDirection → Option MazeDirection)
    (hl : ∀ e x, lab e = some x → lab x = some x) :
    directions.permutations'.countP (obeys lab []) *
      (directions.map fun x => if lab x = some x then directions.countP fun e => lab e = some x else 1).prod = 24 := by
  have e : lab = marks (lab .Right) (lab .Down) (lab .Left) (lab .Up) := by funext x; cases x <;> rfl
  have hm : ∀ x, lab x ∈ markValues := by
    intro x
    cases lab x with
    | none => simp [markValues]
    | some d => cases d <;> simp [markValues]
  have := obeys_table _ (hm .Right) _ (hm .Down) _ (hm .Left) _ (hm .Up)
  rw [← e] at this
  refine this fun x _ => ?_
  cases hx : lab x with
  | none => rfl
  | some d => simpa using hl x d hx

/-! ### Counting the orders that make a maze -/

open Classical in
/-- The passage out of `c` beyond which the neighbour of `c` in direction `e` lies. -/
noncomputable def mark (w h : Nat) (g : List MazeNode) (c : Nat) (e : MazeDirection) : Option MazeDirection :=
  if H : ∃ d, Away w h g c d ∧ Beyond w h g c d e then some H.choose else none

theorem mark_iff (hw : 0 < w) (hT : (graph w h g).IsTree) {c : Nat} {d e : MazeDirection} :
    mark w h g c e = some d ↔ Away w h g c d ∧ Beyond w h g c d e := by
  have uniq : ∀ {d d'}, Away w h g c d → Beyond w h g c d e → Away w h g c d' → Beyond w h g c d' e → d = d' := by
    rintro d d' ⟨u, k1, k2⟩ ⟨u1, v, n1, n2, r⟩ ⟨u', k1', k2'⟩ ⟨u1', v', n1', n2', r'⟩
    obtain rfl : u1 = u := Option.some.inj (n1.symm.trans (move_nbr k1))
    obtain rfl : u1' = u' := Option.some.inj (n1'.symm.trans (move_nbr k1'))
    obtain rfl : v = v' := Option.some.inj (n2.symm.trans n2')
    exact (Kid.unique hw hT ⟨k1, k2⟩ ⟨k1', k2'⟩ r r').1
  unfold mark
  split
  next H =>
    rw [Option.some.injEq]
    constructor
    · rintro rfl; exact H.choose_spec
    · rintro ⟨h1, h2⟩; exact uniq H.choose_spec.1 H.choose_spec.2 h1 h2
  next H =>
    constructor
    · intro h; cases h
    · exact fun h => absurd ⟨d, h⟩ H

theorem away_beyond (hT : (graph w h g).IsTree) {c : Nat} {d : MazeDirection} (H : Away w h g c d) :
    Beyond w h g c d d := by
  obtain ⟨u, h1, h2⟩ := H
  exact ⟨u, u, move_nbr h1, move_nbr h1, onRoute_refl hT (onRoute_lt h2).2⟩

theorem ordered_iff (hw : 0 < w) (hT : (graph w h g).IsTree) {c : Nat} {l : List MazeDirection} :
    Ordered w h g [] c l ↔ obeys (mark w h g c) [] l = true := by
  rw [obeys_iff]
  constructor
  · intro H pre e post he d hd
    obtain ⟨⟨u, k1, k2⟩, u1, v, n1, n2, r⟩ := (mark_iff hw hT).mp hd
    obtain rfl : u1 = u := Option.some.inj (n1.symm.trans (move_nbr k1))
    rcases H pre e post he v n2 (by simp) d u1 ⟨k1, k2⟩ r with h | h
    · exact .inl h
    · exact .inr (.inl h)
  · intro H pre e post he v hv _ d u hk hr
    rcases H pre e post he d ((mark_iff hw hT).mpr ⟨⟨u, hk⟩, u, v, move_nbr hk.1, hv, hr⟩) with h | h | h
    · exact .inl h
    · exact .inr h
    · cases h

theorem card_dirs (P : MazeDirection → Bool) : Nat.card {e // P e = true} = directions.countP P := by
  rw [Nat.subtype_card (directions.filter P).toFinset]
  · rw [List.toFinset_card_of_nodup (List.Nodup.filter _ (by decide)), List.countP_eq_length_filter]
  · intro e
    simp only [List.mem_toFinset, List.mem_filter]
    exact ⟨fun h => h.2, fun h => ⟨by cases e <;> decide, h⟩⟩

theorem card_orders (P : List MazeDirection → Bool) :
    Nat.card {l : {l : List MazeDirection // l.Perm directions} // P l.1 = true} = directions.permutations'.countP P := by
  rw [Nat.card_congr (Equiv.subtypeSubtypeEquivSubtypeInter (fun l : List MazeDirection => l.Perm directions) (fun l => P l = true))]
  rw [Nat.subtype_card (directions.permutations'.filter P).toFinset]
  · rw [List.toFinset_card_of_nodup (List.Nodup.filter _ (by decide)), List.countP_eq_length_filter]
  · intro e
    simp only [List.mem_toFinset, List.mem_filter, List.mem_permutations']

open Classical in
/-- The number of orders of one cell that suit a tree. -/
theorem cell_count (hw : 0 < w) (hT : (graph w h g).IsTree) (c : Nat) :
    Nat.card {l : {l : List MazeDirection // l.Perm directions} // Ordered w h g [] c l.1} *
      (directions.map fun d => if Away w h g c d then beyond w h g c d else 1).prod = 24 := by
  have h1 : Nat.card {l : {l : List MazeDirection // l.Perm directions} // Ordered w h g [] c l.1} =
      directions.permutations'.countP (obeys (mark w h g c) []) := by
    rw [← card_orders]
    exact Nat.card_congr (Equiv.subtypeEquivRight fun l => ordered_iff hw hT)
  have h2 : (fun d => if Away w h g c d then beyond w h g c d else 1) =
      fun x => if mark w h g c x = some x then directions.countP fun e => mark w h g c e = some x else 1 := by
    funext d
    have ha : mark w h g c d = some d ↔ Away w h g c d := by
      rw [mark_iff hw hT]
      exact ⟨fun h => h.1, fun h => ⟨h, away_beyond hT h⟩⟩
    by_cases hd : Away w h g c d
    · rw [if_pos hd, if_pos (ha.mpr hd), beyond, ← card_dirs]
      refine Nat.card_congr (Equiv.subtypeEquivRight fun e => ?_)
      rw [decide_eq_true_eq, mark_iff hw hT]
      exact ⟨fun h => ⟨hd, h⟩, fun h => h.2⟩
    · rw [if_neg hd, if_neg (fun h => hd (ha.mp h))]
  rw [h1, h2]
  refine obeys_count _ fun e x hx => ?_
  rw [mark_iff hw hT] at hx ⊢
  exact ⟨hx.1, away_beyond hT hx.1⟩

/-- The number of families of orders that suit a tree. -/
theorem suits_count (hw : 0 < w) (hT : (graph w h g).IsTree) :
    Nat.card {f : Orders w h // ∀ c, c < w * h → Ordered w h g [] c (f.at c)} * odds w h g = 24 ^ (w * h) := by
  classical
  have h1 : Nat.card {f : Orders w h // ∀ c, c < w * h → Ordered w h g [] c (f.at c)} =
      ∏ c : Fin (w * h), Nat.card {l : {l : List MazeDirection // l.Perm directions} // Ordered w h g [] c l.1} := by
    rw [← Nat.card_pi]
    refine Nat.card_congr ⟨fun f c => ⟨f.1 c, ?_⟩, fun F => ⟨fun c => (F c).1, ?_⟩, ?_, ?_⟩
    · have := f.2 c c.2
      rwa [Orders.at, dif_pos c.2] at this
    · intro c hc
      rw [Orders.at, dif_pos hc]
      exact (F ⟨c, hc⟩).2
    · intro f; rfl
    · intro F; rfl
  rw [h1, odds, ← Fin.prod_univ_eq_prod_range
    (fun c => (directions.map fun d => if Away w h g c d then beyond w h g c d else 1).prod) (w * h),
    ← Finset.prod_mul_distrib, Finset.prod_congr rfl fun c _ => cell_count hw hT c.1]
  simp

end Maze
