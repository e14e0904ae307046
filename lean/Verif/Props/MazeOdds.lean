import Verif.Proofs.Maze.OddsCases
import Verif.Props.MazeLaw

/-!
Property theorems about how likely each maze is, and how many mazes there are (C121, C122).

Draws are counted as in C78: `Fin m → Fin N` are the sequences of `m` draws below `N`, and with `12 ∣ N` every
candidate of `choose_random` has equally many draws.
-/
namespace Maze.Props
open Maze Maze.Spec

variable {w h : Nat}

/-- What the search makes is a closed depth-first tree. -/
theorem made_closed (hw : 1 ≤ w) (hh : 1 ≤ h) (hn : w * h * 24 < 2 ^ 63) {f : Orders w h} {g : List MazeNode}
    (H : MadeBy w h f.at g) : ClosedTree w h g ∧ DepthFirst w h g := by
  obtain ⟨φ, p1, p2⟩ := orders_uniform true (show 0 < w by omega) (show 0 < h by omega) hn (N := 12) (by decide)
  have hpos : 0 < Nat.card {d // φ d = f} := by
    rcases Nat.eq_zero_or_pos (Nat.card {d // φ d = f}) with hz | hz
    · have := p2 f
      rw [hz, Nat.zero_mul] at this
      exact absurd this.symm (Nat.ne_of_gt (Nat.pow_pos (by decide)))
    · exact hz
  obtain ⟨⟨d, hd⟩⟩ : Nonempty {d // φ d = f} := (Nat.card_pos_iff.mp hpos).1
  obtain ⟨g', hr, hm⟩ := p1 d
  rw [hd] at hm
  obtain rfl := H.det hm
  exact (C71_range true hw hh hn g).mp ⟨_, hr⟩

theorem at_all (f : Orders w h) {c : Nat} (hc : c < w * h) (d : MazeDirection) : d ∈ f.at c := by
  rw [Orders.at, dif_pos hc]
  exact (f _).2.mem_iff.mpr (by cases d <;> decide)

/-- The families of orders for which the search makes a maze. -/
theorem made_iff (hw : 1 ≤ w) (hh : 1 ≤ h) (hn : w * h * 24 < 2 ^ 63) {g : List MazeNode} (hC : ClosedTree w h g)
    (hD : DepthFirst w h g) (f : Orders w h) :
    MadeBy w h f.at g ↔ ∀ c, c < w * h → Ordered w h g [] c (f.at c) := by
  have h0 : 0 < w * h := Nat.mul_pos hw hh
  constructor
  · intro H
    exact MadeBy.ordered hw h0 hC.tree (fun c hc d => at_all f hc d) H
  · intro H
    obtain ⟨g', hg', _⟩ := C78_search hw hh hn f
    have hw' := MadeBy.within hw h0 hC.tree hD (fun c hc d => at_all f hc d) H hg'
    obtain rfl := within_eq hw hh (made_closed hw hh hn hg').1 hC hw'
    exact hg'

theorem made_count (hw : 1 ≤ w) (hh : 1 ≤ h) (hn : w * h * 24 < 2 ^ 63) {g : List MazeNode} (hC : ClosedTree w h g)
    (hD : DepthFirst w h g) : Nat.card {f : Orders w h // MadeBy w h f.at g} * odds w h g = 24 ^ (w * h) := by
  rw [Nat.card_congr (Equiv.subtypeEquivRight (made_iff hw hh hn hC hD))]
  exact suits_count hw hC.tree

/-! ### C121: how likely each maze is -/

/-- C121. For every closed depth-first maze, the number of draws for which it is made, times the product of the
numbers of neighbours beyond its passages, is the number of all draws. -/
theorem C121_odds (oc : Bool) (hw : 1 ≤ w) (hh : 1 ≤ h) (hn : w * h * 24 < 2 ^ 63) {N : Nat} (hN : 12 ∣ N)
    {g : List MazeNode} (hC : ClosedTree w h g) (hD : DepthFirst w h g) :
    Nat.card {d : Fin (4 * (w * h)) → Fin N // recursiveBacktrack oc (drawSeq d) w h = .ok g} * odds w h g =
      N ^ (4 * (w * h)) := by
  have e1 := C78_law oc hw hh hn hN g
  have e2 := made_count hw hh hn hC hD
  refine Nat.eq_of_mul_eq_mul_right (Nat.pow_pos (n := w * h) (show 0 < 24 by decide)) ?_
  rw [Nat.mul_right_comm, e1, Nat.mul_assoc, e2]

example : Nat.card {d : Fin 16 → Fin 24 // recursiveBacktrack false (drawSeq d) 2 2 = .ok round} * odds 2 2 round =
    24 ^ 16 :=
  C121_odds (w := 2) (h := 2) false (by omega) (by omega) (by omega) (by decide) round_closed round_depth_first

/-- C121, the value of the product: a factor 2 for every pair of neighbouring cells with a wall between them that is
not on the edge of the maze, but 3/4 of that for every passage beyond which three neighbours lie. -/
theorem C121_powers (oc : Bool) (hw : 1 ≤ w) (hh : 1 ≤ h) (hn : w * h * 24 < 2 ^ 63) {N : Nat} (hN : 12 ∣ N)
    {g : List MazeNode} (hC : ClosedTree w h g) (hD : DepthFirst w h g) :
    Nat.card {d : Fin (4 * (w * h)) → Fin N // recursiveBacktrack oc (drawSeq d) w h = .ok g} *
      2 ^ ((w - 1) * (h - 1)) * 3 ^ triples w h g = N ^ (4 * (w * h)) * 4 ^ triples w h g := by
  rw [← C121_odds oc hw hh hn hN hC hD, Nat.mul_assoc, Nat.mul_assoc, odds_powers hw hh hC.tree hD]

/-- The two mazes of 2 x 2 cells: each is made for half of the draws. -/
example : Nat.card {d : Fin 16 → Fin 12 // recursiveBacktrack true (drawSeq d) 2 2 = .ok round} * 2 = 12 ^ 16 := by
  have := C121_powers (w := 2) (h := 2) true (by omega) (by omega) (by omega) (N := 12) (by decide) round_closed
    round_depth_first
  rw [triples_zero fun c d hd => thin_beyond (by omega) round_closed.tree (by omega) hd] at this
  simpa using this

/-! ### C122: the number of mazes, and when they are equally likely -/

/-- The mazes that `recursive_backtrack` can return. -/
def Makes (oc : Bool) (w h : Nat) (g : List MazeNode) : Prop := ∃ rnd, recursiveBacktrack oc rnd w h = .ok g

/-- A maze with a cell three of whose neighbours lie beyond the same passage. -/
theorem exists_triple (oc : Bool) (hw : 3 ≤ w) (hh : 3 ≤ h) (hn : w * h * 24 < 2 ^ 63) :
    ∃ g, Makes oc w h g ∧ triples w h g ≠ 0 := by
  have hwh : w * 3 ≤ w * h := Nat.mul_le_mul_left _ hh
  let f : Orders w h := fun c => if c.1 = 1 then ⟨[.Down, .Right, .Left, .Up], by decide⟩ else ⟨directions, .refl _⟩
  obtain ⟨g, hg, _⟩ := C78_search (show 1 ≤ w by omega) (show 1 ≤ h by omega) hn f
  obtain ⟨hC, hD⟩ := made_closed (by omega) (by omega) hn hg
  refine ⟨g, (C71_range oc (by omega) (by omega) hn g).mpr ⟨hC, hD⟩, ?_⟩
  have f0 : f.at 0 = [.Right, .Down, .Left, .Up] := by
    rw [Orders.at, dif_pos (show 0 < w * h by omega)]
    simp [f, directions]
  have f1 : f.at 1 = [.Down, .Right, .Left, .Up] := by
    rw [Orders.at, dif_pos (show 1 < w * h by omega)]
    simp [f]
  have n0 : nbr w h 0 .Right = some 1 := by
    simp [nbr]
    omega
  have n1 : nbr w h 1 .Down = some (w + 1) := by
    simp only [nbr]
    rw [if_pos (by omega), Nat.add_comm]
  obtain ⟨V, hV⟩ := hg
  rw [f0] at hV
  cases hV with
  | skip hb _ => exact absurd (hb 1 n0) (by simp)
  | @enter _ _ _ b _ s1 _ hb hbn e1 e2 =>
    obtain rfl : b = 1 := Option.some.inj (hb.symm.trans n0)
    rw [f1] at e1
    have w2 := explores_within e2
    have w1 := (explores_within e1).trans w2
    cases e1 with
    | skip hb' _ => exact absurd (hb' (w + 1) n1) (by simp; omega)
    | @enter _ _ _ b' _ s2 _ hb' hbn' e3 e4 =>
      have w3 := (explores_within e3).trans ((explores_within e4).trans w2)
      refine hook_beyond hw hh hC.tree hD ?_ ?_
      · unfold move
        rw [if_pos (within_side w1 (open_side (by simp) (by omega) n0)), n0]
      · unfold move
        rw [if_pos (within_side w3 (open_side (by simp [openSide_length]) (by omega) n1)), n1]

/-- The families of orders that make the mazes. -/
theorem made_powers (hw : 1 ≤ w) (hh : 1 ≤ h) (hn : w * h * 24 < 2 ^ 63) {g : List MazeNode} (hC : ClosedTree w h g)
    (hD : DepthFirst w h g) : Nat.card {f : Orders w h // MadeBy w h f.at g} * 2 ^ ((w - 1) * (h - 1)) *
      3 ^ triples w h g = 24 ^ (w * h) * 4 ^ triples w h g := by
  rw [← made_count hw hh hn hC hD, Nat.mul_assoc, Nat.mul_assoc, odds_powers hw hh hC.tree hD]

/-- Every family of orders makes one of the mazes. -/
theorem made_sum (oc : Bool) (hw : 1 ≤ w) (hh : 1 ≤ h) (hn : w * h * 24 < 2 ^ 63) :
    ∃ _ : Fintype {g // Makes oc w h g},
      ∑ g : {g // Makes oc w h g}, Nat.card {f : Orders w h // MadeBy w h f.at g.1} = 24 ^ (w * h) := by
  classical
  have hf : ∀ f : Orders w h, ∃ g, MadeBy w h f.at g ∧ Makes oc w h g := by
    intro f
    obtain ⟨g, hg, _⟩ := C78_search hw hh hn f
    exact ⟨g, hg, (C71_range oc hw hh hn g).mpr (made_closed hw hh hn hg)⟩
  let φ : Orders w h → {g // Makes oc w h g} := fun f => ⟨(hf f).choose, (hf f).choose_spec.2⟩
  have hφ : ∀ f g, φ f = g ↔ MadeBy w h f.at g.1 := by
    intro f g
    constructor
    · rintro rfl
      exact (hf f).choose_spec.1
    · intro H
      exact Subtype.ext (MadeBy.det (hf f).choose_spec.1 H)
  have hsurj : Function.Surjective φ := by
    intro g
    obtain ⟨hC, hD⟩ := (C71_range oc hw hh hn g.1).mp g.2
    have h1 := made_count hw hh hn hC hD
    have h2 : Nat.card {f : Orders w h // MadeBy w h f.at g.1} ≠ 0 := by
      intro h2
      rw [h2, Nat.zero_mul] at h1
      exact absurd h1.symm (Nat.ne_of_gt (Nat.pow_pos (by decide)))
    obtain ⟨⟨f, hfg⟩⟩ := (Nat.card_ne_zero.mp h2).1
    exact ⟨f, (hφ f g).mpr hfg⟩
  have : Finite {g // Makes oc w h g} := Finite.of_surjective φ hsurj
  have I : Fintype {g // Makes oc w h g} := Fintype.ofFinite _
  refine ⟨I, ?_⟩
  have hO : Nat.card (Orders w h) = 24 ^ (w * h) := by
    rw [Nat.card_fun, orders_card]; simp
  rw [← hO, ← Nat.card_congr (Equiv.sigmaFiberEquiv φ), Nat.card_sigma]
  refine Finset.sum_congr rfl fun g _ => ?_
  exact Nat.card_congr (Equiv.subtypeEquivRight fun f => (hφ f g).symm)

theorem four_three (n : Nat) : 3 ^ n ≤ 4 ^ n ∧ (n ≠ 0 → 3 ^ n < 4 ^ n) :=
  ⟨Nat.pow_le_pow_left (by decide) n, fun hn => Nat.pow_lt_pow_left (by decide) hn⟩

theorem made_share (hw : 1 ≤ w) (hh : 1 ≤ h) (hn : w * h * 24 < 2 ^ 63) {g : List MazeNode} (hC : ClosedTree w h g)
    (hD : DepthFirst w h g) :
    24 ^ (w * h) ≤ Nat.card {f : Orders w h // MadeBy w h f.at g} * 2 ^ ((w - 1) * (h - 1)) ∧
    (triples w h g = 0 → Nat.card {f : Orders w h // MadeBy w h f.at g} * 2 ^ ((w - 1) * (h - 1)) = 24 ^ (w * h)) ∧
    (triples w h g ≠ 0 → 24 ^ (w * h) < Nat.card {f : Orders w h // MadeBy w h f.at g} * 2 ^ ((w - 1) * (h - 1))) := by
  have e := made_powers hw hh hn hC hD
  obtain ⟨h1, h2⟩ := four_three (triples w h g)
  have hp : 0 < 3 ^ triples w h g := Nat.pow_pos (by decide)
  have hq : 0 < 24 ^ (w * h) := Nat.pow_pos (by decide)
  refine ⟨?_, ?_, ?_⟩
  · refine Nat.le_of_mul_le_mul_right ?_ hp
    rw [e]
    exact Nat.mul_le_mul_left _ h1
  · intro h3
    rw [h3] at e
    simpa using e
  · intro h3
    refine Nat.lt_of_mul_lt_mul_right (a := 3 ^ triples w h g) ?_
    rw [e]
    exact Nat.mul_lt_mul_of_pos_left (h2 h3) hq

/-- C122. `recursive_backtrack` can return at most `2^((w - 1) * (h - 1))` different mazes, and exactly that many
if and only if the maze has at most two rows or at most two columns. -/
theorem C122_count (oc : Bool) (hw : 1 ≤ w) (hh : 1 ≤ h) (hn : w * h * 24 < 2 ^ 63) :
    Nat.card {g // ∃ rnd, recursiveBacktrack oc rnd w h = .ok g} ≤ 2 ^ ((w - 1) * (h - 1)) ∧
    (Nat.card {g // ∃ rnd, recursiveBacktrack oc rnd w h = .ok g} = 2 ^ ((w - 1) * (h - 1)) ↔ w ≤ 2 ∨ h ≤ 2) := by
  obtain ⟨I, hs⟩ := made_sum oc hw hh hn
  have hq : 0 < 24 ^ (w * h) := Nat.pow_pos (by decide)
  have hcard : Nat.card {g // ∃ rnd, recursiveBacktrack oc rnd w h = .ok g} = (Finset.univ : Finset {g // Makes oc w h g}).card :=
    @Nat.card_eq_fintype_card {g // Makes oc w h g} I
  have share : ∀ g : {g // Makes oc w h g}, _ := fun g =>
    made_share hw hh hn ((C71_range oc hw hh hn g.1).mp g.2).1 ((C71_range oc hw hh hn g.1).mp g.2).2
  have hs' : ∑ g : {g // Makes oc w h g}, Nat.card {f : Orders w h // MadeBy w h f.at g.1} * 2 ^ ((w - 1) * (h - 1)) =
      24 ^ (w * h) * 2 ^ ((w - 1) * (h - 1)) := by
    rw [← Finset.sum_mul, hs]
  have hconst : ∑ _g : {g // Makes oc w h g}, 24 ^ (w * h) =
      24 ^ (w * h) * Nat.card {g // ∃ rnd, recursiveBacktrack oc rnd w h = .ok g} := by
    rw [Finset.sum_const, smul_eq_mul, hcard, Nat.mul_comm]
  have le : Nat.card {g // ∃ rnd, recursiveBacktrack oc rnd w h = .ok g} ≤ 2 ^ ((w - 1) * (h - 1)) := by
    refine Nat.le_of_mul_le_mul_left ?_ hq
    rw [← hconst, ← hs']
    exact Finset.sum_le_sum fun g _ => (share g).1
  refine ⟨le, ?_, ?_⟩
  · intro he
    by_contra hno
    obtain ⟨g, hg, ht⟩ := exists_triple oc (show 3 ≤ w by omega) (show 3 ≤ h by omega) hn
    have : ∑ _g : {g // Makes oc w h g}, 24 ^ (w * h) < ∑ g : {g // Makes oc w h g},
        Nat.card {f : Orders w h // MadeBy w h f.at g.1} * 2 ^ ((w - 1) * (h - 1)) :=
      Finset.sum_lt_sum (fun g _ => (share g).1) ⟨⟨g, hg⟩, Finset.mem_univ _, (share ⟨g, hg⟩).2.2 ht⟩
    rw [hconst, hs', he] at this
    exact Nat.lt_irrefl _ this
  · intro hthin
    refine Nat.eq_of_mul_eq_mul_left hq ?_
    rw [← hconst, ← hs']
    refine Finset.sum_congr rfl fun g _ => ((share g).2.1 ?_).symm
    exact triples_zero fun c d hd =>
      thin_beyond hw ((C71_range oc hw hh hn g.1).mp g.2).1.tree hthin hd

/-- The mazes of two rows and 11 columns. -/
example : Nat.card {g // ∃ rnd, recursiveBacktrack true rnd 11 2 = .ok g} = 1024 :=
  ((C122_count (w := 11) (h := 2) true (by omega) (by omega) (by omega)).2.mpr (by omega)).trans (by decide)

/-- Of the 192 spanning trees of a grid of 3 x 3 cells fewer than 16 are made. -/
example : Nat.card {g // ∃ rnd, recursiveBacktrack true rnd 3 3 = .ok g} < 16 := by
  obtain ⟨h1, h2⟩ := C122_count (w := 3) (h := 3) true (by omega) (by omega) (by omega)
  refine Nat.lt_of_le_of_ne (by simpa using h1) fun e => ?_
  have := h2.mp (by simpa using e)
  omega

/-- C122, equally likely mazes: all mazes that can be made are made for equally many draws if and only if the maze
has at most two rows or at most two columns. -/
theorem C122_uniform (oc : Bool) (hw : 1 ≤ w) (hh : 1 ≤ h) (hn : w * h * 24 < 2 ^ 63) {N : Nat} (hN : 12 ∣ N)
    (hN0 : 0 < N) :
    (∀ g g', (∃ rnd, recursiveBacktrack oc rnd w h = .ok g) → (∃ rnd, recursiveBacktrack oc rnd w h = .ok g') →
      Nat.card {d : Fin (4 * (w * h)) → Fin N // recursiveBacktrack oc (drawSeq d) w h = .ok g} =
        Nat.card {d : Fin (4 * (w * h)) → Fin N // recursiveBacktrack oc (drawSeq d) w h = .ok g'}) ↔
      w ≤ 2 ∨ h ≤ 2 := by
  have hp : 0 < 2 ^ ((w - 1) * (h - 1)) := Nat.pow_pos (by decide)
  constructor
  · intro H
    by_contra hno
    obtain ⟨g, hg, ht⟩ := exists_triple oc (show 3 ≤ w by omega) (show 3 ≤ h by omega) hn
    have sC := snake_ham.closed (w := w) (h := h) hw hh
    have sD := snake_ham.depthFirst (w := w) (h := h) hw hh
    have e := H g _ hg ((C71_range oc hw hh hn _).mpr ⟨sC, sD⟩)
    obtain ⟨hC, hD⟩ := (C71_range oc hw hh hn g).mp hg
    have e1 := C121_powers oc hw hh hn hN hC hD
    have e2 := C121_powers oc hw hh hn hN sC sD
    rw [snake_triples hw hh, Nat.pow_zero, Nat.pow_zero, Nat.mul_one, Nat.mul_one, ← e] at e2
    rw [e2] at e1
    have hpos : 0 < N ^ (4 * (w * h)) := Nat.pow_pos hN0
    have := Nat.eq_of_mul_eq_mul_left hpos e1
    have := (four_three (triples w h g)).2 ht
    omega
  · intro hthin g g' hg hg'
    have key : ∀ g, (∃ rnd, recursiveBacktrack oc rnd w h = .ok g) →
        Nat.card {d : Fin (4 * (w * h)) → Fin N // recursiveBacktrack oc (drawSeq d) w h = .ok g} *
          2 ^ ((w - 1) * (h - 1)) = N ^ (4 * (w * h)) := by
      intro g hg
      obtain ⟨hC, hD⟩ := (C71_range oc hw hh hn g).mp hg
      have := C121_powers oc hw hh hn hN hC hD
      rw [triples_zero fun c d hd => thin_beyond hw hC.tree hthin hd] at this
      simpa using this
    exact Nat.eq_of_mul_eq_mul_right hp ((key g hg).trans (key g' hg').symm)

/-- In a maze of 5 x 4 cells some two mazes are not equally likely. -/
example : ∃ g g', (∃ rnd, recursiveBacktrack true rnd 5 4 = .ok g) ∧ (∃ rnd, recursiveBacktrack true rnd 5 4 = .ok g') ∧
    Nat.card {d : Fin 80 → Fin 12 // recursiveBacktrack true (drawSeq d) 5 4 = .ok g} ≠
      Nat.card {d : Fin 80 → Fin 12 // recursiveBacktrack true (drawSeq d) 5 4 = .ok g'} := by
  by_contra H
  push Not at H
  have := (C122_uniform (w := 5) (h := 4) true (by omega) (by omega) (by omega) (N := 12) (by decide) (by decide)).mp H
  omega

/-- C122, the least likely mazes: no maze that can be made is made for fewer than one in `2^((w - 1) * (h - 1))` of the
draws, and the one that goes through the cells row by row is made for exactly that many. -/
theorem C122_least (oc : Bool) (hw : 1 ≤ w) (hh : 1 ≤ h) (hn : w * h * 24 < 2 ^ 63) {N : Nat} (hN : 12 ∣ N) :
    (∀ g, (∃ rnd, recursiveBacktrack oc rnd w h = .ok g) → N ^ (4 * (w * h)) ≤
      Nat.card {d : Fin (4 * (w * h)) → Fin N // recursiveBacktrack oc (drawSeq d) w h = .ok g} *
        2 ^ ((w - 1) * (h - 1))) ∧
    Nat.card {d : Fin (4 * (w * h)) → Fin N // recursiveBacktrack oc (drawSeq d) w h = .ok (hamGrid w h (snake w))} *
        2 ^ ((w - 1) * (h - 1)) = N ^ (4 * (w * h)) := by
  constructor
  · intro g hg
    obtain ⟨hC, hD⟩ := (C71_range oc hw hh hn g).mp hg
    have e := C121_powers oc hw hh hn hN hC hD
    refine Nat.le_of_mul_le_mul_right (c := 3 ^ triples w h g) ?_ (Nat.pow_pos (by decide))
    rw [e]
    exact Nat.mul_le_mul_left _ (four_three _).1
  · have e := C121_powers oc hw hh hn hN (snake_ham.closed (w := w) (h := h) hw hh) (snake_ham.depthFirst hw hh)
    rw [snake_triples hw hh] at e
    simpa using e

example (g : List MazeNode) (hg : ∃ rnd, recursiveBacktrack true rnd 3 3 = .ok g) : 12 ^ 36 ≤
    Nat.card {d : Fin 36 → Fin 12 // recursiveBacktrack true (drawSeq d) 3 3 = .ok g} * 16 :=
  (C122_least (w := 3) (h := 3) true (by omega) (by omega) (by omega) (N := 12) (by decide)).1 g hg

/-- One way through a maze of 20 x 10 cells, row by row, is made for one in `2^171` of the draws. -/
example : Nat.card {d : Fin (4 * (20 * 10)) → Fin 12 //
      recursiveBacktrack true (drawSeq d) 20 10 = .ok (hamGrid 20 10 (snake 20))} * 2 ^ ((20 - 1) * (10 - 1)) =
    12 ^ (4 * (20 * 10)) :=
  (C122_least (w := 20) (h := 10) true (by omega) (by omega) (by omega) (N := 12) (by decide)).2

end Maze.Props
