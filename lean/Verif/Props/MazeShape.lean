import Verif.Proofs.Maze.Dfs
import Verif.Proofs.Maze.Order

/-!
Property theorems about which mazes `recursive_backtrack` and `create_maze` can make, and which exit it
chooses (C70-C73).

`rnd` is the sequence of random draws; `w * h * 24 < 2 ^ 63` is the allocation limit of
`Vec<Vec<MazeDirection>>` in `recursive_backtrack`.
-/
namespace Maze.Props
open Maze Maze.Spec

variable {w h : Nat}

/-! ### C70: depth-first trees -/

/-- C70. For all positive dimensions and all draws, of any two neighbouring cells of the created maze one lies on
the route from cell 0 to the other. -/
theorem C70_depth_first (oc : Bool) (rnd : Nat → Nat) (alg : MazeAlgorithm) (hw : 1 ≤ w) (hh : 1 ≤ h)
    (hn : w * h * 24 < 2 ^ 63) :
    ∃ g sol, createMaze oc rnd w h alg = .ok (g, sol) ∧ DepthFirst w h g := by
  obtain ⟨g, g', sol, e, h1, hP, hS, h2⟩ := createMaze_spec oc rnd hw hh hn alg
  obtain ⟨hg, rfl⟩ := hS.opened
  have hgr := graph_exit hw hh hg hS.he hS.bottom
  obtain ⟨g1, h3, _, h4⟩ := recursiveBacktrack_dfs oc rnd hw hh hn
  rw [h2] at h3
  obtain rfl : g = g1 := by simpa using h3
  refine ⟨_, sol, h1, ?_⟩
  intro a b d ha hd
  have := h4 a b d ha hd
  unfold OnRoute at this ⊢
  rwa [hgr]

example (rnd : Nat → Nat) : ∃ g sol, createMaze true rnd 40 30 .RecursiveBacktrack = .ok (g, sol) ∧
    (OnRoute 40 30 g 45 85 ∨ OnRoute 40 30 g 85 45) := by
  obtain ⟨g, sol, h1, h2⟩ := C70_depth_first (w := 40) (h := 30) true rnd .RecursiveBacktrack
    (by omega) (by omega) (by omega)
  exact ⟨g, sol, h1, h2 45 85 .Down (by omega) (by simp [nbr])⟩

/-- In a depth-first tree on a grid of at least 2 x 2 cells, cell 0 does not have both its right and its bottom
passage. -/
theorem DepthFirst.entrance {g : List MazeNode} (hT : (graph w h g).IsAcyclic) (hD : DepthFirst w h g)
    (hw : 2 ≤ w) (hh : 2 ≤ h) : ¬ (rightOpen g 0 = true ∧ downOpen g 0 = true) := by
  classical
  rintro ⟨hr, hd⟩
  have hwh : w * 2 ≤ w * h := Nat.mul_le_mul_left _ hh
  have h0 : 0 < w * h := by omega
  have hadj : ∀ y (hy : y < w * h), Passage w g 0 y → (graph w h g).Adj ⟨0, h0⟩ ⟨y, hy⟩ := by
    intro y hy hp
    rw [graph, SimpleGraph.fromRel_adj]
    refine ⟨?_, .inl hp⟩
    rcases hp with ⟨e, _⟩ | ⟨e, _⟩ <;> simp [e] <;> omega
  have a1 := hadj 1 (by omega) (.inl ⟨rfl, by rw [Nat.zero_mod]; omega, hr⟩)
  have aw := hadj w (by omega) (.inr ⟨by omega, hd⟩)
  have uniq : ∀ {b : Fin (w * h)} (p q : (graph w h g).Walk ⟨0, h0⟩ b), p.IsPath → q.IsPath → p = q := by
    intro b p q hp hq
    exact congrArg Subtype.val ((hT.subsingleton_path _ _).elim ⟨p, hp⟩ ⟨q, hq⟩)
  -- the route to a neighbour of cell 0 has two cells
  have short : ∀ (y : Fin (w * h)) (_ : (graph w h g).Adj ⟨0, h0⟩ y) (x : Nat), x ≠ 0 → x ≠ y.1 →
      ¬ OnRoute w h g x y := by
    rintro y ha x hx hxy ⟨_, hx', _, p, hp, hm⟩
    have e := uniq p (.cons ha .nil) hp (by simp [ha.ne])
    rw [e] at hm
    simp at hm
    rcases hm with hm | hm
    · exact hx hm
    · exact hxy (by rw [← hm])
  have c1 : OnRoute w h g 1 (w + 1) := by
    have hm : (1 + w) < w * h := by omega
    rcases hD 1 (1 + w) .Down (by omega) (by simp [nbr, hm]) with h1 | h1
    · rwa [Nat.add_comm] at h1
    · exact absurd h1 (short _ a1 _ (by omega) (by simp; omega))
  have cw : OnRoute w h g w (w + 1) := by
    rcases hD w (w + 1) .Right (by omega) (by simp [nbr]; omega) with h1 | h1
    · exact h1
    · exact absurd h1 (short _ aw _ (by omega) (by simp))
  obtain ⟨_, h1', hb, p, hp, hm1⟩ := c1
  obtain ⟨_, hw', _, q, hq, hmw⟩ := cw
  obtain rfl := uniq p q hp hq
  have t1 := uniq (p.takeUntil _ hm1) (.cons a1 .nil) (hp.takeUntil hm1) (by simp [a1.ne])
  have tw := uniq (p.takeUntil _ hmw) (.cons aw .nil) (hp.takeUntil hmw) (by simp [aw.ne])
  have s1 := SimpleGraph.Walk.take_spec p hm1
  have sw := SimpleGraph.Walk.take_spec p hmw
  rw [t1] at s1
  rw [tw] at sw
  have := s1.trans sw.symm
  have := congrArg (fun r => r.support[1]?) this
  simp at this
  omega

/-- C70, at the entrance. A maze with at least two rows and two columns has exactly one passage out of cell 0. -/
theorem C70_entrance (oc : Bool) (rnd : Nat → Nat) (alg : MazeAlgorithm) (hw : 2 ≤ w) (hh : 2 ≤ h)
    (hn : w * h * 24 < 2 ^ 63) :
    ∃ g sol, createMaze oc rnd w h alg = .ok (g, sol) ∧ (rightOpen g 0 = true ↔ downOpen g 0 = false) := by
  obtain ⟨g, sol, h1, hD⟩ := C70_depth_first oc rnd alg (by omega) (by omega) hn
  obtain ⟨g1, sol1, e, h2, hR⟩ := createMaze_result oc rnd (by omega) (by omega) hn alg
  rw [h1] at h2
  obtain ⟨rfl, rfl⟩ : g = g1 ∧ sol = sol1 := by simpa using h2
  have hnot := DepthFirst.entrance hR.tree.isAcyclic hD hw hh
  have hwh : w * 2 ≤ w * h := Nat.mul_le_mul_left _ hh
  have hsome : rightOpen g 0 = true ∨ downOpen g 0 = true := by
    obtain ⟨p⟩ := hR.tree.connected.preconnected (⟨0, by omega⟩ : Fin (w * h)) ⟨1, by omega⟩
    cases p with
    | cons ha _ =>
      rw [graph, SimpleGraph.fromRel_adj] at ha
      rcases ha.2 with (⟨_, _, h1⟩ | ⟨_, h1⟩) | (⟨h1, _⟩ | ⟨h1, _⟩)
      · exact .inl h1
      · exact .inr h1
      · simp at h1
      · simp at h1; omega
  refine ⟨g, sol, h1, ?_⟩
  revert hnot hsome
  cases rightOpen g 0 <;> cases downOpen g 0 <;> simp

example (rnd : Nat → Nat) : ∃ g sol, createMaze false rnd 7 5 .RecursiveBacktrack = .ok (g, sol) ∧
    ¬ (rightOpen g 0 = true ∧ downOpen g 0 = true) := by
  obtain ⟨g, sol, h1, h2⟩ := C70_entrance (w := 7) (h := 5) false rnd .RecursiveBacktrack
    (by omega) (by omega) (by omega)
  exact ⟨g, sol, h1, by rintro ⟨h3, h4⟩; rw [h2, h4] at h3; cases h3⟩

/-! ### C71: exactly the depth-first trees -/

/-- C71. For positive dimensions, `recursive_backtrack` returns a grid for some draws if and only if it is a
closed maze whose passages form a depth-first tree. -/
theorem C71_range (oc : Bool) (hw : 1 ≤ w) (hh : 1 ≤ h) (hn : w * h * 24 < 2 ^ 63) (g : List MazeNode) :
    (∃ rnd, recursiveBacktrack oc rnd w h = .ok g) ↔ ClosedTree w h g ∧ DepthFirst w h g := by
  constructor
  · rintro ⟨rnd, h1⟩
    obtain ⟨g1, h2, hP, hD⟩ := recursiveBacktrack_dfs oc rnd hw hh hn
    rw [h1] at h2
    obtain rfl : g = g1 := by simpa using h2
    exact ⟨hP.closedTree hw hh, hD⟩
  · rintro ⟨hC, hD⟩
    exact recursiveBacktrack_target oc hw hh hn (hC.perfect hw hh) hD

/-- C71, for `create_maze`: every closed depth-first maze is made for some draws, up to the bottom wall of one
cell of the last row. -/
theorem C71_create (oc : Bool) (alg : MazeAlgorithm) (hw : 1 ≤ w) (hh : 1 ≤ h) (hn : w * h * 24 < 2 ^ 63)
    {g : List MazeNode} (hC : ClosedTree w h g) (hD : DepthFirst w h g) :
    ∃ rnd sol e n, createMaze oc rnd w h alg = .ok (g.set e { n with down := false }, sol) ∧
      g[e]? = some n ∧ e / w = h - 1 := by
  obtain ⟨rnd, h1⟩ := (C71_range oc hw hh hn g).mpr ⟨hC, hD⟩
  obtain ⟨g1, g', sol, e, h2, hP, hS, h3⟩ := createMaze_spec oc rnd hw hh hn alg
  rw [h1] at h3
  obtain rfl : g = g1 := by simpa using h3
  obtain ⟨hg, rfl⟩ := hS.opened
  exact ⟨rnd, sol, e, g[e], h2, List.getElem?_eq_getElem hg, isBottom_iff.mp hS.bottom⟩

/-- Two 2 x 2 mazes: one that goes round the four cells, and one that leaves cell 0 on both sides. -/
def round : List MazeNode := [⟨false, true⟩, ⟨true, false⟩, ⟨false, true⟩, ⟨true, true⟩]
def fork : List MazeNode := [⟨false, false⟩, ⟨true, false⟩, ⟨true, true⟩, ⟨true, true⟩]

instance (g : List MazeNode) : DecidableRel (graph 2 2 g).Adj := fun a b => by
  unfold graph Passage; infer_instance

theorem round_adj : (graph 2 2 round).Adj 0 1 ∧ (graph 2 2 round).Adj 1 3 ∧ (graph 2 2 round).Adj 3 2 := by
  decide

theorem round_closed : ClosedTree 2 2 round := by
  obtain ⟨a, b, c⟩ := round_adj
  refine ⟨rfl, by decide, by decide, SimpleGraph.isTree_iff_connected_and_card.mpr ⟨⟨?_⟩, ?_⟩⟩
  · have key : ∀ x : Fin (2 * 2), (graph 2 2 round).Reachable 0 x := by
      intro x
      match x with
      | 0 => exact .refl _
      | 1 => exact a.reachable
      | 2 => exact a.reachable.trans (b.reachable.trans c.reachable)
      | 3 => exact a.reachable.trans b.reachable
    exact fun x y => (key x).symm.trans (key y)
  · rw [Nat.card_eq_fintype_card, Nat.card_eq_fintype_card]; decide

theorem fork_closed : ClosedTree 2 2 fork := by
  have a : (graph 2 2 fork).Adj 0 1 := by decide
  have b : (graph 2 2 fork).Adj 1 3 := by decide
  have c : (graph 2 2 fork).Adj 0 2 := by decide
  refine ⟨rfl, by decide, by decide, SimpleGraph.isTree_iff_connected_and_card.mpr ⟨⟨?_⟩, ?_⟩⟩
  · have key : ∀ x : Fin (2 * 2), (graph 2 2 fork).Reachable 0 x := by
      intro x
      match x with
      | 0 => exact .refl _
      | 1 => exact a.reachable
      | 2 => exact c.reachable
      | 3 => exact a.reachable.trans b.reachable
    exact fun x y => (key x).symm.trans (key y)
  · rw [Nat.card_eq_fintype_card, Nat.card_eq_fintype_card]; decide

theorem round_depth_first : DepthFirst 2 2 round := by
  obtain ⟨a, b, c⟩ := round_adj
  have p1 : (SimpleGraph.Walk.cons a .nil).IsPath := by
    simp [SimpleGraph.Walk.cons_isPath_iff]
  have p2 : (SimpleGraph.Walk.cons a (.cons b .nil)).IsPath := by
    simp [SimpleGraph.Walk.cons_isPath_iff]
  have p3 : (SimpleGraph.Walk.cons a (.cons b (.cons c .nil))).IsPath := by
    simp [SimpleGraph.Walk.cons_isPath_iff]
  have r01 : OnRoute 2 2 round 0 1 := ⟨by omega, by omega, by omega, _, p1, by simp⟩
  have r13 : OnRoute 2 2 round 1 3 := ⟨by omega, by omega, by omega, _, p2, by simp⟩
  have r32 : OnRoute 2 2 round 3 2 := ⟨by omega, by omega, by omega, _, p3, by simp⟩
  have r02 : OnRoute 2 2 round 0 2 := ⟨by omega, by omega, by omega, _, p3, by simp⟩
  intro x y d hx hd
  have hx' : x = 0 ∨ x = 1 ∨ x = 2 ∨ x = 3 := by omega
  rcases hx' with rfl | rfl | rfl | rfl <;> cases d <;> simp [nbr] at hd <;> subst hd
  all_goals first
    | exact .inl r01 | exact .inr r01 | exact .inl r13 | exact .inr r13
    | exact .inl r32 | exact .inr r32 | exact .inl r02 | exact .inr r02

/-- The maze `round` is made by `create_maze`, up to the exit. -/
example : ∃ rnd sol e n, createMaze true rnd 2 2 .RecursiveBacktrack = .ok (round.set e { n with down := false }, sol) ∧
    round[e]? = some n ∧ e / 2 = 1 :=
  C71_create (w := 2) (h := 2) true _ (by omega) (by omega) (by omega) round_closed round_depth_first

/-- The first of them is made for some draws, the second, also a perfect maze, for none. -/
example : (∃ rnd, recursiveBacktrack true rnd 2 2 = .ok round) ∧
    ¬ ∃ rnd, recursiveBacktrack true rnd 2 2 = .ok fork := by
  refine ⟨(C71_range true (by omega) (by omega) (by omega) _).mpr ⟨round_closed, round_depth_first⟩, ?_⟩
  rw [C71_range true (by omega) (by omega) (by omega)]
  rintro ⟨hC, hD⟩
  exact DepthFirst.entrance hC.tree.isAcyclic hD (by omega) (by omega) (by decide)

example : ClosedTree 2 2 fork := fork_closed

/-! ### C72: the draws -/

/-- C72. Only the first `4 * w * h` draws matter. -/
theorem C72_draws (oc : Bool) (alg : MazeAlgorithm) (hw : 1 ≤ w) (hh : 1 ≤ h) (hn : w * h * 24 < 2 ^ 63)
    (rnd rnd' : Nat → Nat) (hr : ∀ i < 4 * (w * h), rnd i = rnd' i) :
    createMaze oc rnd w h alg = createMaze oc rnd' w h alg := by
  cases alg
  simp only [createMaze, recursiveBacktrack_local oc hw hh hn hr]

example (f : Nat → Nat) : createMaze true f 10 10 .RecursiveBacktrack =
    createMaze true (fun i => if i < 400 then f i else 0) 10 10 .RecursiveBacktrack :=
  C72_draws true _ (by omega) (by omega) (by omega) _ _ (fun i hi => by simp at hi; simp [hi])

/-! ### C73: the exit among equally distant cells -/

/-- C73. For widths of at least 2: among all routes without repetition from cell 0 to a cell of the last row, the
solution, read from the start, is the last one in the order by length and then by direction (right, down, left,
up). -/
theorem C73_last_route (oc : Bool) (rnd : Nat → Nat) (alg : MazeAlgorithm) (hw : 2 ≤ w) (hh : 1 ≤ h)
    (hn : w * h * 24 < 2 ^ 63) :
    ∃ g sol e, createMaze oc rnd w h alg = .ok (g, sol) ∧
      e < w * h ∧ e / w = h - 1 ∧ downOpen g e = true ∧ Route w h g e sol.reverse ∧
      ∀ b ds, b < w * h → b / w = h - 1 → Route w h g b ds → ds = sol.reverse ∨ Before ds sol.reverse := by
  obtain ⟨g, g', sol, e, h1, hP, hS, _, h2⟩ := createMaze_routes oc rnd hw hh hn alg
  obtain ⟨hg, rfl⟩ := hS.opened
  have h0 : 0 < w * h := Nat.mul_pos (by omega) hh
  have hwalk := fun ds => walk_exit_iff (ds := ds) (by omega) hh hg hS.he hS.bottom h0
  refine ⟨_, sol, e, h1, hS.he, isBottom_iff.mp hS.bottom, by simp [downOpen_set_down hg], ?_, ?_⟩
  · obtain ⟨cells, c1, c2, c3⟩ := hS.wide hw
    exact ⟨cells, by rw [hwalk]; exact c1, c2, c3⟩
  · rintro b ds hb hbot ⟨cells, c1, c2, c3⟩
    exact h2 b ds hb (isBottom_iff.mpr hbot) ⟨cells, by rw [← hwalk]; exact c1, c2, c3⟩

example (rnd : Nat → Nat) : ∃ g sol, createMaze true rnd 30 20 .RecursiveBacktrack = .ok (g, sol) ∧
    ∀ b ds, b < 600 → b / 30 = 19 → Route 30 20 g b ds → ds.length ≤ sol.length := by
  obtain ⟨g, sol, e, h1, _, _, _, _, h2⟩ := C73_last_route (w := 30) (h := 20) true rnd .RecursiveBacktrack
    (by omega) (by omega) (by omega)
  refine ⟨g, sol, h1, fun b ds hb hb' hr => ?_⟩
  rcases h2 b ds (by omega) (by omega) hr with e | e
  · simp [e]
  · unfold Before at e
    rw [List.shortlex_def] at e
    simp at e
    omega

theorem Before.asymm {a b : List MazeDirection} (h1 : Before a b) (h2 : Before b a) : False := by
  have lex : ∀ {a b : List MazeDirection}, List.Lex (fun x y => rank x < rank y) a b →
      List.Lex (fun x y => rank x < rank y) b a → False := by
    intro a b h1
    induction h1 with
    | nil => intro h2; cases h2
    | rel h =>
      intro h2
      cases h2 with
      | rel h' => omega
      | cons _ => omega
    | cons _ ih =>
      intro h2
      cases h2 with
      | rel h' => omega
      | cons h' => exact ih h'
  unfold Before at h1 h2
  rw [List.shortlex_def] at h1 h2
  rcases h1 with h1 | ⟨h1, h1'⟩ <;> rcases h2 with h2 | ⟨h2, h2'⟩
  · omega
  · omega
  · omega
  · exact lex h1' h2'

/-- C73, second part: the description leaves no choice. If a route to a cell of the last row is not followed by
another such route, it is the solution, and its last cell is the exit. -/
theorem C73_unique (oc : Bool) (rnd : Nat → Nat) (alg : MazeAlgorithm) (hw : 2 ≤ w) (hh : 1 ≤ h)
    (hn : w * h * 24 < 2 ^ 63) {g : List MazeNode} {sol : List MazeDirection}
    (hc : createMaze oc rnd w h alg = .ok (g, sol)) {b : Nat} {ds : List MazeDirection}
    (hb : b < w * h) (hbot : b / w = h - 1) (hr : Route w h g b ds)
    (hlast : ∀ b' ds', b' < w * h → b' / w = h - 1 → Route w h g b' ds' → ds' = ds ∨ Before ds' ds) :
    ds = sol.reverse ∧ downOpen g b = true := by
  obtain ⟨g1, sol1, e, h1, he, hbe, hd, hre, hall⟩ := C73_last_route oc rnd alg hw hh hn
  rw [hc] at h1
  obtain ⟨rfl, rfl⟩ : g = g1 ∧ sol = sol1 := by simpa using h1
  have hds : ds = sol.reverse := by
    rcases hall b ds hb hbot hr with e1 | e1
    · exact e1
    · rcases hlast e _ he hbe hre with e2 | e2
      · exact e2.symm
      · exact (Before.asymm e1 e2).elim
  refine ⟨hds, ?_⟩
  subst hds
  obtain ⟨c1, w1, l1, _⟩ := hr
  obtain ⟨c2, w2, l2, _⟩ := hre
  rw [w1] at w2
  obtain rfl : c1 = c2 := by simpa using w2
  rw [l1] at l2
  obtain rfl : b = e := by simpa using l2
  exact hd

/-- There is such a route in every maze. -/
example (rnd : Nat → Nat) : ∃ g sol b ds, createMaze true rnd 9 8 .RecursiveBacktrack = .ok (g, sol) ∧
    b < 9 * 8 ∧ b / 9 = 8 - 1 ∧ Route 9 8 g b ds ∧
    ∀ b' ds', b' < 9 * 8 → b' / 9 = 8 - 1 → Route 9 8 g b' ds' → ds' = ds ∨ Before ds' ds := by
  obtain ⟨g, sol, e, h1, h2, h3, _, h4, h5⟩ := C73_last_route (w := 9) (h := 8) true rnd .RecursiveBacktrack
    (by omega) (by omega) (by omega)
  exact ⟨g, sol, e, _, h1, h2, h3, h4, h5⟩

end Maze.Props
