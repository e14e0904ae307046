import Verif.Props.MazeShape
import Verif.Props.MazeLength
import Verif.Proofs.Maze.Exit

/-! C104: where the exit of a created maze can be. -/
namespace Maze.Props
open Maze Maze.Spec

variable {w h : Nat}

theorem both (oc : Bool) (rnd : Nat → Nat) (alg : MazeAlgorithm) (hw : 1 ≤ w) (hh : 1 ≤ h) (hn : w * h * 24 < 2 ^ 63) :
    ∃ g sol e, createMaze oc rnd w h alg = .ok (g, sol) ∧ Result w h g sol e ∧ DepthFirst w h g := by
  obtain ⟨g, sol, h1, hD⟩ := C70_depth_first oc rnd alg hw hh hn
  obtain ⟨g1, sol1, e, h2, hR⟩ := createMaze_result oc rnd hw hh hn alg
  rw [h1] at h2
  obtain ⟨rfl, rfl⟩ : g = g1 ∧ sol = sol1 := by simpa using h2
  exact ⟨g, sol, e, h1, hR, hD⟩

/-- Cell `y` of the last row. -/
theorem last_row (hw : 1 ≤ w) (hh : 1 ≤ h) {y : Nat} (hy : y < w) : w * (h - 1) + y < w * h ∧
    (w * (h - 1) + y) / w = h - 1 ∧ (w * (h - 1) + y) % w = y := by
  have : w * (h - 1) + w = w * h := by rw [← Nat.mul_succ]; congr 1; omega
  refine ⟨by omega, ?_, ?_⟩
  · rw [Nat.mul_add_div hw, Nat.div_eq_of_lt hy, Nat.add_zero]
  · rw [Nat.mul_add_mod, Nat.mod_eq_of_lt hy]

theorem beside {g : List MazeNode} {sol : List MazeDirection} {e : Nat} (R : Result w h g sol e)
    (hD : DepthFirst w h g) (hw : 1 ≤ w) (hh : 1 ≤ h) {x y : Nat} (he : e = w * (h - 1) + x) (hx : x < w) (hy : y < w)
    (hxy : y + 1 = x ∨ y = x + 1) : OnRoute w h g (w * (h - 1) + y) e := by
  subst he
  obtain ⟨b1, b2, b3⟩ := last_row hw hh hy
  obtain ⟨e1, e2, e3⟩ := last_row hw hh hx
  rcases hxy with rfl | rfl
  · exact exit_neighbour R hD b1 b2 (by omega) (d := .Left) (by
      simp only [nbr]; rw [e3, if_pos (by omega)]; congr 1)
  · exact exit_neighbour R hD b1 b2 (by omega) (d := .Right) (by
      simp only [nbr]; rw [e3, if_pos (by omega)]; congr 1)

/-- C104. The solution of a created maze passes through both neighbours of the exit in the last row. -/
theorem C104_neighbours (oc : Bool) (rnd : Nat → Nat) (alg : MazeAlgorithm) (hw : 2 ≤ w) (hh : 1 ≤ h)
    (hn : w * h * 24 < 2 ^ 63) : ∃ g sol x cells, createMaze oc rnd w h alg = .ok (g, sol) ∧
      x < w ∧ downOpen g (w * (h - 1) + x) = true ∧ walk w h g 0 sol.reverse = some cells ∧
      cells.getLast? = some (w * (h - 1) + x) ∧
      ∀ y < w, (y + 1 = x ∨ y = x + 1) → w * (h - 1) + y ∈ cells := by
  obtain ⟨g, sol, e, h1, R, hD⟩ := both oc rnd alg (by omega) hh hn
  obtain ⟨cells, c1, c2, c3⟩ := R.wide hw
  have he : w * (h - 1) + e % w = e := by rw [← R.bottom]; exact Nat.div_add_mod e w
  refine ⟨g, sol, e % w, cells, h1, Nat.mod_lt _ (by omega), ?_, c1, by rw [he]; exact c2, ?_⟩
  · rw [he]; exact (R.exits e R.he R.bottom).mpr rfl
  · intro y hy hxy
    obtain ⟨h0, ha, hb, p, hp, hm⟩ := beside R hD (by omega) hh he.symm (Nat.mod_lt _ (by omega)) hy hxy
    obtain ⟨_, _, q, hq⟩ := walk_cells (by omega) _ h0 c1 c2
    have hq' : q.IsPath := by
      rw [SimpleGraph.Walk.isPath_def]
      apply List.Nodup.of_map Fin.val
      rw [hq]; exact c3
    have : p = q := congrArg Subtype.val ((R.tree.isAcyclic.subsingleton_path _ _).elim ⟨p, hp⟩ ⟨q, hq'⟩)
    rw [this] at hm
    rw [← hq]
    exact List.mem_map.2 ⟨_, hm, rfl⟩

/-- C104, columns that are not possible. A maze of one row has its exit in the last column; a maze of width 3 never has
its exit in the middle, and a maze of two rows and at least three columns never in the second column. -/
theorem C104_columns (oc : Bool) (rnd : Nat → Nat) (alg : MazeAlgorithm) (hw : 1 ≤ w) (hh : 1 ≤ h)
    (hn : w * h * 24 < 2 ^ 63) : ∃ g sol x, createMaze oc rnd w h alg = .ok (g, sol) ∧
      x < w ∧ (∀ y < w, downOpen g (w * (h - 1) + y) = true ↔ y = x) ∧
      (h = 1 → x = w - 1) ∧ (w = 3 → x ≠ 1) ∧ (h = 2 → 3 ≤ w → x ≠ 1) := by
  classical
  obtain ⟨g, sol, e, h1, R, hD⟩ := both oc rnd alg hw hh hn
  have he : w * (h - 1) + e % w = e := by rw [← R.bottom]; exact Nat.div_add_mod e w
  have hx : e % w < w := Nat.mod_lt _ hw
  have side := fun y hy hxy => beside (y := y) R hD hw hh he.symm hx hy hxy
  have h0 : 0 < w * h := Nat.mul_pos hw hh
  generalize e % w = x at he hx side
  have hone : h = 1 → x = w - 1 := by
    rintro rfl
    by_contra hc
    obtain ⟨_, ha, hb, p, hp, hm⟩ := side (x + 1) (by omega) (.inr rfl)
    simp only [Nat.sub_self, Nat.mul_zero, Nat.zero_add] at he ha hm
    have nb := SimpleGraph.Walk.endpoint_notMem_support_takeUntil hp hm (by simp; omega)
    obtain ⟨c, hc, e1⟩ := between (fun c : Fin (w * 1) => c.1) (fun a b hab => by
      rw [graph, SimpleGraph.fromRel_adj] at hab
      rcases hab.2 with (⟨h1, _⟩ | ⟨h1, _⟩) | (⟨h1, _⟩ | ⟨h1, _⟩)
      · omega
      · have := b.2; omega
      · omega
      · omega) (p.takeUntil _ hm) x (Nat.zero_le _) (by simp)
    have : c = ⟨e, hb⟩ := Fin.ext (by simp only; omega)
    exact nb (this ▸ hc)
  -- the neighbours of the cells in the two lower corners
  have nbrs : ∀ (c d : Fin (w * h)), c.1 / w = h - 1 → (graph w h g).Adj c d →
      (c.1 = d.1 + w) ∨ (c.1 = d.1 + 1 ∧ 0 < c.1 % w) ∨ (d.1 = c.1 + 1 ∧ c.1 % w + 1 < w) := by
    intro c d hc hcd
    rw [graph, SimpleGraph.fromRel_adj] at hcd
    rcases hcd.2 with (⟨h1, h2, _⟩ | ⟨h1, _⟩) | (⟨h1, h2, _⟩ | ⟨h1, _⟩)
    · exact .inr (.inr ⟨h1, h2⟩)
    · have := Nat.div_lt_of_lt_mul d.2
      rw [h1, Nat.add_div_right _ hw] at this
      omega
    · refine .inr (.inl ⟨h1, ?_⟩)
      rw [h1, Nat.add_mod, Nat.mod_eq_of_lt (show 1 < w by omega), Nat.mod_eq_of_lt h2]
      omega
    · exact .inl h1
  have corner : ∀ y, y < w → (y + 1 = x ∧ y = 0 ∨ y = x + 1 ∧ y + 1 = w) → 2 ≤ h →
      ∃ (hb : w * (h - 1) + y < w * h) (p : (graph w h g).Walk ⟨0, h0⟩ ⟨e, R.he⟩), p.IsPath ∧
        p.penultimate = ⟨_, hb⟩ ∧ (w * (h - 2) + y = 0 → p.length = 2) := by
    intro y hy hxy h2
    obtain ⟨_, ha, hb, p, hp, hm⟩ := side y hy (by omega)
    obtain ⟨_, b2, b3⟩ := last_row hw hh hy
    have hww : w * (h - 1) = w * (h - 2) + w := by rw [← Nat.mul_succ]; congr 1; omega
    obtain ⟨q1, _, q3⟩ := corner_last (u := ⟨w * (h - 2) + y, by omega⟩) p hp hm
      (by simp only [ne_eq, Fin.mk.injEq]; omega) (by simp only [ne_eq, Fin.mk.injEq]; omega) (fun d hd => by
        have := nbrs _ d b2 hd
        simp only [Fin.ext_iff]
        simp only [b3] at this
        omega)
    exact ⟨ha, p, hp, q1, fun e => q3 (Fin.ext e)⟩
  refine ⟨g, sol, x, h1, hx, ?_, hone, ?_, ?_⟩
  · intro y hy
    obtain ⟨b1, b2, _⟩ := last_row hw hh hy
    rw [R.exits _ b1 b2]
    omega
  · rintro rfl rfl
    have h2 : 2 ≤ h := by
      by_contra hc
      have := hone (by omega)
      omega
    obtain ⟨_, p, hp, e1, _⟩ := corner 0 (by omega) (by omega) h2
    obtain ⟨_, q, hq, e2, _⟩ := corner 2 (by omega) (by omega) h2
    obtain rfl : p = q := congrArg Subtype.val ((R.tree.isAcyclic.subsingleton_path _ _).elim ⟨p, hp⟩ ⟨q, hq⟩)
    rw [e1] at e2
    simp at e2
  · rintro rfl h3 rfl
    obtain ⟨_, p, hp, _, e1⟩ := corner 0 (by omega) (by omega) (by omega)
    have e2 := e1 (by omega)
    have e3 := R.long hw hh
    rw [R.slen h0] at e3
    have := SimpleGraph.dist_le p
    omega

/-- C104, columns that are possible. With at least two rows the exit can be in the first column and in the last. -/
theorem C104_corners (oc : Bool) (alg : MazeAlgorithm) (hw : 1 ≤ w) (hh : 2 ≤ h) (hn : w * h * 24 < 2 ^ 63) :
    (∃ rnd g sol, createMaze oc rnd w h alg = .ok (g, sol) ∧ downOpen g (w * (h - 1)) = true) ∧
    ∃ rnd g sol, createMaze oc rnd w h alg = .ok (g, sol) ∧ downOpen g (w * (h - 1) + (w - 1)) = true := by
  constructor
  · obtain ⟨rnd, g, sol, e, h1, he, h2, _, h3⟩ := (turn_ham hw (by omega)).create oc alg hw (by omega) hn
    obtain rfl : e = 0 := by
      by_contra hc
      have := h3 0 (by omega)
      simp only [turn] at this
      rw [if_neg (show ¬ h - 1 = 0 by omega), if_neg (show ¬ h - 1 = 0 by omega)] at this
      have h4 : (h - 1) * (w - 1 - e) + (h - 1) ≤ (h - 1) * (w - 1 - 0) := by
        rw [← Nat.mul_succ]; exact Nat.mul_le_mul_left _ (by omega)
      have h5 : (if (w - 1 - e) % 2 = 0 then h - 1 - 1 else h - 1 - (h - 1)) < h - 1 := by split <;> omega
      omega
    exact ⟨rnd, g, sol, h1, h2⟩
  · obtain ⟨rnd, g, sol, e, h1, he, h2, _, h3⟩ := (comb_ham hw (show 1 ≤ h by omega)).create oc alg hw (by omega) hn
    obtain rfl : e = w - 1 := by
      have bot : ∀ x, comb w h x (h - 1) = h - 1 + x := by
        intro x
        simp only [comb]
        split
        · omega
        · rw [if_pos (by omega)]
      have := h3 (w - 1) (by omega)
      rw [bot, bot] at this
      omega
    exact ⟨rnd, g, sol, h1, h2⟩

/-- Concrete cases: a maze of 6 by 4 cells, the middle column of 3 by 5, and both corners of 6 by 4. -/
example (rnd : Nat → Nat) : ∃ g sol x cells, createMaze true rnd 6 4 .RecursiveBacktrack = .ok (g, sol) ∧
    walk 6 4 g 0 sol.reverse = some cells ∧ cells.getLast? = some (18 + x) ∧ (x = 3 → 20 ∈ cells ∧ 22 ∈ cells) := by
  obtain ⟨g, sol, x, cells, h1, h2, _, h3, h4, h5⟩ := C104_neighbours (w := 6) (h := 4) true rnd .RecursiveBacktrack
    (by omega) (by omega) (by omega)
  exact ⟨g, sol, x, cells, h1, h3, h4, fun e => ⟨h5 2 (by omega) (by omega), h5 4 (by omega) (by omega)⟩⟩

example (rnd : Nat → Nat) : ∃ g sol, createMaze true rnd 3 5 .RecursiveBacktrack = .ok (g, sol) ∧
    downOpen g 13 = false := by
  obtain ⟨g, sol, x, h1, h2, h3, _, h4, _⟩ := C104_columns (w := 3) (h := 5) true rnd .RecursiveBacktrack
    (by omega) (by omega) (by omega)
  refine ⟨g, sol, h1, ?_⟩
  have := h3 1 (by omega)
  have := h4 rfl
  simp at *
  grind

example : ∃ rnd g sol, createMaze true rnd 6 4 .RecursiveBacktrack = .ok (g, sol) ∧ downOpen g 18 = true :=
  (C104_corners (w := 6) (h := 4) true _ (by omega) (by omega) (by omega)).1

end Maze.Props
