import Verif.Props.MazeExit
import Verif.Proofs.Maze.Carve

/-! C109: every simple path from the first cell can be carved. C110: the possible columns of the exit. -/
namespace Maze.Props
open Maze Maze.Spec

variable {w h : Nat}

/-- A simple path as a function. -/
theorem path_fun {P : List Nat} (h0 : P.head? = some 0) (hnd : P.Nodup)
    (hch : P.IsChain fun a b => ∃ d, nbr w h a d = some b) : ∃ f : Nat → Nat, ∃ n, f 0 = 0 ∧ P.length = n + 1 ∧
      (∀ i, i < n → ∃ d, nbr w h (f i) d = some (f (i + 1))) ∧ (∀ i i', i < i' → i' ≤ n → f i ≠ f i') ∧
      P = (List.range (n + 1)).map f := by
  obtain ⟨n, hl⟩ : ∃ n, P.length = n + 1 := by
    cases P with
    | nil => simp at h0
    | cons a P => exact ⟨P.length, rfl⟩
  have hf : ∀ i (hi : i < P.length), P.getD i 0 = P[i] := fun i hi => by simp [hi]
  refine ⟨fun i => P.getD i 0, n, ?_, hl, ?_, ?_, ?_⟩
  · rw [List.head?_eq_getElem?] at h0
    simp [h0]
  · intro i hi
    simp only
    rw [hf i (by omega), hf (i + 1) (by omega)]
    exact List.isChain_iff_getElem.1 hch i (by omega)
  · intro i i' h1 h2 e
    simp only at e
    rw [hf i (by omega), hf i' (by omega)] at e
    have := (List.Nodup.getElem_inj_iff hnd).1 e
    omega
  · apply List.ext_getElem (by simp [hl])
    intro i h1 h2
    simp [h1]

/-- C109. Whatever path from the first cell that visits no cell twice is given, for suitable draws it can be walked in the
created maze. -/
theorem C109_carved (oc : Bool) (alg : MazeAlgorithm) (hw : 1 ≤ w) (hh : 1 ≤ h) (hn : w * h * 24 < 2 ^ 63) (P : List Nat)
    (h0 : P.head? = some 0) (hnd : P.Nodup) (hch : P.IsChain fun a b => ∃ d, nbr w h a d = some b) :
    ∃ rnd g sol ds, createMaze oc rnd w h alg = .ok (g, sol) ∧ walk w h g 0 ds = some P := by
  obtain ⟨f, n, f0, _, fd, fi, rfl⟩ := path_fun h0 hnd hch
  obtain ⟨rnd, g, sol, e, h1, R, hadj⟩ := createMaze_carves oc alg hw hh hn f n f0 fd fi
  obtain ⟨ds, h2⟩ := walk_of_adj hw f n hadj
  exact ⟨rnd, g, sol, ds, h1, f0 ▸ h2⟩

/-- A path that leaves cells aside: in some 4x4 maze one can walk from the entrance around a square. -/
example : ∃ rnd g sol ds, createMaze true rnd 4 4 .RecursiveBacktrack = .ok (g, sol) ∧ walk 4 4 g 0 ds = some [0, 1, 2, 6, 5, 4] := by
  refine C109_carved (w := 4) (h := 4) true _ (by omega) (by omega) (by omega) [0, 1, 2, 6, 5, 4] rfl (by decide) ?_
  simp only [List.isChain_cons_cons, List.IsChain.singleton, and_true]
  exact ⟨⟨.Right, rfl⟩, ⟨.Right, rfl⟩, ⟨.Down, rfl⟩, ⟨.Left, rfl⟩, ⟨.Left, rfl⟩⟩

/-- C109, the solution. If the path also visits every cell of the last row and ends in it, then for suitable draws it is the
solution. -/
theorem C109_solution (oc : Bool) (alg : MazeAlgorithm) (hw : 2 ≤ w) (hh : 1 ≤ h) (hn : w * h * 24 < 2 ^ 63)
    (P : List Nat) (h0 : P.head? = some 0) (hnd : P.Nodup) (hch : P.IsChain fun a b => ∃ d, nbr w h a d = some b)
    (hrow : ∀ x < w, w * (h - 1) + x ∈ P) (x : Nat) (hx : x < w) (hlast : P.getLast? = some (w * (h - 1) + x)) :
    ∃ rnd g sol, createMaze oc rnd w h alg = .ok (g, sol) ∧ walk w h g 0 sol.reverse = some P ∧
      downOpen g (w * (h - 1) + x) = true := by
  have hpos : 0 < w * h := Nat.mul_pos (by omega) hh
  obtain ⟨f, n, f0, _, fd, fi, rfl⟩ := path_fun h0 hnd hch
  obtain ⟨rnd, g, sol, e, h1, R, hadj⟩ := createMaze_carves oc alg (by omega) hh hn f n f0 fd fi
  have fn : f n = w * (h - 1) + x := by simpa [List.range_succ] using hlast
  obtain ⟨b1, b2, _⟩ := last_row (w := w) (h := h) (by omega) hh hx
  obtain ⟨he, _⟩ := carved_exit R f n f0 hpos hadj fi (by
    intro c hc hch
    have := hrow (c % w) (Nat.mod_lt _ (by omega))
    rw [← hch, Nat.div_add_mod c w, List.mem_map] at this
    obtain ⟨i, hi, e⟩ := this
    rw [List.mem_range] at hi
    exact ⟨i, by omega, e⟩) (by rw [fn, b2])
  obtain ⟨ds, h2⟩ := walk_of_adj (by omega) f n hadj
  rw [f0] at h2
  obtain ⟨cells, c1, c2, c3⟩ := R.wide hw
  refine ⟨rnd, g, sol, h1, ?_, ?_⟩
  · obtain ⟨_, _, q, hq⟩ := walk_cells (by omega) _ hpos c1 c2
    obtain ⟨_, _, q', hq'⟩ := walk_cells (by omega) _ hpos h2 (b := e) (by rw [hlast, he, fn])
    have p1 : q.IsPath := by
      rw [SimpleGraph.Walk.isPath_def]
      exact List.Nodup.of_map Fin.val (by rw [hq]; exact c3)
    have p2 : q'.IsPath := by
      rw [SimpleGraph.Walk.isPath_def]
      exact List.Nodup.of_map Fin.val (by rw [hq']; exact hnd)
    have : q = q' := congrArg Subtype.val ((R.tree.isAcyclic.subsingleton_path _ _).elim ⟨q, p1⟩ ⟨q', p2⟩)
    rw [c1, ← hq, ← hq', this]
  · rw [← fn, ← he]
    exact (R.exits e R.he R.bottom).mpr rfl

/-- C110. The columns the exit of a created maze can be in: all, except all but the last when there is one row, the middle
one of three, and the second one when there are two rows and at least three columns. -/
theorem C110_columns (oc : Bool) (alg : MazeAlgorithm) (hw : 1 ≤ w) (hh : 1 ≤ h) (hn : w * h * 24 < 2 ^ 63) (x : Nat)
    (hx : x < w) : (∃ rnd g sol, createMaze oc rnd w h alg = .ok (g, sol) ∧ downOpen g (w * (h - 1) + x) = true) ↔
      (h = 1 → x = w - 1) ∧ (w = 3 → x ≠ 1) ∧ (h = 2 → 3 ≤ w → x ≠ 1) := by
  constructor
  · rintro ⟨rnd, g, sol, h1, h2⟩
    obtain ⟨g', sol', x', h3, _, h4, h5⟩ := C104_columns oc rnd alg hw hh hn
    rw [h1] at h3
    obtain ⟨rfl, rfl⟩ : g = g' ∧ sol = sol' := by simpa using h3
    obtain rfl := (h4 x hx).1 h2
    exact h5
  · rintro ⟨h1, h2, h3⟩
    by_cases c1 : h = 1
    · obtain ⟨g, sol, x', e1, e2, e3, e4, _⟩ := C104_columns oc (fun _ => 0) alg hw hh hn
      exact ⟨_, g, sol, e1, (e3 x hx).2 (by rw [h1 c1, e4 c1])⟩
    by_cases c2 : x = 0
    · subst c2
      exact (C104_corners oc alg hw (by omega) hn).1
    by_cases c3 : x = w - 1
    · subst c3
      exact (C104_corners oc alg hw (by omega) hn).2
    by_cases c4 : x = 1
    · subst c4
      exact exit_second oc alg (by omega) (by omega) hn
    · exact exit_inner oc alg (by omega) hn (by omega) hx

/-- Concrete cases: a path through a maze of 3 by 2 cells that is its solution, and the columns of 5 by 2. -/
example : ∃ rnd g sol, createMaze true rnd 3 2 .RecursiveBacktrack = .ok (g, sol) ∧
    walk 3 2 g 0 sol.reverse = some [0, 3, 4, 1, 2, 5] ∧ downOpen g 5 = true := by
  refine C109_solution (w := 3) (h := 2) true _ (by omega) (by omega) (by omega) [0, 3, 4, 1, 2, 5] rfl (by decide) ?_
    (by decide) 2 (by omega) rfl
  simp only [List.isChain_cons_cons, List.IsChain.singleton, and_true]
  exact ⟨⟨.Down, rfl⟩, ⟨.Right, rfl⟩, ⟨.Up, rfl⟩, ⟨.Right, rfl⟩, ⟨.Down, rfl⟩⟩

example : ∃ rnd g sol, createMaze true rnd 5 2 .RecursiveBacktrack = .ok (g, sol) ∧ downOpen g 8 = true :=
  (C110_columns (w := 5) (h := 2) true _ (by omega) (by omega) (by omega) 3 (by omega)).2 (by omega)

example : ¬ ∃ rnd g sol, createMaze true rnd 5 2 .RecursiveBacktrack = .ok (g, sol) ∧ downOpen g 6 = true :=
  fun H => absurd ((C110_columns (w := 5) (h := 2) true _ (by omega) (by omega) (by omega) 1 (by omega)).1 H) (by omega)

end Maze.Props
