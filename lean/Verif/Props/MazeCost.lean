import Verif.Proofs.Maze.Cost
import Verif.Props.MazeRoute

/-! C96: the number of steps of `create_maze`. -/
namespace Maze.Props
open Maze Maze.Spec Maze.Cost Counted

variable {w h : Nat}

/-- A turn of the search is one step. -/
theorem search_turn {oc : Bool} {g : List MazeNode} {s s' : BState} (e : bfsBody oc w h g s = .ok (.inl s')) :
    countedBfsBody oc w h g s = Prog.ok (.inl s', 1) := by
  obtain ⟨pt, tr, f⟩ := s
  cases tr with
  | nil => simp [bfsBody] at e
  | cons c rest =>
    by_cases hw : w = 0
    · simp [bfsBody, hw] at e
    simp only [bfsBody, hw, if_false] at e
    simp only [countedBfsBody, hw, if_false]
    obtain ⟨h1, eh, e⟩ := Prog.bind_eq_ok.mp e
    simp only [eh, lift_bind]
    by_cases hc : c / w = h1
    · simp only [hc, if_true] at e ⊢
      by_cases hf : f + 1 = w
      · simp only [hf, if_true] at e
        obtain ⟨_, _, e⟩ := Prog.bind_eq_ok.mp e
        obtain ⟨_, _, e⟩ := Prog.bind_eq_ok.mp e
        obtain ⟨_, _, e⟩ := Prog.bind_eq_ok.mp e
        simp at e
      · simp only [hf, if_false] at e ⊢
        obtain ⟨s1, es, e⟩ := Prog.bind_eq_ok.mp e
        simp at e
        subst e
        simp only [es, lift_bind]
        rfl
    · simp only [hc, if_false] at e ⊢
      obtain ⟨s1, es, e⟩ := Prog.bind_eq_ok.mp e
      simp at e
      subst e
      simp only [es, lift_bind]
      rfl

/-- Reading off the solution takes one step for each direction and one for the end. -/
theorem solution_cost {oc : Bool} {pt : List PathNode} {s : Nat × List MazeDirection} {sol : List MazeDirection}
    (e : loop (solutionBody oc w pt) s = .ok sol) :
    ∃ u, Counted.loop (countedSolutionBody oc w pt) s = Prog.ok (sol, u) ∧ u + s.2.length = sol.length + 1 := by
  obtain ⟨n, s', r, he⟩ := loop_ok_iff.mp e
  have key := Pays.runs (body := solutionBody oc w pt) (body' := countedSolutionBody oc w pt)
    (I := fun s' n t => t = n ∧ n + s.2.length = s'.2.length) (Q := fun a t => t + s.2.length = a.length + 1) ?_ r 0 0
    ⟨rfl, by simp⟩ he ?_
  · obtain ⟨a, u, e1, e2, h3⟩ := key
    rw [e] at e1
    obtain rfl := Prog.ok.inj e1
    exact ⟨u, e2, by simpa using h3⟩
  · rintro n s s' t ⟨rfl, hl⟩ e
    refine ⟨1, by simp only [countedSolutionBody, e]; rfl, rfl, ?_⟩
    unfold solutionBody at e
    obtain ⟨p, _, e⟩ := Prog.bind_eq_ok.mp e
    cases p with
    | Path q =>
      obtain ⟨d, _, e⟩ := Prog.bind_eq_ok.mp e
      simp at e
      subst e
      simp; omega
    | _ => simp at e
  · rintro t ⟨rfl, hl⟩
    refine ⟨1, by simp only [countedSolutionBody, he]; rfl, ?_⟩
    unfold solutionBody at he
    obtain ⟨p, _, he⟩ := Prog.bind_eq_ok.mp he
    cases p with
    | Path q =>
      obtain ⟨d, _, he⟩ := Prog.bind_eq_ok.mp he
      simp at he
    | _ => simp at he; subst he; omega

/-- The last turn of the search. -/
theorem search_end {oc : Bool} {g g' : List MazeNode} {sol : List MazeDirection} {s : BState}
    (e : bfsBody oc w h g s = .ok (.inr (g', sol))) :
    countedBfsBody oc w h g s = Prog.ok (.inr (g', sol), sol.length + 2) := by
  obtain ⟨pt, tr, f⟩ := s
  cases tr with
  | nil => simp [bfsBody] at e
  | cons c rest =>
    by_cases hw : w = 0
    · simp [bfsBody, hw] at e
    simp only [bfsBody, hw, if_false] at e
    simp only [countedBfsBody, hw, if_false]
    obtain ⟨h1, eh, e⟩ := Prog.bind_eq_ok.mp e
    simp only [eh, lift_bind]
    by_cases hc : c / w = h1
    · simp only [hc, if_true] at e ⊢
      by_cases hf : f + 1 = w
      · simp only [hf, if_true] at e ⊢
        obtain ⟨n1, e1, e⟩ := Prog.bind_eq_ok.mp e
        obtain ⟨n2, e2, e⟩ := Prog.bind_eq_ok.mp e
        obtain ⟨n3, e3, e⟩ := Prog.bind_eq_ok.mp e
        simp at e
        obtain ⟨rfl, rfl⟩ := e
        obtain ⟨u, e4, hu⟩ := solution_cost e3
        simp at hu
        simp only [e1, e2, lift_bind]
        erw [e4]
        subst hu
        show Prog.ok (_, _) = _
        congr 2
        omega
      · simp only [hf, if_false] at e
        obtain ⟨s1, es, e⟩ := Prog.bind_eq_ok.mp e
        simp at e
    · simp only [hc, if_false] at e
      obtain ⟨s1, es, e⟩ := Prog.bind_eq_ok.mp e
      simp at e

/-- C96. `create_maze` takes a number of steps proportional to the number of cells: the code with a counter returns the
same, after at most `71 * w * h` steps. -/
theorem C96_linear (oc : Bool) (rnd : Nat → Nat) (alg : MazeAlgorithm) (hw : 1 ≤ w) (hh : 1 ≤ h)
    (hn : w * h * 24 < 2 ^ 63) :
    ∃ r t, createMaze oc rnd w h alg = .ok r ∧ countedCreate oc rnd w h alg = Prog.ok (r, t) ∧ t ≤ 71 * (w * h) := by
  have h0 : 0 < w * h := Nat.mul_pos hw hh
  obtain ⟨g, g', sol, n, t, h1, h2', r, he, hlt⟩ := createMaze_runs oc rnd hw hh hn alg
  obtain ⟨g2, t1, e1, e2, hle⟩ := backtrack_cost oc rnd hw hh hn
  obtain rfl : g = g2 := by rw [h1] at e1; exact Prog.ok.inj e1
  have hsol : sol.length < w * h := by
    by_cases h2 : 2 ≤ w
    · obtain ⟨g3, sol3, x, e5, _, _, _, _, _, hl, _⟩ := C84_route_counts oc rnd alg h2 hh hn
      rw [h2'] at e5
      cases e5
      exact hl
    · obtain ⟨g3, sol3, x, e5, hR⟩ := createMaze_result oc rnd hw hh hn alg
      rw [h2'] at e5
      cases e5
      obtain rfl : w = 1 := by omega
      rw [hR.narrow rfl, List.length_replicate]
      omega
  obtain ⟨a, u, e3, e4, h5⟩ := Pays.runs (body := bfsBody oc w h g) (body' := countedBfsBody oc w h g)
    (I := fun _ n t => t = n) (Q := fun _ t => t ≤ 2 * (w * h)) (by
      rintro n s s' t rfl e
      exact ⟨1, search_turn e, rfl⟩) r 0 0 rfl he (by
      rintro t rfl
      exact ⟨_, search_end he, by omega⟩)
  refine ⟨a, t1 + (w * h + u), ?_, ?_, by omega⟩
  · cases alg
    unfold createMaze
    simp only [h1, Prog.ok_bind, mulW_ok (show w * h < 2 ^ 64 by omega), vecRepeat,
      show w * h * 16 < 2 ^ 63 by omega, if_true]
    rw [setP_ok (by simpa using h0)]
    exact e3
  · cases alg
    unfold countedCreate
    simp only [e2, mulW_ok (show w * h < 2 ^ 64 by omega), vecRepeat, lift_bind, ok_bind,
      show w * h * 16 < 2 ^ 63 by omega, if_true]
    rw [setP_ok (by simpa using h0)]
    erw [lift_bind, e4]
    rfl

/-- The counter counts: for the maze of one cell 7 items are made, the loops make 2 (outer) and 5 (inner) turns, then one
item is made and the loops make 1 (search) and 1 (solution) turn. -/
example : countedCreate true (fun _ => 0) 1 1 .RecursiveBacktrack = Prog.ok (([⟨true, false⟩], []), 17) := by
  have v : Counted.loop (countedVisitBody true (fun _ => 0) 0 1 1)
      ⟨[.new], [.new], [.Right, .Down, .Left, .Up], 0⟩ = Prog.ok ((none, ⟨[.new], [.new], [], 4⟩), 5) := by
    rw [Counted.loop_inl (s' := ⟨[.new], [.new], [.Up, .Down, .Left], 1⟩) (t := 1) rfl,
      Counted.loop_inl (s' := ⟨[.new], [.new], [.Left, .Down], 2⟩) (t := 1) rfl,
      Counted.loop_inl (s' := ⟨[.new], [.new], [.Down], 3⟩) (t := 1) rfl,
      Counted.loop_inl (s' := ⟨[.new], [.new], [], 4⟩) (t := 1) rfl,
      Counted.loop_inr (a := (none, ⟨[.new], [.new], [], 4⟩)) (t := 1) rfl]
    rfl
  have b : Counted.loop (countedBacktrackBody true (fun _ => 0) 1 1)
      ⟨[.new], [.new], [0], [[.Right, .Down, .Left, .Up]], 0⟩ = Prog.ok ([.new], 7) := by
    rw [Counted.loop_inl (s' := ⟨[.new], [.new], [], [[]], 4⟩) (t := 6),
      Counted.loop_inr (a := [.new]) (t := 1) rfl]
    · rfl
    · simp only [countedBacktrackBody, getP, List.getElem?_cons_zero, Counted.lift_bind, countedVisitNext]
      rw [v]
      rfl
  have c : Counted.loop (countedBfsBody true 1 1 [.new]) ⟨[.Start], [0], 0⟩ = Prog.ok (([⟨true, false⟩], []), 2) := by
    rw [Counted.loop_inr (a := ([⟨true, false⟩], [])) (t := 2)]
    refine search_end (oc := true) (w := 1) (h := 1) (g := [.new]) (s := ⟨[.Start], [0], 0⟩) ?_
    have : loop (solutionBody true 1 [.Start]) (0, []) = .ok [] := loop_inr rfl
    simp [bfsBody, subW, getP, setP, this, MazeNode.new]
  have e : countedBacktrack true (fun _ => 0) 1 1 = Prog.ok ([.new], 14) := by
    unfold countedBacktrack
    simp only [mulW_ok (show 1 * 1 < 2 ^ 64 by decide), vecRepeat, DisjointSet.withSize, Counted.lift_bind,
      show 1 * 1 * 2 < 2 ^ 63 by decide, show 1 * 1 * 16 < 2 ^ 63 by decide, show 1 * 1 * 24 < 2 ^ 63 by decide, if_true]
    erw [Counted.lift_bind, b]
    rfl
  unfold countedCreate
  simp only [e, mulW_ok (show 1 * 1 < 2 ^ 64 by decide), vecRepeat, Counted.lift_bind, Counted.ok_bind,
    show 1 * 1 * 16 < 2 ^ 63 by decide, if_true]
  erw [Counted.lift_bind, c]
  rfl

/-- The hypotheses of C96 are met. -/
example (rnd : Nat → Nat) : ∃ r t, createMaze true rnd 30 20 .RecursiveBacktrack = .ok r ∧
    countedCreate true rnd 30 20 .RecursiveBacktrack = Prog.ok (r, t) ∧ t ≤ 42600 :=
  C96_linear (w := 30) (h := 20) true rnd .RecursiveBacktrack (by omega) (by omega) (by omega)

end Maze.Props
