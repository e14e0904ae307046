import Verif.Props.MazeOdds

/-!
Property theorems about how likely each created maze is (C123): `create_maze` adds to the maze that it is given an exit
and a solution, and neither hides nor splits a maze.
-/
namespace Maze.Props
open Maze Maze.Spec

variable {w h : Nat}

/-- With an exit in the last row the maze is still told. -/
theorem exit_injective {g1 g2 : List MazeNode} (h1 : ClosedTree w h g1) (h2 : ClosedTree w h g2) {e1 e2 : Nat}
    {n1 n2 : MazeNode} (m1 : g1[e1]? = some n1) (m2 : g2[e2]? = some n2) (b1 : e1 / w = h - 1) (b2 : e2 / w = h - 1)
    (E : g1.set e1 { n1 with down := false } = g2.set e2 { n2 with down := false }) : g1 = g2 := by
  obtain ⟨l1, rfl⟩ := List.getElem?_eq_some_iff.mp m1
  obtain ⟨l2, rfl⟩ := List.getElem?_eq_some_iff.mp m2
  have s1 := h1.bottom e1 (h1.len ▸ l1) b1
  have s2 := h2.bottom e2 (h2.len ▸ l2) b2
  have t2 := h2.bottom e1 (h1.len ▸ l1) b1
  have hlt : e1 < g2.length := by rw [h2.len, ← h1.len]; exact l1
  obtain rfl : e1 = e2 := by
    by_contra hne
    have := congrArg (fun l => l[e1]?) E
    simp only [List.getElem?_set_self l1, List.getElem?_set_ne (Ne.symm hne), List.getElem?_eq_getElem hlt,
      Option.some.injEq] at this
    rw [downOpen, List.getElem?_eq_getElem hlt, ← this] at t2
    simp at t2
  refine List.ext_getElem? fun i => ?_
  have := congrArg (fun l => l[i]?) E
  rcases eq_or_ne e1 i with rfl | hne
  · simp only [List.getElem?_set_self l1, List.getElem?_set_self l2, Option.some.injEq, MazeNode.mk.injEq] at this
    simp only [downOpen, List.getElem?_eq_getElem l1, List.getElem?_eq_getElem l2] at s1 s2 ⊢
    rw [Option.some.injEq]
    generalize g1[e1] = a at *
    generalize g2[e1] = b at *
    rcases a with ⟨a, a'⟩
    rcases b with ⟨b, b'⟩
    simp_all
  · simpa only [List.getElem?_set_ne hne] using this

/-- C123. Two runs of `create_maze` agree in the maze if and only if the underlying runs of `recursive_backtrack` do;
then they agree in the solution as well. -/
theorem C123_same (oc : Bool) (alg : MazeAlgorithm) (hw : 1 ≤ w) (hh : 1 ≤ h) (hn : w * h * 24 < 2 ^ 63)
    (rnd rnd' : Nat → Nat) : ∃ g g' sol sol', createMaze oc rnd w h alg = .ok (g, sol) ∧
      createMaze oc rnd' w h alg = .ok (g', sol') ∧
      (g = g' ↔ recursiveBacktrack oc rnd w h = recursiveBacktrack oc rnd' w h) ∧ (g = g' → sol = sol') := by
  obtain ⟨a, g, sol, e, p1, hP, S, p2⟩ := createMaze_spec oc rnd hw hh hn alg
  obtain ⟨b, g', sol', e', q1, hQ, S', q2⟩ := createMaze_spec oc rnd' hw hh hn alg
  obtain ⟨hg, hge⟩ := S.opened
  obtain ⟨hg', hge'⟩ := S'.opened
  have key : recursiveBacktrack oc rnd w h = recursiveBacktrack oc rnd' w h →
      createMaze oc rnd w h alg = createMaze oc rnd' w h alg := by
    intro H
    cases alg
    simp only [createMaze, H]
  have back : g = g' → recursiveBacktrack oc rnd w h = recursiveBacktrack oc rnd' w h := by
    intro H
    rw [p2, q2]
    rw [hge, hge'] at H
    exact congrArg _ (exit_injective (hP.closedTree hw hh) (hQ.closedTree hw hh) (List.getElem?_eq_getElem hg)
      (List.getElem?_eq_getElem hg') (isBottom_iff.mp S.bottom) (isBottom_iff.mp S'.bottom) H)
  have both : recursiveBacktrack oc rnd w h = recursiveBacktrack oc rnd' w h → g = g' ∧ sol = sol' := by
    intro H
    have := key H
    rw [p1, q1] at this
    simpa using this
  exact ⟨g, g', sol, sol', p1, q1, ⟨back, fun H => (both H).1⟩, fun H => (both (back H)).2⟩

/-- Two different draws. -/
example : ∃ g g' sol sol', createMaze true (fun _ => 0) 9 7 .RecursiveBacktrack = .ok (g, sol) ∧
    createMaze true (fun _ => 1) 9 7 .RecursiveBacktrack = .ok (g', sol') ∧
    (g = g' ↔ recursiveBacktrack true (fun _ => 0) 9 7 = recursiveBacktrack true (fun _ => 1) 9 7) ∧
    (g = g' → sol = sol') :=
  C123_same true _ (by omega) (by omega) (by omega) _ _

/-- What `create_maze` makes of one maze. -/
theorem created_from (oc : Bool) (alg : MazeAlgorithm) (hw : 1 ≤ w) (hh : 1 ≤ h) (hn : w * h * 24 < 2 ^ 63)
    {g : List MazeNode} (hC : ClosedTree w h g) (hD : DepthFirst w h g) :
    ∃ sol e n, g[e]? = some n ∧ e / w = h - 1 ∧
      ∀ rnd, createMaze oc rnd w h alg = .ok (g.set e { n with down := false }, sol) ↔
        recursiveBacktrack oc rnd w h = .ok g := by
  obtain ⟨rnd, h1⟩ := (C71_range oc hw hh hn g).mpr ⟨hC, hD⟩
  obtain ⟨g1, g', sol, e, h2, hP, hS, h3⟩ := createMaze_spec oc rnd hw hh hn alg
  rw [h1] at h3
  obtain rfl : g = g1 := by simpa using h3
  obtain ⟨hg, rfl⟩ := hS.opened
  refine ⟨sol, e, g[e], List.getElem?_eq_getElem hg, isBottom_iff.mp hS.bottom, fun rnd' => ?_⟩
  obtain ⟨a, a', s, s', q1, q2, q3, q4⟩ := C123_same oc alg hw hh hn rnd rnd'
  rw [h2] at q1
  obtain ⟨rfl, rfl⟩ : _ = a ∧ sol = s := by simpa using q1
  rw [q2]
  constructor
  · intro H
    obtain ⟨E, -⟩ : a' = _ ∧ s' = _ := by simpa using H
    rw [← q3.mp E.symm, h1]
  · intro H
    have E := q3.mpr (h1.trans H.symm)
    rw [← E, ← q4 E]

/-- C123, the probability: a closed depth-first maze with its exit and solution is created for as many draws as
the maze is made for (C121). -/
theorem C123_odds (oc : Bool) (alg : MazeAlgorithm) (hw : 1 ≤ w) (hh : 1 ≤ h) (hn : w * h * 24 < 2 ^ 63) {N : Nat}
    (hN : 12 ∣ N) {g : List MazeNode} (hC : ClosedTree w h g) (hD : DepthFirst w h g) :
    ∃ sol e n, g[e]? = some n ∧ e / w = h - 1 ∧
      Nat.card {d : Fin (4 * (w * h)) → Fin N //
        createMaze oc (drawSeq d) w h alg = .ok (g.set e { n with down := false }, sol)} * odds w h g =
          N ^ (4 * (w * h)) := by
  obtain ⟨sol, e, n, h1, h2, h3⟩ := created_from oc alg hw hh hn hC hD
  refine ⟨sol, e, n, h1, h2, ?_⟩
  rw [Nat.card_congr (Equiv.subtypeEquivRight fun d => h3 (drawSeq d))]
  exact C121_odds oc hw hh hn hN hC hD

example : ∃ sol e n, round[e]? = some n ∧ e / 2 = 1 ∧
    Nat.card {d : Fin 16 → Fin 12 //
      createMaze true (drawSeq d) 2 2 .RecursiveBacktrack = .ok (round.set e { n with down := false }, sol)} *
        odds 2 2 round = 12 ^ 16 :=
  C123_odds (w := 2) (h := 2) true _ (by omega) (by omega) (by omega) (by decide) round_closed round_depth_first

/-- C123, the number: `create_maze` has as many results as `recursive_backtrack`, at most `2^((w - 1) * (h - 1))`, and
exactly that many if and only if the maze has at most two rows or at most two columns. -/
theorem C123_count (oc : Bool) (alg : MazeAlgorithm) (hw : 1 ≤ w) (hh : 1 ≤ h) (hn : w * h * 24 < 2 ^ 63) :
    Nat.card {r // ∃ rnd, createMaze oc rnd w h alg = .ok r} ≤ 2 ^ ((w - 1) * (h - 1)) ∧
    (Nat.card {r // ∃ rnd, createMaze oc rnd w h alg = .ok r} = 2 ^ ((w - 1) * (h - 1)) ↔ w ≤ 2 ∨ h ≤ 2) := by
  have E : Nat.card {r // ∃ rnd, createMaze oc rnd w h alg = .ok r} =
      Nat.card {g // ∃ rnd, recursiveBacktrack oc rnd w h = .ok g} := by
    have F : ∀ g : {g // ∃ rnd, recursiveBacktrack oc rnd w h = .ok g}, ∃ r, ∀ rnd,
        createMaze oc rnd w h alg = .ok r ↔ recursiveBacktrack oc rnd w h = .ok g.1 := by
      intro g
      obtain ⟨hC, hD⟩ := (C71_range oc hw hh hn g.1).mp g.2
      obtain ⟨sol, e, n, _, _, h3⟩ := created_from oc alg hw hh hn hC hD
      exact ⟨_, h3⟩
    refine (Nat.card_congr (Equiv.ofBijective
      (fun g => (⟨(F g).choose, g.2.imp fun rnd hr => ((F g).choose_spec rnd).mpr hr⟩ :
        {r // ∃ rnd, createMaze oc rnd w h alg = .ok r})) ⟨?_, ?_⟩)).symm
    · intro g g' he
      have he' : (F g).choose = (F g').choose := congrArg Subtype.val he
      obtain ⟨rnd, hr⟩ := g.2
      have h1 := ((F g).choose_spec rnd).mpr hr
      rw [he'] at h1
      have h2 := ((F g').choose_spec rnd).mp h1
      rw [hr] at h2
      exact Subtype.ext (by simpa using h2)
    · rintro ⟨r, rnd, hr⟩
      obtain ⟨g, _, _, _, _, _, _, h4⟩ := createMaze_spec oc rnd hw hh hn alg
      refine ⟨⟨g, rnd, h4⟩, Subtype.ext ?_⟩
      have := ((F ⟨g, rnd, h4⟩).choose_spec rnd).mpr h4
      rw [hr] at this
      simpa using this.symm
  rw [E]
  exact C122_count oc hw hh hn

example : Nat.card {r // ∃ rnd, createMaze false rnd 2 9 .RecursiveBacktrack = .ok r} = 256 :=
  ((C123_count (w := 2) (h := 9) false _ (by omega) (by omega) (by omega)).2.mpr (by omega)).trans (by decide)

end Maze.Props
