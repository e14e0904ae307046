import Verif.Proofs.Maze.Dfs
import Verif.Spec.Steps

/-! Helper lemmas: the number of turns of the loops of `create_maze`. -/
namespace Maze
open Spec

variable {w h : Nat}

theorem backtrack_runs (oc : Bool) (rnd : Nat → Nat) (hw : 0 < w) (hh : 0 < h) (hn : w * h < 2 ^ 63) :
    ∀ (m : Nat) (s : RState) (V : List Nat), 2 * vsum s.canVisit + s.path.length = m → OInv w h s →
      V.Nodup → (∀ x, x ∈ V ↔ R w h s.maze 0 x) →
      ∃ t, Runs (backtrackBody oc rnd w h) (2 * (w * h - V.length) + s.path.length) s t ∧ t.path = [] ∧
        t.k = s.k + vsum s.canVisit := by
  have hpos : 0 < w * h := Nat.mul_pos hw hh
  intro m
  induction m using Nat.strongRecOn with
  | ind m ih =>
    intro s V hm hI hV hVR
    have hsub : V.length ≤ w * h := by
      have hs : V ⊆ List.range (w * h) := by
        intro x hx
        obtain ⟨_, hx', _⟩ := (hVR x).mp hx
        exact List.mem_range.mpr hx'
      have := (hV.subperm hs).length_le
      rwa [List.length_range] at this
    cases hp : s.path with
    | nil =>
      rcases backtrackBody_spec (oc := oc) (rnd := rnd) hw hh hn hI (R.refl hpos) with ⟨s', e, _⟩ | ⟨g, e, hP⟩
      · simp [backtrackBody, hp] at e
      · have hg : g = s.maze := by simpa [backtrackBody, hp] using e.symm
        subst hg
        have hall : List.range (w * h) ⊆ V := by
          intro x hx
          exact (hVR x).mpr (hP.reach x (List.mem_range.mp hx))
        have := (List.nodup_range.subperm hall).length_le
        rw [List.length_range] at this
        have hz : vsum s.canVisit = 0 := by
          unfold vsum
          rw [List.sum_eq_zero_iff]
          intro a ha
          obtain ⟨v, hv, rfl⟩ := List.mem_map.mp ha
          obtain ⟨i, hi, rfl⟩ := List.getElem_of_mem hv
          rcases hI.closed i (hP.reach i (hI.cvlen ▸ hi)) with h1 | h1
          · rw [hp] at h1; cases h1
          · rw [List.getElem?_eq_getElem hi] at h1
            simp [Option.some.inj h1]
        refine ⟨s, ?_, hp, by omega⟩
        rw [show 2 * (w * h - V.length) + ([] : List Nat).length = 0 by simp; omega]
        exact .refl s
    | cons c rest =>
      obtain ⟨s', e, hO, hT, hlt, hk⟩ := backtrackBody_turn (oc := oc) (rnd := rnd) hw hh hn hI (R.refl hpos) hp
      have hr0c : R w h s.maze 0 c := hI.path c (by simp [hp])
      cases hT with
      | back hmaze hpath _ =>
        obtain ⟨t, r, ht, htk⟩ := ih _ (by omega) s' V rfl hO hV (by rw [hmaze]; exact hVR)
        refine ⟨t, ?_, ht, by omega⟩
        rw [hpath] at r
        have := Runs.step e r
        rwa [show 2 * (w * h - V.length) + rest.length + 1 = 2 * (w * h - V.length) + (c :: rest).length by
          simp; omega] at this
      | go x hpath hnr hop hnb =>
        have hm0 : ¬ R w h s.maze 0 x := fun hx => hnr (hr0c.symm.trans hx)
        have hiff : ∀ y, y ∈ x :: V ↔ R w h s'.maze 0 y := by
          intro y
          rw [List.mem_cons, hVR]
          constructor
          · rintro (rfl | hy)
            · exact (hop.reach ..).mpr (.inr (.inl ⟨hr0c, R.refl hop.hb⟩))
            · exact (hop.reach ..).mpr (.inl hy)
          · intro hy
            rcases (hop.reach ..).mp hy with h1 | ⟨_, h1⟩ | ⟨h1, _⟩
            · exact .inr h1
            · rcases hI.iso x y h1 with e | e
              · exact .inl e.symm
              · exact absurd e hm0
            · exact absurd h1 hm0
        have hV' : (x :: V).Nodup := List.nodup_cons.mpr ⟨fun hx => hm0 ((hVR x).mp hx), hV⟩
        have hlen' : (x :: V).length ≤ w * h := by
          have hs : x :: V ⊆ List.range (w * h) := by
            intro y hy
            obtain ⟨_, hy', _⟩ := (hiff y).mp hy
            exact List.mem_range.mpr hy'
          have := (hV'.subperm hs).length_le
          rwa [List.length_range] at this
        obtain ⟨t, r, ht, htk⟩ := ih _ (by omega) s' (x :: V) rfl hO hV' hiff
        refine ⟨t, ?_, ht, by omega⟩
        rw [hpath] at r
        have := Runs.step e r
        simp only [List.length_cons] at this hlen' ⊢
        rwa [show 2 * (w * h - (V.length + 1)) + (rest.length + 1 + 1) + 1 =
          2 * (w * h - V.length) + (rest.length + 1) by omega] at this

theorem recursiveBacktrack_runs (oc : Bool) (rnd : Nat → Nat) (hw : 0 < w) (hh : 0 < h) (hn : w * h * 24 < 2 ^ 63) :
    ∃ t, Runs (backtrackBody oc rnd w h) (2 * (w * h) - 1) (initState w h) t ∧ t.path = [] ∧ t.k = 4 * (w * h) := by
  have hpos : 0 < w * h := Nat.mul_pos hw hh
  obtain ⟨t, r, h1, h2⟩ := backtrack_runs oc rnd hw hh (by omega) _ (initState w h) [0] rfl (init_oinv hpos) (by simp) (by
    intro x
    constructor
    · intro hx
      simp at hx; subst hx; exact R.refl hpos
    · intro hx
      rw [← R_bot (graph_new w h (w * h)) hx]; simp)
  refine ⟨t, ?_, h1, ?_⟩
  · have : 2 * (w * h - [0].length) + (initState w h).path.length = 2 * (w * h) - 1 := by
      simp [initState]; omega
    rwa [this] at r
  · rw [h2]
    have : vsum (initState w h).canVisit = w * h * 4 := by simp [initState, vsum_replicate]
    rw [this]
    simp [initState]; omega

/-! ### The breadth-first search -/

theorem bfs_turn {oc : Bool} {g : List MazeNode} (hP : Perfect w h g) (hw : 0 < w) (hh : 0 < h)
    (hn : w * h < 2 ^ 63) {s s' : BState}
    {depth : Nat → Nat} {P : List Nat} (H : Tree w h g s.pathTree depth P s.traversal)
    (e : bfsBody oc w h g s = .ok (.inl s')) :
    ∃ c depth', Tree w h g s'.pathTree depth' (P ++ [c]) s'.traversal := by
  obtain ⟨pt, Q, found⟩ := s
  cases Q with
  | nil => simp [bfsBody] at e
  | cons c rest =>
    have hc : c < w * h := H.lt (x := c) (by simp)
    have key : ∀ found', (do let s ← expand oc g w c ⟨pt, rest, found'⟩; return Sum.inl s :
        Prog (BState ⊕ (List MazeNode × List MazeDirection))) = .ok (.inl s') →
        ∃ c depth', Tree w h g s'.pathTree depth' (P ++ [c]) s'.traversal := by
      intro found' e
      obtain ⟨s1, new, e1, hE, hcl⟩ := expand_spec oc hP hw hn hc (s := ⟨pt, rest, found'⟩) H.len
      rw [e1] at e
      simp at e
      subst e
      exact ⟨c, _, Tree.pop (s := ⟨pt, rest, found'⟩) H rfl hE hcl⟩
    simp only [bfsBody, show w ≠ 0 by omega, if_false, subW_ok (show 1 ≤ h by omega), Prog.ok_bind] at e
    split at e
    · split at e
      · exfalso
        obtain ⟨_, _, e⟩ := Prog.bind_eq_ok.mp e
        obtain ⟨_, _, e⟩ := Prog.bind_eq_ok.mp e
        obtain ⟨_, _, e⟩ := Prog.bind_eq_ok.mp e
        simp at e
      · exact key _ e
    · exact key _ e

theorem bfs_runs {oc : Bool} {g : List MazeNode} (hP : Perfect w h g) (hw : 0 < w) (hh : 0 < h)
    (hn : w * h < 2 ^ 63) {n : Nat}
    {s t : BState} (r : Runs (bfsBody oc w h g) n s t) :
    ∀ {depth : Nat → Nat} {P : List Nat}, Tree w h g s.pathTree depth P s.traversal →
      ∃ depth' P', Tree w h g t.pathTree depth' P' t.traversal ∧ P'.length = P.length + n := by
  induction r with
  | refl => intro depth P H; exact ⟨depth, P, H, rfl⟩
  | step e _ ih =>
    intro depth P H
    obtain ⟨c, d', H'⟩ := bfs_turn hP hw hh hn H e
    obtain ⟨d'', P', H'', hl⟩ := ih H'
    exact ⟨d'', P', H'', by simp at hl; omega⟩

/-- The search leaves its loop after fewer than `w * h` turns. -/
theorem createMaze_runs (oc : Bool) (rnd : Nat → Nat) (hw : 0 < w) (hh : 0 < h)
    (hn : w * h * 24 < 2 ^ 63) (alg : MazeAlgorithm) :
    ∃ g g' sol n t, recursiveBacktrack oc rnd w h = .ok g ∧ createMaze oc rnd w h alg = .ok (g', sol) ∧
      Runs (bfsBody oc w h g) n ⟨(List.replicate (w * h) PathNode.Unvisited).set 0 .Start, [0], 0⟩ t ∧
      bfsBody oc w h g t = .ok (.inr (g', sol)) ∧ n < w * h := by
  have h0 : 0 < w * h := Nat.mul_pos hw hh
  obtain ⟨g, g', sol, e, h1, hP, hS, h2⟩ := createMaze_spec oc rnd hw hh hn alg
  have hl : createMaze oc rnd w h alg =
      loop (bfsBody oc w h g) ⟨(List.replicate (w * h) PathNode.Unvisited).set 0 .Start, [0], 0⟩ := by
    cases alg
    unfold createMaze
    simp only [h2, Prog.ok_bind, mulW_ok (show w * h < 2 ^ 64 by omega), vecRepeat,
      show w * h * 16 < 2 ^ 63 by omega, if_true]
    rw [setP_ok (by simpa using h0)]
    rfl
  obtain ⟨n, t, r, ht⟩ := loop_ok_iff.mp (hl ▸ h1)
  refine ⟨g, g', sol, n, t, h2, h1, r, ht, ?_⟩
  obtain ⟨d, P, H, hlen⟩ := bfs_runs hP hw hh (by omega) r (init_tree hw hh g)
  cases hq : t.traversal with
  | nil => simp [bfsBody, hq] at ht
  | cons c rest =>
    have hsub : (P ++ t.traversal) ⊆ List.range (w * h) := fun x hx => List.mem_range.mpr (H.lt hx)
    have := (H.nodup.subperm hsub).length_le
    rw [List.length_range, hq] at this
    simp at this hlen
    omega

end Maze
