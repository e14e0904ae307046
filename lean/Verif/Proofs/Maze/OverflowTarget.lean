import Verif.Proofs.Maze.Target
import Verif.Proofs.Maze.Overflow

/-! Helper lemmas for C133: dimensions whose product wraps around, as in `Proofs/Maze/Overflow.lean`. -/
namespace Maze.Target
open Maze

variable {ws : Nat}

theorem ends_visitDir (oc : Bool) {s : VState} (hs : DOk s.conn) (c w h : Nat) (d : MazeDirection) :
    Ends (visitDirT ws oc c w h s d) (Kept s) := by
  cases d <;> simp only [visitDirT]
  · split
    · exact .panic
    · refine (ends_subW _ _ _ _).bind fun _ _ => ?_
      split
      · exact .ok ⟨rfl, hs⟩
      · exact (ends_addW _ _ _ _).bind fun _ _ => ends_tryOpen hs ..
  · refine (ends_subW _ _ _ _).bind fun _ _ => (ends_mulW _ _ _ _).bind fun _ _ => ?_
    split
    · exact .ok ⟨rfl, hs⟩
    · exact (ends_addW _ _ _ _).bind fun _ _ => ends_tryOpen hs ..
  · split
    · exact .panic
    · split
      · exact .ok ⟨rfl, hs⟩
      · exact (ends_subW _ _ _ _).bind fun _ _ => ends_tryOpen hs ..
  · split
    · exact .ok ⟨rfl, hs⟩
    · exact (ends_subW _ _ _ _).bind fun _ _ => ends_tryOpen hs ..

theorem ends_visitNext (oc : Bool) (rnd : Nat → Nat) (c w h : Nat) (s : VState) (hs : DOk s.conn) :
    Ends (visitNextT ws oc rnd c w h s) fun r => DOk r.2.conn ∧ r.2.visitable.length ≤ s.visitable.length ∧
      (r.1 ≠ none → r.2.visitable.length < s.visitable.length) := by
  refine Ends.loop (fun t => DOk t.conn ∧ t.visitable.length ≤ s.visitable.length) (fun t => t.visitable.length) _ ?_ s
    ⟨hs, Nat.le_refl _⟩
  rintro t ⟨ht, hl⟩
  unfold visitBodyT
  cases hv : t.visitable with
  | nil => exact .ok ⟨ht, by simpa [hv] using hl, fun h => absurd rfl h⟩
  | cons a v =>
    simp only [List.isEmpty_cons, Bool.false_eq_true, if_false]
    obtain ⟨hi, v', h1, h2⟩ := chooseRandom_spec (rnd t.k) (List.cons_ne_nil a v)
    have hlen := h2.length_eq
    simp only [List.length_cons] at hlen
    rw [h1]
    simp only [Prog.ok_bind, expectP_some]
    rw [hv] at hl
    simp only [List.length_cons] at hl
    refine (ends_visitDir oc (s := { t with visitable := v', k := t.k + 1 }) ht c w h _).mono ?_
    rintro (t' | ⟨o, t'⟩) ⟨e1, e2⟩
    · exact ⟨⟨e2, by rw [e1]; simp only; omega⟩, by rw [e1]; simp only [List.length_cons]; omega⟩
    · exact ⟨e2, by rw [e1]; simp only; omega, fun _ => by rw [e1]; simp only; omega⟩

theorem ends_backtrack (oc : Bool) (rnd : Nat → Nat) (w h : Nat) (s : RState) (hs : DOk s.conn) :
    Ends (_root_.loop (backtrackBodyT ws oc rnd w h) s) fun _ => True := by
  refine Ends.loop (fun t => DOk t.conn) (fun t => 2 * vsum t.canVisit + t.path.length) _ ?_ s hs
  rintro ⟨maze, conn, path, cv, k⟩ ht
  unfold backtrackBodyT
  cases path with
  | nil => exact .ok trivial
  | cons c rest =>
    simp only
    refine (ends_getP _ _).bind fun vis hvis => ?_
    refine (ends_visitNext oc rnd c w h ⟨maze, conn, vis, k⟩ ht).bind ?_
    rintro ⟨r, v⟩ ⟨h1, h2, h3⟩
    refine (ends_setP _ _ _).bind ?_
    rintro cv' ⟨hc, rfl⟩
    have hsum := vsum_set cv c v.visitable hc
    have hg : cv[c] = vis := by
      rw [List.getElem?_eq_getElem hc] at hvis
      exact Option.some.inj hvis
    rw [hg] at hsum
    simp only at h2 h3 hsum
    cases r with
    | some next =>
      have := h3 (by simp)
      refine .ok ⟨h1, ?_⟩
      simp only [List.length_cons]
      omega
    | none =>
      refine .ok ⟨h1, ?_⟩
      simp only [List.length_cons]
      omega

theorem ends_expand (oc : Bool) {n : Nat} {P : List Nat} {s : BState} (hs : Seen n P s) (grid : List MazeNode)
    (w c : Nat) : Ends (expandT ws oc grid w c s) (After n P s) := by
  unfold expandT
  refine (ends_addW _ _ _ _).bind fun _ _ => (ends_getP _ _).bind fun node _ => ?_
  refine (ends_tryVisit hs _ _ _).bind fun s1 h1 => (ends_addW _ _ _ _).bind fun _ _ => ?_
  refine (ends_tryVisit h1.1 _ _ _).bind fun s2 h2 => ?_
  have h2 := h1.trans h2
  have h3 : Ends (if 1 ≤ c then do
      let node ← getP grid (c - 1)
      tryVisit s2 node.right c (c - 1)
    else pure s2) (After n P s) := by
    split
    · exact (ends_getP _ _).bind fun _ _ => (ends_tryVisit h2.1 _ _ _).mono fun _ h => h2.trans h
    · exact .ok h2
  refine h3.bind fun s3 h3 => ?_
  split
  · exact (ends_getP _ _).bind fun _ _ => (ends_tryVisit h3.1 _ _ _).mono fun _ h => h3.trans h
  · exact .ok h3

theorem bfs_short (oc : Bool) {w h n : Nat} (hw : 1 ≤ w) (hh : 1 ≤ h) (hh' : h < 2 ^ (8 * ws)) (hn : n < w * h)
    (grid : List MazeNode) (s : BState) (hs : Seen n [] s) (hf : s.foundPaths = 0) :
    _root_.loop (bfsBodyT ws oc w h grid) s = .panic := by
  have : Ends (_root_.loop (bfsBodyT ws oc w h grid) s) fun _ => False := by
    refine Ends.loop (fun t => ∃ P, Seen n P t ∧ t.foundPaths = (P.filter fun x => x / w = h - 1).length)
      (fun t => 2 * unv t.pathTree + t.traversal.length) _ ?_ s ⟨[], hs, by simpa using hf⟩
    rintro ⟨tree, trav, found⟩ ⟨P, ht, hfound⟩
    unfold bfsBodyT
    cases trav with
    | nil => exact .panic
    | cons c rest =>
      simp only at hfound
      simp only [if_neg (show ¬ w = 0 by omega), subW_ok (show 1 ≤ h from hh), Prog.ok_bind]
      have hmove : ∀ k, Seen n (P ++ [c]) ⟨tree, rest, k⟩ := fun k =>
        ⟨ht.len, by simpa [List.append_assoc] using ht.nodup, by simpa [List.append_assoc] using ht.vis⟩
      have hlt : ∀ x ∈ P ++ [c], x < n := by
        intro x hx
        obtain ⟨p, hp, _⟩ := ht.vis x (by simp at hx ⊢; tauto)
        have := (List.getElem?_eq_some_iff.mp hp).1
        exact ht.len ▸ this
      have hnd : (P ++ [c]).Nodup :=
        (show ((P ++ [c]) ++ rest).Nodup by simpa [List.append_assoc] using ht.nodup).of_append_left
      have hshort := last_row_short hw hh hn hnd hlt
      have hfil : ((P ++ [c]).filter fun x => x / w = h - 1).length =
          found + if c / w = h - 1 then 1 else 0 := by
        rw [List.filter_append, List.length_append, ← hfound]
        split <;> simp [*]
      have hgo : ∀ k, k = ((P ++ [c]).filter fun x => x / w = h - 1).length →
          Ends (do let s ← expandT ws oc grid w c ⟨tree, rest, k⟩; return Sum.inl s) fun
            | .inl t => (∃ P, Seen n P t ∧ t.foundPaths = (P.filter fun x => x / w = h - 1).length) ∧
                2 * unv t.pathTree + t.traversal.length < 2 * unv tree + (c :: rest).length
            | .inr (_ : List MazeNode × List MazeDirection) => False := by
        intro k hk
        refine (ends_expand oc (hmove k) grid w c).bind ?_
        rintro t ⟨h1, h2, h3⟩
        refine .ok ⟨⟨_, h1, h2.trans hk⟩, ?_⟩
        simp only [List.length_cons] at h3 ⊢
        omega
      by_cases hrow : c / w = h - 1
      · rw [if_pos hrow] at hfil ⊢
        rw [if_neg (by omega)]
        exact (hgo _ hfil.symm).mono fun r h => by cases r <;> exact h
      · rw [if_neg hrow] at hfil ⊢
        exact (hgo _ hfil.symm).mono fun r h => by cases r <;> exact h
  rcases this with h | ⟨_, _, h⟩
  · exact h
  · exact h.elim

theorem ends_recursiveBacktrack (oc : Bool) (rnd : Nat → Nat) (w h : Nat) :
    Ends (recursiveBacktrackT ws oc rnd w h) fun _ => True := by
  unfold recursiveBacktrackT
  refine (ends_mulW _ _ _ _).bind fun n _ => ?_
  have hrep : ∀ {α : Type} (b : Nat) (x : α), Ends (vecRepeatT ws b x n) fun v => v = List.replicate n x := by
    intro α b x
    unfold vecRepeatT
    split
    · exact .ok rfl
    · exact .panic
  refine (hrep _ _).bind fun maze _ => (hrep _ _).bind ?_
  rintro conn rfl
  refine (hrep _ _).bind fun cv _ => ends_backtrack oc rnd w h _ ?_
  obtain ⟨rep, rank, hI, _⟩ := (DisjointSet.init_hist n).ex
  exact ⟨rep, rank, hI⟩

theorem createMaze_wraps (rnd : Nat → Nat) {w h : Nat} (hh' : h < 2 ^ (8 * ws))
    (hov : 2 ^ (8 * ws) ≤ w * h) (alg : MazeAlgorithm) : createMazeT ws false rnd w h alg = .panic := by
  have hw : 1 ≤ w := by
    rcases Nat.eq_zero_or_pos w with rfl | h
    · simp at hov
    · exact h
  have hh : 1 ≤ h := by
    rcases Nat.eq_zero_or_pos h with rfl | h
    · simp at hov
    · exact h
  cases alg
  unfold createMazeT
  rcases ends_recursiveBacktrack (ws := ws) false rnd w h with e | ⟨grid, e, _⟩
  · simp only [e]; rfl
  · simp only [e, Prog.ok_bind]
    have hm : mulW false (8 * ws) w h = .ok (w * h % 2 ^ (8 * ws)) := by
      simp only [mulW, if_neg (show ¬ w * h < 2 ^ (8 * ws) by omega), Bool.false_eq_true, if_false]
    rw [hm, Prog.ok_bind]
    have hlt : w * h % 2 ^ (8 * ws) < w * h := by
      have := Nat.mod_lt (w * h) (show 2 ^ (8 * ws) > 0 from Nat.two_pow_pos _)
      omega
    generalize w * h % 2 ^ (8 * ws) = n at hlt
    unfold vecRepeatT
    split
    · rw [Prog.ok_bind]
      cases n with
      | zero => rfl
      | succ n =>
        have : setP (List.replicate (n + 1) PathNode.Unvisited) 0 .Start =
            .ok (.Start :: List.replicate n PathNode.Unvisited) := rfl
        rw [this, Prog.ok_bind]
        exact bfs_short false hw hh hh' hlt grid _ ⟨by simp, by simp, by simp⟩ rfl
    · rfl

end Maze.Target
