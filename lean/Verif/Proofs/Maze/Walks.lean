import Verif.Spec.Maze

/-! Facts about walks in mazes: counts of directions, length, no immediate return. -/
namespace Maze.Walks
open Maze.Spec

variable {w h : Nat}

/-- Along a walk the columns change by the difference of `Right` and `Left`, the rows by that of `Down` and `Up`. -/
theorem walk_counts {g : List MazeNode} (hw : 0 < w) : ∀ {ds : List MazeDirection} {c e : Nat} {cells : List Nat},
    walk w h g c ds = some cells → cells.getLast? = some e →
      c % w + ds.count .Right = e % w + ds.count .Left ∧ c / w + ds.count .Down = e / w + ds.count .Up
  | [], c, e, cells, h1, h2 => by
    simp only [walk, Option.some.injEq] at h1
    subst h1
    simp only [List.getLast?_singleton, Option.some.injEq] at h2
    subst h2
    simp
  | d :: ds, c, e, cells, h1, h2 => by
    simp only [walk] at h1
    split at h1
    · cases h1
    next c' hm =>
    cases hc : walk w h g c' ds with
    | none => rw [hc] at h1; cases h1
    | some l =>
      rw [hc] at h1
      simp only [Option.map_some, Option.some.injEq] at h1
      subst h1
      have hne : l ≠ [] := by
        intro h0; subst h0
        cases ds with
        | nil => simp [walk] at hc
        | cons d' ds' =>
          simp only [walk] at hc
          split at hc
          · cases hc
          · simp at hc
      have h2' : l.getLast? = some e := by
        rw [List.getLast?_cons_of_ne_nil hne] at h2; exact h2
      have ih := walk_counts hw hc h2'
      have hm' : nbr w h c d = some c' := by
        unfold move at hm; split at hm
        · exact hm
        · cases hm
      have hcw := Nat.div_add_mod c w
      have hlt := Nat.mod_lt c hw
      cases d <;> simp only [nbr] at hm' <;> split at hm' <;> simp only [Option.some.injEq, reduceCtorEq] at hm'
      · next hh =>
        have e1 : c' / w = c / w ∧ c' % w = c % w + 1 := by
          rw [Nat.div_mod_unique hw]; exact ⟨by omega, hh⟩
        simp [List.count_cons]; omega
      · have e1 : c' / w = c / w + 1 ∧ c' % w = c % w := by
          rw [Nat.div_mod_unique hw]; exact ⟨by rw [Nat.mul_add]; omega, hlt⟩
        simp [List.count_cons]; omega
      · have e1 : c' / w = c / w ∧ c' % w = c % w - 1 := by
          rw [Nat.div_mod_unique hw]; exact ⟨by omega, by omega⟩
        simp [List.count_cons]; omega
      · next hh =>
        have hpos : 0 < c / w := Nat.div_pos hh hw
        obtain ⟨k, hk⟩ : ∃ k, c / w = k + 1 := ⟨c / w - 1, by omega⟩
        have e1 : c' / w = k ∧ c' % w = c % w := by
          rw [Nat.div_mod_unique hw]
          rw [hk, Nat.mul_add] at hcw
          exact ⟨by omega, hlt⟩
        simp [List.count_cons]; omega

theorem walk_cons {g : List MazeNode} {d : MazeDirection} {ds : List MazeDirection} {c : Nat} {cells : List Nat}
    (h1 : walk w h g c (d :: ds) = some cells) :
    ∃ c' l, nbr w h c d = some c' ∧ walk w h g c' ds = some l ∧ cells = c :: l := by
  simp only [walk] at h1
  split at h1
  · cases h1
  next c' hm =>
  cases hc : walk w h g c' ds with
  | none => rw [hc] at h1; cases h1
  | some l =>
    rw [hc] at h1
    simp only [Option.map_some, Option.some.injEq] at h1
    refine ⟨c', l, ?_, hc, h1.symm⟩
    unfold move at hm; split at hm
    · exact hm
    · cases hm

theorem walk_length {g : List MazeNode} : ∀ {ds : List MazeDirection} {c : Nat} {cells : List Nat},
    walk w h g c ds = some cells → cells.length = ds.length + 1
  | [], c, cells, h1 => by simp only [walk, Option.some.injEq] at h1; subst h1; rfl
  | d :: ds, c, cells, h1 => by
    obtain ⟨c', l, _, h2, rfl⟩ := walk_cons h1
    simp [walk_length h2]

theorem walk_head {g : List MazeNode} {ds : List MazeDirection} {c : Nat} {cells : List Nat}
    (h1 : walk w h g c ds = some cells) : ∃ l, cells = c :: l := by
  cases ds with
  | nil => simp only [walk, Option.some.injEq] at h1; exact ⟨[], h1.symm⟩
  | cons d ds => obtain ⟨c', l, _, _, rfl⟩ := walk_cons h1; exact ⟨l, rfl⟩

theorem nbr_lt {c c' : Nat} {d : MazeDirection} (hc : c < w * h) (hm : nbr w h c d = some c') : c' < w * h := by
  have hw : 0 < w := Nat.pos_of_mul_pos_right (Nat.lt_of_le_of_lt (Nat.zero_le _) hc)
  cases d <;> simp only [nbr] at hm <;> split at hm <;> simp only [Option.some.injEq, reduceCtorEq] at hm
  · next hh =>
    subst hm
    have h1 : c / w < h := Nat.div_lt_of_lt_mul hc
    have h2 := Nat.div_add_mod c w
    have h3 : w * (c / w + 1) ≤ w * h := Nat.mul_le_mul_left w h1
    rw [Nat.mul_add] at h3
    omega
  all_goals omega

theorem walk_lt {g : List MazeNode} : ∀ {ds : List MazeDirection} {c : Nat} {cells : List Nat},
    c < w * h → walk w h g c ds = some cells → ∀ x ∈ cells, x < w * h
  | [], c, cells, hc, h1 => by
    simp only [walk, Option.some.injEq] at h1; subst h1; simpa using hc
  | d :: ds, c, cells, hc, h1 => by
    obtain ⟨c', l, hm, h2, rfl⟩ := walk_cons h1
    have := walk_lt (nbr_lt hc hm) h2
    intro x hx
    rcases List.mem_cons.1 hx with rfl | hx
    · exact hc
    · exact this x hx

theorem walk_back {c c' c'' : Nat} {a b : MazeDirection} (hab : Opposite a b) (h1 : nbr w h c a = some c')
    (h2 : nbr w h c' b = some c'') : c'' = c := by
  have := Nat.mod_le c w
  cases a <;> cases b <;> simp [Opposite, vec] at hab <;> simp only [nbr] at h1 h2 <;> split at h1 <;> split at h2 <;>
    simp only [Option.some.injEq, reduceCtorEq] at h1 h2 <;> omega

theorem walk_no_return {g : List MazeNode} : ∀ {ds : List MazeDirection} {c : Nat} {cells : List Nat},
    walk w h g c ds = some cells → cells.Nodup → ∀ i a b, ds[i]? = some a → ds[i + 1]? = some b → ¬ Opposite a b
  | [], c, cells, h1, hn => by simp
  | d :: ds, c, cells, h1, hn => by
    obtain ⟨c', l, hm, h2, rfl⟩ := walk_cons h1
    intro i a b ha hb hab
    cases i with
    | succ i =>
      exact walk_no_return h2 (List.nodup_cons.1 hn).2 i a b (by simpa using ha) (by simpa using hb) hab
    | zero =>
      simp only [List.getElem?_cons_zero, Option.some.injEq] at ha
      subst ha
      cases ds with
      | nil => simp at hb
      | cons d' ds =>
        simp only [Nat.zero_add, List.getElem?_cons_succ, List.getElem?_cons_zero, Option.some.injEq] at hb
        subst hb
        obtain ⟨c'', l', hm', h3, rfl⟩ := walk_cons h2
        obtain ⟨l'', rfl⟩ := walk_head h3
        have := walk_back hab hm hm'
        subst this
        simp at hn

theorem count_dirs (l : List MazeDirection) :
    l.length = l.count .Right + l.count .Down + l.count .Left + l.count .Up := by
  induction l with
  | nil => rfl
  | cons d l ih => cases d <;> simp [ih] <;> omega

end Maze.Walks
