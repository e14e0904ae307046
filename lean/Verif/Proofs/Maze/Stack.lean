import Verif.Proofs.Maze.Carve
import Verif.Proofs.Maze.Snake
import Verif.Proofs.Maze.Steps

/-! The stack of `recursive_backtrack` and the queue of the search in every state the loops reach. -/
namespace Maze
open Maze.Spec

variable {w h : Nat}

/-- The stack is a route without repeated cells from cell 0 to its top. -/
structure SInv (w h : Nat) (s : RState) : Prop where
  oinv : OInv w h s
  nodup : s.path.Nodup
  chain : s.path.IsChain fun a b => A w h s.maze b a
  bottom : s.path ≠ [] → s.path.getLast? = some 0

theorem SInv.turn {s s' : RState} {c : Nat} {rest : List Nat} (S : SInv w h s) (hp : s.path = c :: rest)
    (hO : OInv w h s') (hT : Turn w h s s' c rest) : SInv w h s' := by
  have h1 := S.nodup
  have h2 := S.chain
  have h3 := S.bottom
  rw [hp] at h1 h2 h3
  cases hT with
  | back hmaze hpath _ =>
    refine ⟨hO, ?_, ?_, ?_⟩
    · rw [hpath]; exact (List.nodup_cons.1 h1).2
    · rw [hpath, hmaze]; exact h2.tail
    · rw [hpath]
      intro hne
      have := h3 (by simp)
      rwa [List.getLast?_cons_of_ne_nil hne] at this
  | go m hpath hnr hop _ =>
    have hr0c : R w h s.maze 0 c := S.oinv.path c (by simp [hp])
    have hmem : m ∉ c :: rest := by
      intro hm
      exact hnr (hr0c.symm.trans (S.oinv.path m (by rw [hp]; exact hm)))
    have hne : c ≠ m := fun e => hmem (by simp [e])
    refine ⟨hO, ?_, ?_, ?_⟩
    · rw [hpath]; exact List.nodup_cons.2 ⟨hmem, h1⟩
    · rw [hpath]
      refine List.IsChain.cons_cons ⟨hop.ha, hop.hb, ?_⟩ (h2.imp ?_)
      · rw [hop.eq, SimpleGraph.sup_adj, SimpleGraph.edge_adj]
        exact .inr ⟨.inl ⟨rfl, rfl⟩, fun e => hne (congrArg Fin.val e)⟩
      · rintro a b ⟨ha, hb, hab⟩
        exact ⟨ha, hb, hop.le hab⟩
    · rw [hpath]
      intro _
      rw [List.getLast?_cons_of_ne_nil (by simp)]
      exact h3 (by simp)

theorem SInv.runs {oc : Bool} {rnd : Nat → Nat} (hw : 0 < w) (hh : 0 < h) (hn : w * h < 2 ^ 63) {n : Nat} {s t : RState}
    (r : Runs (backtrackBody oc rnd w h) n s t) : SInv w h s → SInv w h t := by
  induction r with
  | refl => exact id
  | step e _ ih =>
    rename_i s s' t r
    intro S
    apply ih
    cases hp : s.path with
    | nil => simp [backtrackBody, hp] at e
    | cons c rest =>
      obtain ⟨s1, e1, hO, hT, _⟩ := backtrackBody_turn (oc := oc) (rnd := rnd) hw hh hn S.oinv
        (R.refl (Nat.mul_pos hw hh)) hp
      rw [e] at e1
      obtain rfl : s' = s1 := by simpa using e1
      exact S.turn hp hO hT

theorem init_sinv (hpos : 0 < w * h) : SInv w h (initState w h) :=
  ⟨init_oinv hpos, by simp [initState], by simp [initState], by simp [initState]⟩

/-- The stack can be made to grow along a simple path. -/
theorem backtrack_grow {oc : Bool} (hw : 0 < w) (hh : 0 < h) (hn : w * h < 2 ^ 63) (f : Nat → Nat) :
    ∀ (n j : Nat) (s : RState) (rest : List Nat), OInv w h s → s.path = f j :: rest →
      (∀ i, i < n → ∃ d, nbr w h (f (j + i)) d = some (f (j + i + 1))) →
      (∀ i, 0 < i → i ≤ n → ¬ R w h s.maze 0 (f (j + i))) →
      (∀ i i', 0 < i → i < i' → i' ≤ n → f (j + i) ≠ f (j + i')) →
      ∃ ds s', (∀ rnd, Yields rnd s.k ds → Runs (backtrackBody oc rnd w h) n s s') ∧
        s'.path.length = s.path.length + n := by
  intro n
  induction n with
  | zero => exact fun j s rest _ _ _ _ _ => ⟨[], s, fun _ _ => .refl s, rfl⟩
  | succ n ih =>
    intro j s rest hI hp hd hr hinj
    obtain ⟨d, hd0⟩ := hd 0 (by omega)
    have hm0 : ¬ R w h s.maze 0 (f (j + 1)) := hr 1 (by omega) (by omega)
    obtain ⟨i0, s1, h1, hI1, hp1, hop, hk1⟩ := backtrackBody_go (oc := oc) hw hh hn hI hp hd0 hm0
    obtain ⟨ds, s', hruns, hlen⟩ := ih (j + 1) s1 (f j :: rest) hI1 hp1
      (fun i hi => by
        have := hd (i + 1) (by omega)
        rwa [show j + (i + 1) = j + 1 + i by omega] at this)
      (fun i h0 hi hx => by
        rw [show j + 1 + i = j + (i + 1) by omega] at hx
        rcases (hop.reach ..).mp hx with h2 | ⟨_, h2⟩ | ⟨h2, _⟩
        · exact hr (i + 1) (by omega) (by omega) h2
        · rcases hI.iso _ _ h2 with e | e
          · exact hinj 1 (i + 1) (by omega) (by omega) (by omega) e
          · exact hm0 e
        · exact hm0 h2)
      (fun i i' h0 h1 h2 => by
        rw [show j + 1 + i = j + (i + 1) by omega, show j + 1 + i' = j + (i' + 1) by omega]
        exact hinj (i + 1) (i' + 1) (by omega) (by omega) (by omega))
    refine ⟨i0 :: ds, s', ?_, ?_⟩
    · intro rnd hY
      have hY' : Yields rnd s.k ([i0] ++ ds) := hY
      refine .step (h1 rnd (hY 0 (by simp))) (hruns rnd ?_)
      rw [hk1]
      exact hY'.right
    · rw [hlen, hp1, hp]
      simp; omega

/-- The cell with a given number on the serpentine. -/
def snakeCell (w i : Nat) : Nat := w * (i / w) + if i / w % 2 = 0 then i % w else w - 1 - i % w

theorem snakeCell_next (hw : 0 < w) {i : Nat} (hi : i + 1 < w * h) :
    ∃ d, nbr w h (snakeCell w i) d = some (snakeCell w (i + 1)) := by
  have hx := Nat.mod_lt i hw
  have hdm := Nat.div_add_mod i w
  have q : ∀ y x, x < w → (w * y + x) % w = x ∧ (w * y + x) / w = y := fun y x hx =>
    ⟨by rw [Nat.mul_add_mod, Nat.mod_eq_of_lt hx], by rw [Nat.mul_add_div hw, Nat.div_eq_of_lt hx, Nat.add_zero]⟩
  generalize hy : i / w = y at *
  generalize hz : i % w = x at *
  by_cases hl : x + 1 < w
  · have e1 : (i + 1) / w = y := by rw [← hdm, Nat.add_assoc]; exact (q y (x + 1) hl).2
    have e2 : (i + 1) % w = x + 1 := by rw [← hdm, Nat.add_assoc]; exact (q y (x + 1) hl).1
    unfold snakeCell
    rw [hy, hz, e1, e2]
    split
    · exact ⟨.Right, by simp [nbr, (q y x hx).1, hl, Nat.add_assoc]⟩
    · refine ⟨.Left, ?_⟩
      have := (q y (w - 1 - x) (by omega)).1
      simp only [nbr, this, show 0 < w - 1 - x by omega, if_true]
      congr 1; omega
  · have hx' : x = w - 1 := by omega
    have e0 : i + 1 = w * (y + 1) + 0 := by rw [Nat.mul_succ]; omega
    have e1 : (i + 1) / w = y + 1 := by rw [e0]; exact (q (y + 1) 0 hw).2
    have e2 : (i + 1) % w = 0 := by rw [e0]; exact (q (y + 1) 0 hw).1
    have hh : w * (y + 1) + w ≤ w * h := by
      have : y + 1 < h := by
        by_contra hc
        have := Nat.mul_le_mul_left w (show h ≤ y + 1 by omega)
        omega
      have := Nat.mul_le_mul_left w (show y + 1 + 1 ≤ h by omega)
      rwa [Nat.mul_succ w (y + 1)] at this
    unfold snakeCell
    rw [hy, hz, e1, e2]
    rw [Nat.mul_succ] at hh ⊢
    refine ⟨.Down, ?_⟩
    rcases Nat.mod_two_eq_zero_or_one y with hp | hp
    · have hp' : (y + 1) % 2 = 1 := by omega
      simp only [hp, hp', if_true, nbr, hx', Nat.one_ne_zero, if_false]
      rw [if_pos (show w * y + (w - 1) + w < w * h by omega)]
      congr 1; omega
    · have hp' : (y + 1) % 2 = 0 := by omega
      simp only [hp, hp', if_true, nbr, hx', Nat.one_ne_zero, if_false]
      rw [if_pos (show w * y + (w - 1 - (w - 1)) + w < w * h by omega)]
      congr 1; omega

theorem snakeCell_inj (hw : 0 < w) {i j : Nat} (e : snakeCell w i = snakeCell w j) : i = j := by
  have hx := Nat.mod_lt i hw
  have hx' := Nat.mod_lt j hw
  have q : ∀ y x, x < w → (w * y + x) % w = x ∧ (w * y + x) / w = y := fun y x hx =>
    ⟨by rw [Nat.mul_add_mod, Nat.mod_eq_of_lt hx], by rw [Nat.mul_add_div hw, Nat.div_eq_of_lt hx, Nat.add_zero]⟩
  have lt : ∀ i, (if i / w % 2 = 0 then i % w else w - 1 - i % w) < w := by
    intro i
    have := Nat.mod_lt i hw
    split <;> omega
  have d1 : i / w = j / w := by
    have := congrArg (· / w) e
    simp only [snakeCell] at this
    rwa [(q _ _ (lt i)).2, (q _ _ (lt j)).2] at this
  have d2 : (if i / w % 2 = 0 then i % w else w - 1 - i % w) = if j / w % 2 = 0 then j % w else w - 1 - j % w := by
    have := congrArg (· % w) e
    simp only [snakeCell] at this
    rwa [(q _ _ (lt i)).1, (q _ _ (lt j)).1] at this
  rw [d1] at d2
  have d3 : i % w = j % w := by
    split at d2 <;> omega
  rw [← Nat.div_add_mod i w, ← Nat.div_add_mod j w, d1, d3]

/-- For suitable draws all cells are on the stack at once. -/
theorem stack_full (oc : Bool) (hw : 0 < w) (hh : 0 < h) (hn : w * h < 2 ^ 63) :
    ∃ rnd t, Runs (backtrackBody oc rnd w h) (w * h - 1) (initState w h) t ∧ t.path.length = w * h := by
  have hpos : 0 < w * h := Nat.mul_pos hw hh
  have h0 : snakeCell w 0 = 0 := by simp [snakeCell]
  obtain ⟨ds, t, hr, hl⟩ := backtrack_grow (oc := oc) hw hh hn (snakeCell w) (w * h - 1) 0 (initState w h) []
    (init_oinv hpos) (by simp [initState, h0])
    (fun i hi => by simpa using snakeCell_next hw (by omega))
    (fun i h1 _ hx => by
      have := R_bot (graph_new w h (w * h)) hx
      have := snakeCell_inj hw (h0.trans this)
      omega)
    (fun i i' _ h1 _ e => by
      have := snakeCell_inj hw e
      omega)
  obtain ⟨rnd, hY⟩ := exists_yields (initState w h).k ds
  refine ⟨rnd, t, hr rnd hY, ?_⟩
  rw [hl]
  simp [initState]; omega

end Maze
