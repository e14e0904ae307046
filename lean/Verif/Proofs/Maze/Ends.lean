import Verif.Spec.MazeEnds
import Verif.Proofs.Maze.Carve
import Verif.Proofs.Maze.Exit
import Mathlib.Combinatorics.SimpleGraph.Finite

/-! Dead ends of depth-first mazes; mazes of one row or one column; a perfect maze that is not depth-first. -/
namespace Maze
open Maze.Spec

section
variable {V : Type} {G : SimpleGraph V}

/-- A vertex inside a path has two neighbours. -/
theorem inner_two [DecidableEq V] {a b c : V} (p : G.Walk a b) (hp : p.IsPath) (hc : c ∈ p.support) (hca : c ≠ a)
    (hcb : c ≠ b) : ∃ u v, G.Adj c u ∧ G.Adj c v ∧ u ≠ v := by
  by_contra H
  push Not at H
  have hn : ∀ d, G.Adj c d → d = (p.takeUntil c hc).penultimate ∨ d = b := by
    intro d hd
    exact .inl (H _ _ hd (SimpleGraph.Walk.adj_penultimate (SimpleGraph.Walk.not_nil_of_ne (Ne.symm hca))).symm)
  have h1 := SimpleGraph.Walk.take_spec p hc
  have h2 := SimpleGraph.Walk.adj_penultimate (p := p.takeUntil c hc) (SimpleGraph.Walk.not_nil_of_ne (Ne.symm hca))
  have nr : ¬ (p.dropUntil c hc).Nil := SimpleGraph.Walk.not_nil_of_ne hcb
  have h3 := SimpleGraph.Walk.adj_snd nr
  have e := H _ _ h2.symm h3
  have nd : ((p.takeUntil c hc).append (p.dropUntil c hc)).support.Nodup := by rw [h1]; exact hp.support_nodup
  rw [SimpleGraph.Walk.support_append, List.nodup_append] at nd
  refine nd.2.2 _ ((p.takeUntil c hc).getVert_mem_support ((p.takeUntil c hc).length - 1)) (p.dropUntil c hc).snd ?_ e
  generalize p.dropUntil c hc = r at nr
  cases r with
  | nil => exact absurd SimpleGraph.Walk.Nil.nil nr
  | cons had r => simp

end

variable {w h : Nat}

/-- A move is a passage. -/
theorem move_adj {g : List MazeNode} (hw : 0 < w) {a b : Nat} (ha : a < w * h) {d : MazeDirection}
    (H : move w h g a d = some b) : ∃ hb : b < w * h, (graph w h g).Adj ⟨a, ha⟩ ⟨b, hb⟩ := by
  unfold move at H
  split at H
  next hs =>
    have hb := ham_nbr_lt ha H hw
    refine ⟨hb, ?_⟩
    rw [graph, SimpleGraph.fromRel_adj]
    cases d <;> simp only [nbr, sideOpen] at H hs <;> split at H <;> simp only [Option.some.injEq, reduceCtorEq] at H
    · next hm => exact ⟨by simp; omega, .inl (.inl ⟨H.symm, hm, hs⟩)⟩
    · exact ⟨by simp; omega, .inl (.inr ⟨H.symm, hs⟩)⟩
    · next hm =>
      have : 0 < a := by
        rcases Nat.eq_zero_or_pos a with e | e
        · subst e; simp at hm
        · exact e
      refine ⟨by simp; omega, .inr (.inl ⟨by simp; omega, ?_, by simp only; rw [← H]; exact hs⟩)⟩
      simp only
      rw [← H]
      exact mod_pred hw hm
    · exact ⟨by simp; omega, .inr (.inr ⟨by simp; omega, by simp only; rw [← H]; exact hs⟩)⟩
  · cases H

/-- Different directions lead to different cells. -/
theorem nbr_inj {c m : Nat} {d d' : MazeDirection} (hw : 0 < w) (h1 : nbr w h c d = some m) (h2 : nbr w h c d' = some m) :
    d = d' := by
  have z : 0 < c % w → 0 < c := fun h => by
    rcases Nat.eq_zero_or_pos c with e | e
    · subst e; simp at h
    · exact e
  cases d <;> cases d' <;> simp only [nbr, Option.ite_none_right_eq_some, Option.some.injEq] at h1 h2 <;>
    first
      | rfl
      | exfalso; omega
      | (exfalso
         have := Nat.mod_lt c hw
         have hw1 : w = 1 := by omega
         subst hw1
         omega)

/-- Two passages are two doors. -/
theorem doors_two {g : List MazeNode} (hw : 0 < w) {a u v : Fin (w * h)} (hu : (graph w h g).Adj a u)
    (hv : (graph w h g).Adj a v) (huv : u ≠ v) : 2 ≤ doors w h g a := by
  obtain ⟨d, hd⟩ := adj_move hw hu
  obtain ⟨d', hd'⟩ := adj_move hw hv
  have hne : d ≠ d' := by
    rintro rfl
    rw [hd] at hd'
    exact huv (Fin.ext (by simpa using hd'))
  have s1 : (move w h g a d).isSome = true := by rw [hd]; rfl
  have s2 : (move w h g a d').isSome = true := by rw [hd']; rfl
  unfold doors
  simp only [List.countP_cons, List.countP_nil]
  cases d <;> cases d' <;> first | exact absurd rfl hne | (rw [s1, s2]; simp; try omega)

/-- A cell with exactly one passage has one door. -/
theorem doors_one {g : List MazeNode} (hw : 0 < w) {a u : Fin (w * h)} (hu : (graph w h g).Adj a u)
    (H : ∀ v, (graph w h g).Adj a v → v = u) : doors w h g a = 1 := by
  obtain ⟨d, hd⟩ := adj_move hw hu
  have other : ∀ d', d' ≠ d → (move w h g a d').isSome = false := by
    intro d' hne
    cases e : move w h g a d' with
    | none => rfl
    | some m =>
      exfalso
      obtain ⟨hb, hadj⟩ := move_adj hw a.2 e
      have := H _ hadj
      have hm : m = u.1 := congrArg Fin.val this
      have n1 : nbr w h a d = some u.1 := by
        unfold move at hd; split at hd
        · exact hd
        · cases hd
      have n2 : nbr w h a d' = some u.1 := by
        unfold move at e; split at e
        · rw [e, hm]
        · cases e
      exact hne (nbr_inj hw n2 n1)
  have s1 : (move w h g a d).isSome = true := by rw [hd]; rfl
  unfold doors
  simp only [List.countP_cons, List.countP_nil]
  cases d
  · rw [s1, other .Down (by simp), other .Left (by simp), other .Up (by simp)]; rfl
  · rw [s1, other .Right (by simp), other .Left (by simp), other .Up (by simp)]; rfl
  · rw [s1, other .Right (by simp), other .Down (by simp), other .Up (by simp)]; rfl
  · rw [s1, other .Right (by simp), other .Down (by simp), other .Left (by simp)]; rfl

/-- A cell on the way to another one, neither the first cell nor that one, has two doors. -/
theorem OnRoute.two_doors {g : List MazeNode} {a b : Nat} (hw : 0 < w) (H : OnRoute w h g a b) (h0 : a ≠ 0) (hab : a ≠ b) :
    2 ≤ doors w h g a := by
  obtain ⟨_, ha, hb, p, hp, hm⟩ := H
  obtain ⟨u, v, h1, h2, h3⟩ := inner_two p hp hm (by simpa using h0) (by simpa using hab)
  exact doors_two hw h1 h2 h3

/-- In a depth-first maze two neighbouring cells are not both dead ends. -/
theorem ends_apart {g : List MazeNode} (hw : 0 < w) (hD : DepthFirst w h g) {a b : Nat} {d : MazeDirection}
    (ha : a ∈ deadEnds w h g) (hb : b ∈ deadEnds w h g) (hd : nbr w h a d = some b) : False := by
  simp only [deadEnds, List.mem_filter, List.mem_range, decide_eq_true_eq] at ha hb
  obtain ⟨ha, ha0, ha1⟩ := ha
  obtain ⟨hb, hb0, hb1⟩ := hb
  have hne : a ≠ b := by
    rintro rfl
    have := nbr_pos hw ha hd
    cases d <;> simp [vec] at this
  rcases hD a b d ha hd with h1 | h1
  · have := OnRoute.two_doors hw h1 ha0 hne; omega
  · have := OnRoute.two_doors hw h1 hb0 hne.symm; omega

/-- At most half of the cells are dead ends other than the first cell. -/
theorem ends_half {g : List MazeNode} (hw : 0 < w) (hD : DepthFirst w h g) :
    2 * (deadEnds w h g).length ≤ w * h := by
  classical
  have nd : (deadEnds w h g).Nodup := List.nodup_range.filter _
  rw [← List.toFinset_card_of_nodup nd]
  have hS := snake_ham (w := w) (h := h)
  let pos : Nat → Nat := fun c => snake w (c % w) (c / w)
  have coord : ∀ c, c < w * h → c % w < w ∧ c / w < h := fun c hc =>
    ⟨Nat.mod_lt _ hw, by rw [Nat.div_lt_iff_lt_mul hw, Nat.mul_comm]; exact hc⟩
  have back : ∀ c, w * (c / w) + c % w = c := fun c => Nat.div_add_mod c w
  have inj : ∀ a b, a < w * h → b < w * h → pos a = pos b → a = b := by
    intro a b ha hb e
    obtain ⟨e1, e2⟩ := hS.inj _ _ _ _ (coord a ha).1 (coord a ha).2 (coord b hb).1 (coord b hb).2 e
    rw [← back a, ← back b, e1, e2]
  have lt : ∀ a, a < w * h → pos a < w * h := fun a ha => hS.lt _ _ (coord a ha).1 (coord a ha).2
  have step : ∀ a b, a < w * h → b < w * h → pos b = pos a + 1 → ∃ d, nbr w h a d = some b := by
    intro a b ha hb e
    obtain ⟨x', y', hx, hy, e1, H⟩ := hS.next _ _ (coord a ha).1 (coord a ha).2 (by
      have := lt b hb
      rw [e] at this
      exact this)
    obtain ⟨e2, e3⟩ := hS.inj _ _ _ _ hx hy (coord b hb).1 (coord b hb).2 (e1.trans e.symm)
    obtain ⟨d, hd⟩ := nbr_coords (coord a ha).1 hx (coord a ha).2 hy H
    rw [back, e2, e3, back] at hd
    exact ⟨d, hd⟩
  have mem : ∀ c, c ∈ (deadEnds w h g).toFinset → c ∈ deadEnds w h g ∧ c < w * h ∧ c ≠ 0 := by
    intro c hc
    rw [List.mem_toFinset] at hc
    refine ⟨hc, ?_⟩
    simp only [deadEnds, List.mem_filter, List.mem_range, decide_eq_true_eq] at hc
    exact ⟨hc.1, hc.2.1⟩
  have key : (deadEnds w h g).toFinset.card ≤ (Finset.Icc 1 (w * h / 2)).card := by
    refine Finset.card_le_card_of_injOn (fun c => (pos c + 1) / 2) ?_ ?_
    · intro c hc
      obtain ⟨_, h1, h2⟩ := mem c hc
      have h3 := lt c h1
      have h4 : pos c ≠ 0 := by
        intro e
        have z : pos 0 = 0 := by simp [pos, hS.zero]
        exact h2 (inj c 0 h1 (by omega) (e.trans z.symm))
      simp only [Finset.coe_Icc, Set.mem_Icc]
      omega
    · intro a ha b hb e
      obtain ⟨a1, a2, _⟩ := mem a ha
      obtain ⟨b1, b2, _⟩ := mem b hb
      simp only at e
      by_contra hne
      have hp : pos a ≠ pos b := fun e => hne (inj a b a2 b2 e)
      have : pos b = pos a + 1 ∨ pos a = pos b + 1 := by omega
      rcases this with e1 | e1
      · obtain ⟨d, hd⟩ := step a b a2 b2 e1
        exact ends_apart hw hD a1 b1 hd
      · obtain ⟨d, hd⟩ := step b a b2 a2 e1
        exact ends_apart hw hD b1 a1 hd
  rw [Nat.card_Icc] at key
  omega

/-- A perfect maze of at least two cells has a dead end other than the first cell. -/
theorem ends_some {g : List MazeNode} (hw : 0 < w) (hT : (graph w h g).IsTree) (h2 : 2 ≤ w * h) : deadEnds w h g ≠ [] := by
  classical
  have : Nontrivial (Fin (w * h)) := Fin.nontrivial_iff_two_le.mpr h2
  obtain ⟨u, v, huv, du, dv⟩ := hT.exists_ne_and_degree_eq_one
  have key : ∀ x : Fin (w * h), (graph w h g).degree x = 1 → doors w h g x = 1 := by
    intro x hx
    rw [SimpleGraph.degree_eq_one_iff_existsUnique_adj] at hx
    obtain ⟨y, h1, h3⟩ := hx
    exact doors_one hw h1 h3
  have mem : ∀ x : Fin (w * h), x.1 ≠ 0 → (graph w h g).degree x = 1 → deadEnds w h g ≠ [] := by
    intro x h0 hx
    refine List.ne_nil_of_mem (a := x.1) ?_
    simp only [deadEnds, List.mem_filter, List.mem_range, decide_eq_true_eq]
    exact ⟨x.2, h0, key x hx⟩
  by_cases hu : u.1 = 0
  · exact mem v (fun hv => huv (Fin.ext (hu.trans hv.symm))) dv
  · exact mem u hu du

/-- The maze along a numbering has one dead end besides the first cell, for at least two cells. -/
theorem Ham.one_end {pos : Nat → Nat → Nat} (H : Ham w h pos) (hw : 1 ≤ w) (hh : 1 ≤ h) (h2 : 2 ≤ w * h)
    {g : List MazeNode} (hg : graph w h g = graph w h (hamGrid w h pos)) : (deadEnds w h g).length = 1 := by
  classical
  have L := H.line hw
  have hT := (H.closed hw hh).tree
  rw [← hg] at L hT
  have hne := ends_some hw hT h2
  have nd : (deadEnds w h g).Nodup := List.nodup_range.filter _
  have coord : ∀ c, c < w * h → c % w < w ∧ c / w < h := fun c hc =>
    ⟨Nat.mod_lt _ hw, by rw [Nat.div_lt_iff_lt_mul hw, Nat.mul_comm]; exact hc⟩
  have last : ∀ a b, a ∈ deadEnds w h g → b ∈ deadEnds w h g →
      pos (a % w) (a / w) ≤ pos (b % w) (b / w) → a = b := by
    intro a b ha hb hle
    simp only [deadEnds, List.mem_filter, List.mem_range, decide_eq_true_eq] at ha hb
    by_contra hab
    have z : pos ((⟨0, by omega⟩ : Fin (w * h)).1 % w) ((⟨0, by omega⟩ : Fin (w * h)).1 / w) = 0 := by simp [H.zero]
    have hr : OnRoute w h g a b :=
      ⟨by omega, ha.1, hb.1, L.route z ⟨b, hb.1⟩ ⟨a, ha.1⟩ hle⟩
    have := OnRoute.two_doors hw hr ha.2.1 hab
    omega
  match hl : deadEnds w h g with
  | [] => exact absurd hl hne
  | [_] => rfl
  | a :: b :: l =>
    exfalso
    rw [hl] at nd last
    have hab : a ≠ b := by simp at nd; exact nd.1.1
    rcases Nat.le_total (pos (a % w) (a / w)) (pos (b % w) (b / w)) with h1 | h1
    · exact hab (last a b (by simp) (by simp) h1)
    · exact hab (last b a (by simp) (by simp) h1).symm

/-- A perfect maze of one row or one column is depth-first. -/
theorem line_depthFirst {g : List MazeNode} (hl : w = 1 ∨ h = 1) (hw : 0 < w) (hT : (graph w h g).IsTree) :
    DepthFirst w h g := by
  have lip : ∀ a b : Fin (w * h), (graph w h g).Adj a b → b.1 ≤ a.1 + 1 := by
    intro a b hab
    rw [graph, SimpleGraph.fromRel_adj] at hab
    have := a.2
    have := b.2
    rcases hab.2 with (⟨h1, _⟩ | ⟨h1, _⟩) | (⟨h1, _⟩ | ⟨h1, _⟩)
    · omega
    · rcases hl with rfl | rfl
      · omega
      · rw [Nat.mul_one] at *; omega
    · omega
    · omega
  have route : ∀ a b, b < w * h → a ≤ b → OnRoute w h g a b := by
    intro a b hb hab
    obtain ⟨p, hp⟩ := hT.connected.exists_isPath (⟨0, by omega⟩ : Fin (w * h)) ⟨b, hb⟩
    obtain ⟨c, hc, e⟩ := between (G := graph w h g) (fun c => c.1) lip p a (Nat.zero_le _) hab
    have : c = ⟨a, by omega⟩ := Fin.ext e
    exact ⟨by omega, by omega, hb, p, hp, this ▸ hc⟩
  intro a b d ha hd
  have hb := ham_nbr_lt ha hd hw
  rcases Nat.le_total a b with h1 | h1
  · exact .inl (route a b hb h1)
  · exact .inr (route b a ha h1)

/-- A comb: the first row is open from end to end and every column from top to bottom. -/
def teeth (w h : Nat) : List MazeNode :=
  (List.range (w * h)).map fun c => { right := !decide (c + 1 < w), down := !decide (c / w + 1 < h) }

theorem teeth_right {c : Nat} (hc : c < w * h) : rightOpen (teeth w h) c = decide (c + 1 < w) := by
  simp [rightOpen, teeth, hc]

theorem teeth_down {c : Nat} (hc : c < w * h) : downOpen (teeth w h) c = decide (c / w + 1 < h) := by
  simp [downOpen, teeth, hc]

/-- The cell before cell `c` in the comb. -/
def tooth (w c : Nat) : Nat := if c < w then c - 1 else c - w

theorem teeth_closed (hw : 0 < w) (hh : 0 < h) : ClosedTree w h (teeth w h) := by
  classical
  have h0 : 0 < w * h := Nat.mul_pos hw hh
  have tl : ∀ c, c < w * h → tooth w c < w * h := by intro c hc; unfold tooth; split <;> omega
  refine ⟨by simp [teeth], ?_, ?_, SimpleGraph.isTree_iff_connected_and_card.mpr ?_⟩
  · intro c hc hm
    rw [teeth_right hc]
    have := Nat.mod_le c w
    simp; omega
  · intro c hc hm
    rw [teeth_down hc]
    simp; omega
  have adj : ∀ c : Fin (w * h), c.1 ≠ 0 → (graph w h (teeth w h)).Adj c ⟨tooth w c, tl c c.2⟩ := by
    intro c hc
    rw [graph, SimpleGraph.fromRel_adj]
    have hc2 := c.2
    unfold tooth
    by_cases h1 : c.1 < w
    · refine ⟨?_, .inr (.inl ⟨?_, ?_, ?_⟩)⟩
      · intro e; have := congrArg Fin.val e; simp [h1] at this; omega
      · simp [h1]; omega
      · simp only [h1, if_true]; rw [Nat.mod_eq_of_lt (by omega)]; omega
      · simp only [h1, if_true]; rw [teeth_right (by omega)]; simp; omega
    · refine ⟨?_, .inr (.inr ⟨?_, ?_⟩)⟩
      · intro e; have := congrArg Fin.val e; simp [h1] at this; omega
      · simp [h1]; omega
      · simp only [h1, if_false]
        rw [teeth_down (by omega)]
        have e1 : (c.1 - w) / w + 1 = c.1 / w := by
          rw [Nat.div_eq c.1 w, if_pos ⟨hw, by omega⟩]
        have e2 : c.1 / w < h := Nat.div_lt_of_lt_mul hc2
        rw [e1]
        simpa using e2
  have conn : (graph w h (teeth w h)).Connected := by
    have key : ∀ (n : Nat) (c : Fin (w * h)), c.1 = n → (graph w h (teeth w h)).Reachable ⟨0, h0⟩ c := by
      intro n
      induction n using Nat.strong_induction_on with
      | _ n ih =>
        intro c hc
        by_cases hz : c.1 = 0
        · rw [show c = ⟨0, h0⟩ from Fin.ext hz]
        · refine (ih (tooth w c) ?_ ⟨tooth w c, tl c c.2⟩ rfl).trans (adj c hz).reachable.symm
          unfold tooth
          split <;> omega
    have : Nonempty (Fin (w * h)) := ⟨⟨0, h0⟩⟩
    exact ⟨fun x y => (key _ x rfl).symm.trans (key _ y rfl)⟩
  refine ⟨conn, Nat.le_antisymm ?_ ?_⟩
  · have sub : (graph w h (teeth w h)).edgeSet ⊆
        ((Finset.univ.filter fun c : Fin (w * h) => c.1 ≠ 0).image fun c => s(c, ⟨tooth w c, tl c c.2⟩) : Finset _) := by
      have one : ∀ x y : Fin (w * h), Passage w (teeth w h) x y → y.1 ≠ 0 ∧ x.1 = tooth w y.1 := by
        rintro x y (⟨e, hm, ho⟩ | ⟨e, _⟩)
        · rw [teeth_right x.2] at ho
          simp only [decide_eq_true_eq] at ho
          refine ⟨by omega, ?_⟩
          unfold tooth
          rw [if_pos (by omega)]
          omega
        · refine ⟨by omega, ?_⟩
          unfold tooth
          rw [if_neg (by omega)]
          omega
      intro e
      induction e using Sym2.ind with
      | _ x y =>
        intro hxy
        rw [SimpleGraph.mem_edgeSet, graph, SimpleGraph.fromRel_adj] at hxy
        simp only [Finset.coe_image, Set.mem_image, Finset.mem_coe, Finset.mem_filter, Finset.mem_univ, true_and]
        rcases hxy.2 with h1 | h1
        · obtain ⟨h2, h3⟩ := one x y h1
          refine ⟨y, h2, ?_⟩
          rw [show (⟨tooth w y, tl y y.2⟩ : Fin (w * h)) = x from Fin.ext h3.symm, Sym2.eq_swap]
        · obtain ⟨h2, h3⟩ := one y x h1
          refine ⟨x, h2, ?_⟩
          rw [show (⟨tooth w x, tl x x.2⟩ : Fin (w * h)) = y from Fin.ext h3.symm]
    have c1 := Nat.card_mono (Finset.finite_toSet _) sub
    have c2 : (Finset.univ.filter fun c : Fin (w * h) => c.1 ≠ 0).card < (Finset.univ : Finset (Fin (w * h))).card := by
      refine Finset.card_lt_card (Finset.filter_ssubset.mpr ⟨⟨0, h0⟩, Finset.mem_univ _, by simp⟩)
    rw [Finset.card_univ, Fintype.card_fin] at c2
    have c3 := Finset.card_image_le (s := Finset.univ.filter fun c : Fin (w * h) => c.1 ≠ 0)
      (f := fun c => s(c, (⟨tooth w c, tl c c.2⟩ : Fin (w * h))))
    rw [Nat.card_coe_set_eq, Nat.card_coe_set_eq, Set.ncard_coe_finset, ← Nat.card_coe_set_eq] at c1
    rw [Nat.card_eq_fintype_card (α := Fin (w * h)), Fintype.card_fin]
    omega
  · exact conn.card_vert_le_card_edgeSet_add_one

end Maze
