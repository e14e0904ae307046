import Verif.Proofs.Maze.OddsCases

/-! Helper lemmas: passages beyond which three neighbours lie start in different cells that are not at the border. -/
namespace Maze
open Spec

variable {w h : Nat} {g : List MazeNode}

/-- A cell with such a passage has four neighbours. -/
theorem triple_inner (hw : 0 < w) (hT : (graph w h g).IsTree) {c : Nat} {d : MazeDirection} (hd : Away w h g c d)
    (hb : beyond w h g c d = 3) : ∀ e, nbr w h c e ≠ none := by
  intro e' he'
  by_cases hc0 : c = 0
  · subst hc0
    have := beyond_le (w := w) (h := h) (g := g) (c := 0) (d := d) (e1 := .Left) (e2 := .Up) (by decide)
      (not_beyond_none (by simp [nbr])) (not_beyond_none (by simp [nbr]; omega))
    omega
  · obtain ⟨e, p, he, hp⟩ := parent_not_beyond hw hT hd hc0
    have := beyond_le (w := w) (h := h) (g := g) (c := c) (d := d) (e1 := e) (e2 := e')
      (by rintro rfl; rw [he] at he'; cases he') hp (not_beyond_none he')
    omega

theorem beyond_either {c : Nat} {d : MazeDirection} (hb : beyond w h g c d = 3) {e1 e2 : MazeDirection} (hne : e1 ≠ e2) :
    Beyond w h g c d e1 ∨ Beyond w h g c d e2 := by
  by_contra H
  rw [not_or] at H
  have := beyond_le hne H.1 H.2
  omega

/-- A cell has only one such passage. -/
theorem triple_dir (hw : 0 < w) (hT : (graph w h g).IsTree) {c : Nat} {d d' : MazeDirection} (hd : Away w h g c d)
    (hd' : Away w h g c d') (hb : beyond w h g c d = 3) (hb' : beyond w h g c d' = 3) : d = d' := by
  have : ∃ e, Beyond w h g c d e ∧ Beyond w h g c d' e := by
    by_contra H
    push Not at H
    have r := H .Right
    have s := H .Down
    have t := H .Left
    have a1 := beyond_either hb (e1 := .Right) (e2 := .Down) (by decide)
    have a2 := beyond_either hb (e1 := .Right) (e2 := .Left) (by decide)
    have a3 := beyond_either hb (e1 := .Down) (e2 := .Left) (by decide)
    have b1 := beyond_either hb' (e1 := .Right) (e2 := .Down) (by decide)
    have b2 := beyond_either hb' (e1 := .Right) (e2 := .Left) (by decide)
    have b3 := beyond_either hb' (e1 := .Down) (e2 := .Left) (by decide)
    tauto
  obtain ⟨e, h1, h2⟩ := this
  have m1 := (mark_iff hw hT).mpr ⟨hd, h1⟩
  have m2 := (mark_iff hw hT).mpr ⟨hd', h2⟩
  exact Option.some.inj (m1.symm.trans m2)

theorem inner_iff (hw : 0 < w) {c : Nat} (hc : c < w * h) : (∀ e, nbr w h c e ≠ none) ↔
    (1 ≤ c % w ∧ c % w + 1 < w) ∧ 1 ≤ c / w ∧ c / w + 1 < h := by
  have e1 : w ≤ c ↔ 1 ≤ c / w := by rw [Nat.le_div_iff_mul_le hw, Nat.one_mul]
  have e2 : c + w < w * h ↔ c / w + 1 < h := by
    rw [← Nat.add_div_right c hw, Nat.div_lt_iff_lt_mul hw, Nat.mul_comm h w]
  constructor
  · intro H
    have r := H .Right
    have s := H .Down
    have t := H .Left
    have u := H .Up
    simp only [nbr, ne_eq, ite_eq_right_iff, reduceCtorEq, imp_false, not_not] at r s t u
    exact ⟨⟨t, r⟩, e1.mp u, e2.mp s⟩
  · rintro ⟨⟨t, r⟩, u, s⟩ e
    have u := e1.mpr u
    have s := e2.mpr s
    cases e <;> simp only [nbr] <;> rw [if_pos (by omega)] <;> simp

/-- The passages beyond which three neighbours lie, by the cells they start in. -/
theorem triples_cells (hw : 0 < w) (hT : (graph w h g).IsTree) :
    ∃ F : {p : Fin (w * h) × MazeDirection // Away w h g p.1 p.2 ∧ beyond w h g p.1 p.2 = 3} → Fin (w - 2) × Fin (h - 2),
      Function.Injective F ∧ ∀ p, p.1.1.1 = ((F p).1.1 + 1) + w * ((F p).2.1 + 1) := by
  have key : ∀ p : {p : Fin (w * h) × MazeDirection // Away w h g p.1 p.2 ∧ beyond w h g p.1 p.2 = 3},
      (1 ≤ p.1.1.1 % w ∧ p.1.1.1 % w + 1 < w) ∧ 1 ≤ p.1.1.1 / w ∧ p.1.1.1 / w + 1 < h := fun p =>
    (inner_iff hw p.1.1.2).mp (triple_inner hw hT p.2.1 p.2.2)
  refine ⟨fun p => (⟨p.1.1.1 % w - 1, by have := key p; omega⟩,
    ⟨p.1.1.1 / w - 1, by have := key p; omega⟩), ?_, ?_⟩
  · intro p q e
    have kp := key p
    have kq := key q
    simp only [Prod.mk.injEq, Fin.mk.injEq] at e
    have e1 : p.1.1.1 % w = q.1.1.1 % w := by omega
    have e2 : p.1.1.1 / w = q.1.1.1 / w := by omega
    have ec : p.1.1 = q.1.1 := by
      refine Fin.ext ?_
      rw [← Nat.div_add_mod p.1.1.1 w, ← Nat.div_add_mod q.1.1.1 w, e1, e2]
    refine Subtype.ext (Prod.ext ec ?_)
    have a := q.2
    rw [← ec] at a
    exact triple_dir hw hT p.2.1 a.1 p.2.2 a.2
  · intro p
    have kp := key p
    simp only
    rw [Nat.sub_add_cancel kp.1.1, Nat.sub_add_cancel kp.2.1, Nat.mod_add_div]

theorem triples_le (hw : 0 < w) (hT : (graph w h g).IsTree) : triples w h g ≤ (w - 2) * (h - 2) := by
  rw [show (w - 2) * (h - 2) = Nat.card (Fin (w - 2) × Fin (h - 2)) by simp]
  obtain ⟨F, hF, _⟩ := triples_cells (g := g) hw hT
  exact Nat.card_le_card_of_injective F hF

/-- With as many such passages as possible every cell that is not at the border has one. -/
theorem triples_all (hw : 0 < w) (hT : (graph w h g).IsTree) (he : triples w h g = (w - 2) * (h - 2)) {x y : Nat}
    (hx : x + 2 < w) (hy : y + 2 < h) :
    ∃ d, Away w h g (x + 1 + w * (y + 1)) d ∧ beyond w h g (x + 1 + w * (y + 1)) d = 3 := by
  obtain ⟨F, hF, hc⟩ := triples_cells (g := g) hw hT
  have hb : Function.Bijective F := (Nat.bijective_iff_injective_and_card F).mpr ⟨hF, by
    rw [show Nat.card (Fin (w - 2) × Fin (h - 2)) = (w - 2) * (h - 2) by simp]; exact he⟩
  obtain ⟨p, hp⟩ := hb.2 (⟨x, by omega⟩, ⟨y, by omega⟩)
  have e := hc p
  rw [hp] at e
  simp only at e
  rw [← e]
  exact ⟨p.1.2, p.2⟩

/-- A cell on the route to such a cell next to it is the one from which that is entered. -/
theorem triple_kid (hw : 0 < w) (hT : (graph w h g).IsTree) {b c : Nat} {d e : MazeDirection} (hd : Away w h g b d)
    (hb : beyond w h g b d = 3) (he : nbr w h b e = some c) (hr : OnRoute w h g c b) (hne : c ≠ b) :
    ∃ d, Kid w h g c d b := by
  obtain ⟨u, hm, hbu⟩ := hd
  have hblt := (onRoute_lt hr).2
  have no : ∀ p e, p ≠ b → nbr w h b e = some p → OnRoute w h g p b → ¬ Beyond w h g b d e := by
    rintro p e hpb hp hpr ⟨u', v, h1, h2, h3⟩
    obtain rfl : u' = u := Option.some.inj (h1.symm.trans (move_nbr hm))
    obtain rfl : p = v := Option.some.inj (hp.symm.trans h2)
    exact hpb (onRoute_antisymm hT hpr (onRoute_trans hT hbu h3))
  have h0 : 0 < w * h := by omega
  have hb0 : b ≠ 0 := by
    rintro rfl
    exact hne (onRoute_antisymm hT hr (onRoute_root hT (onRoute_lt hr).1))
  obtain ⟨p, hp⟩ := Anc.parent (r := (⟨0, h0⟩ : Fin (w * h))) hT.connected (u := ⟨b, hblt⟩) (by simpa using hb0)
  obtain ⟨e', he'⟩ := adj_nbr hp.adj.symm hw
  have hpb : p.1 ≠ b := fun e => hp.adj.ne (Fin.ext e)
  have : e = e' := by
    by_contra hee
    rcases beyond_either hb hee with k | k
    · exact no c e hne he hr k
    · exact no p e' hpb he' ⟨h0, p.2, hblt, hp.anc⟩ k
  subst this
  obtain rfl : c = p.1 := Option.some.inj (he.symm.trans he')
  exact Child.kid hw hp

/-- With at least four rows and four columns some cell that is not at the border has no such passage. -/
theorem triples_lt (hw : 4 ≤ w) (hh : 4 ≤ h) (hT : (graph w h g).IsTree) (hD : DepthFirst w h g) :
    triples w h g < (w - 2) * (h - 2) := by
  have hw' : 0 < w := by omega
  refine Nat.lt_of_le_of_ne (triples_le hw' hT) fun he => ?_
  have hwh : w * 4 ≤ w * h := Nat.mul_le_mul_left _ hh
  have one : ∀ {a b e e'}, a < w * h → nbr w h a e = some b → nbr w h b e' = some a → a ≠ b →
      (∃ d, Away w h g a d ∧ beyond w h g a d = 3) → (∃ d, Away w h g b d ∧ beyond w h g b d = 3) →
      (∃ d, Kid w h g a d b) ∨ ∃ d, Kid w h g b d a := by
    rintro a b e e' ha h1 h2 hne ⟨d, t1, t2⟩ ⟨d', t1', t2'⟩
    rcases hD a b e ha h1 with k | k
    · exact .inl (triple_kid hw' hT t1' t2' h2 k hne)
    · exact .inr (triple_kid hw' hT t1 t2 h1 k hne.symm)
  have par : ∀ {a b c}, (∃ d, Kid w h g a d c) → (∃ d, Kid w h g b d c) → a = b := by
    rintro a b c ⟨d, k⟩ ⟨d', k'⟩
    obtain ⟨_, _, _, h1⟩ := k.child hw'
    obtain ⟨_, _, _, h2⟩ := k'.child hw'
    exact congrArg Fin.val (Child.parent hT h1 h2)
  have anc : ∀ {a b}, (∃ d, Kid w h g a d b) → OnRoute w h g a b := fun ⟨_, k⟩ => k.2
  have tA := triples_all hw' hT he (x := 0) (y := 0) (by omega) (by omega)
  have tB := triples_all hw' hT he (x := 1) (y := 0) (by omega) (by omega)
  have tC := triples_all hw' hT he (x := 0) (y := 1) (by omega) (by omega)
  have tD := triples_all hw' hT he (x := 1) (y := 1) (by omega) (by omega)
  simp only [Nat.zero_add, Nat.mul_one, show 1 + 1 = 2 from rfl] at tA tB tC tD
  have mA : (1 + w) % w = 1 := by rw [Nat.add_mod_right, Nat.mod_eq_of_lt (by omega)]
  have mB : (2 + w) % w = 2 := by rw [Nat.add_mod_right, Nat.mod_eq_of_lt (by omega)]
  have mC : (1 + w * 2) % w = 1 := by rw [Nat.add_mul_mod_self_left, Nat.mod_eq_of_lt (by omega)]
  have mD : (2 + w * 2) % w = 2 := by rw [Nat.add_mul_mod_self_left, Nat.mod_eq_of_lt (by omega)]
  have AB := one (a := 1 + w) (b := 2 + w) (e := .Right) (e' := .Left) (by omega)
    (by simp only [nbr, mA]; rw [if_pos (by omega)]; congr 1; omega)
    (by simp only [nbr, mB]; rw [if_pos (by omega)]; congr 1; omega) (by omega) tA tB
  have CD := one (a := 1 + w * 2) (b := 2 + w * 2) (e := .Right) (e' := .Left) (by omega)
    (by simp only [nbr, mC]; rw [if_pos (by omega)]; congr 1; omega)
    (by simp only [nbr, mD]; rw [if_pos (by omega)]; congr 1; omega) (by omega) tC tD
  have AC := one (a := 1 + w) (b := 1 + w * 2) (e := .Down) (e' := .Up) (by omega)
    (by simp only [nbr]; rw [if_pos (by omega)]; congr 1; omega)
    (by simp only [nbr]; rw [if_pos (by omega)]; congr 1; omega) (by omega) tA tC
  have BD := one (a := 2 + w) (b := 2 + w * 2) (e := .Down) (e' := .Up) (by omega)
    (by simp only [nbr]; rw [if_pos (by omega)]; congr 1; omega)
    (by simp only [nbr]; rw [if_pos (by omega)]; congr 1; omega) (by omega) tB tD
  rcases AB with AB | AB <;> rcases CD with CD | CD <;> rcases AC with AC | AC <;> rcases BD with BD | BD
  all_goals first
    | (have := par AB BD; omega) | (have := par AB AC; omega) | (have := par CD BD; omega) | (have := par CD AC; omega)
    | (have := onRoute_antisymm hT (onRoute_trans hT (onRoute_trans hT (anc AB) (anc BD)) (anc CD)) (anc AC); omega)
    | (have := onRoute_antisymm hT (onRoute_trans hT (onRoute_trans hT (anc AC) (anc CD)) (anc BD)) (anc AB); omega)

/-- The way through the middle of a maze of three columns: to the right, then down to the last row. -/
def middle : Nat → Nat
  | 0 => 0
  | i + 1 => 3 * i + 1

theorem middle_nbr {i : Nat} (hi : i < h) : ∃ d, nbr 3 h (middle i) d = some (middle (i + 1)) := by
  match i with
  | 0 => exact ⟨.Right, by simp [nbr, middle]⟩
  | i + 1 =>
    refine ⟨.Down, ?_⟩
    change nbr 3 h (3 * i + 1) .Down = some (3 * (i + 1) + 1)
    simp only [nbr]
    rw [if_pos (by omega)]
    congr 1

theorem middle_inj {i i' : Nat} (hi : i < i') : middle i ≠ middle i' := by
  cases i <;> cases i' <;> simp only [middle] <;> omega

/-- Then all cells beside it lie beyond its end. -/
theorem middle_triples (hh : 1 ≤ h) (hT : (graph 3 h g).IsTree) (hD : DepthFirst 3 h g)
    (H : ∀ i, i < h → ∃ ha hb, (graph 3 h g).Adj ⟨middle i, ha⟩ ⟨middle (i + 1), hb⟩) : h - 2 ≤ triples 3 h g := by
  have hw : 0 < 3 := by decide
  have anc : ∀ i, i ≤ h → ∀ x, OnRoute 3 h g x (middle i) → ∃ j, j ≤ i ∧ x = middle j := by
    intro i
    induction i with
    | zero =>
      intro _ x hx
      exact ⟨0, Nat.le_refl _, onRoute_antisymm hT hx (onRoute_root hT (onRoute_lt hx).1)⟩
    | succ i ih =>
      intro hi x hx
      obtain ⟨ha, hb, hadj⟩ := H i (by omega)
      obtain ⟨d, hm⟩ := adj_move hw hadj
      rcases kid_of_move hw hT ha hm with k | k
      · rcases k.before hw hT hx with e | e
        · exact ⟨i + 1, Nat.le_refl _, e⟩
        · obtain ⟨j, hj, e⟩ := ih (by omega) x e
          exact ⟨j, by omega, e⟩
      · obtain ⟨j, hj, e⟩ := ih (by omega) _ k
        exact absurd e.symm (middle_inj (by omega))
  have kid : ∀ i, i < h → ∃ d, Kid 3 h g (middle i) d (middle (i + 1)) := by
    intro i hi
    obtain ⟨ha, hb, hadj⟩ := H i (by omega)
    obtain ⟨d, hm⟩ := adj_move hw hadj
    rcases kid_of_move hw hT ha hm with k | k
    · exact ⟨d, k⟩
    · obtain ⟨j, hj, e⟩ := anc i (by omega) _ k
      exact absurd e.symm (middle_inj (by omega))
  have up : ∀ i j, i ≤ j → j ≤ h → OnRoute 3 h g (middle i) (middle j) := by
    intro i j hij
    induction j, hij using Nat.le_induction with
    | base =>
      intro hj
      rcases Nat.eq_zero_or_pos i with rfl | hp
      · exact onRoute_refl hT (by simp only [middle]; omega)
      · obtain ⟨_, hb, _⟩ := H (i - 1) (by omega)
        rw [Nat.sub_add_cancel hp] at hb
        exact onRoute_refl hT hb
    | succ j _ ih =>
      intro hj
      obtain ⟨d, k⟩ := kid j (by omega)
      exact onRoute_trans hT (ih (by omega)) k.2
  let R : Nat → Prop := fun x => x % 3 ≠ 1 ∧ x ≠ 0
  have off : ∀ x, R x → ¬ OnRoute 3 h g x (middle h) := by
    rintro x ⟨h1, h2⟩ hx
    obtain ⟨j, _, e⟩ := anc h (Nat.le_refl _) x hx
    cases j with
    | zero => exact h2 e
    | succ j => simp only [middle] at e; omega
  have step : ∀ x y d, R x → y < 3 * h → nbr 3 h y d = some x → OnRoute 3 h g (middle h) y → OnRoute 3 h g (middle h) x := by
    intro x y d hx hy hd hr
    rcases hD y x d hy hd with k | k
    · exact onRoute_trans hT hr k
    · obtain ⟨_, hx', hy', p⟩ := k
      obtain ⟨_, hu', _, q⟩ := hr
      rcases Anc.chain hT.isAcyclic p q with e | e
      · exact absurd ⟨_, _, _, e⟩ (off x hx)
      · exact ⟨_, _, _, e⟩
  obtain ⟨m, rfl⟩ : ∃ m, h = m + 1 := ⟨h - 1, by omega⟩
  have side : ∀ n x, x < 3 * (m + 1) → 3 * (m + 1) - x = n → R x → OnRoute 3 (m + 1) g (middle (m + 1)) x := by
    intro n
    induction n using Nat.strongRecOn with
    | ind n ih =>
      intro x hx hn rx
      have rx' := rx
      obtain ⟨r1, r2⟩ := rx'
      by_cases hd : x + 3 < 3 * (m + 1)
      · refine step x (x + 3) .Up rx hd (by simp [nbr]) (ih _ ?_ (x + 3) hd rfl ⟨by omega, by omega⟩)
        omega
      · have h1 : x = 3 * m ∨ x = 3 * m + 2 := by omega
        rcases h1 with rfl | rfl
        · refine step _ (3 * m + 1) .Left rx (by omega) ?_ (onRoute_refl hT (by simp only [middle]; omega))
          simp only [nbr]
          rw [if_pos (by omega)]
          congr 1
        · refine step _ (3 * m + 1) .Right rx (by omega) ?_ (onRoute_refl hT (by simp only [middle]; omega))
          simp only [nbr]
          rw [if_pos (by omega)]
  have all : ∀ y, 1 ≤ y → y < m → Away 3 (m + 1) g (3 * y + 1) .Down ∧ beyond 3 (m + 1) g (3 * y + 1) .Down = 3 := by
    intro y h1 h2
    obtain ⟨d, k⟩ := kid (y + 1) (by omega)
    have nD : nbr 3 (m + 1) (3 * y + 1) .Down = some (3 * (y + 1) + 1) := by
      simp only [nbr]; rw [if_pos (by omega)]; congr 1
    have nL : nbr 3 (m + 1) (3 * y + 1) .Left = some (3 * y) := by
      simp only [nbr]; rw [if_pos (by omega)]; congr 1
    have nR : nbr 3 (m + 1) (3 * y + 1) .Right = some (3 * y + 2) := by
      simp only [nbr]; rw [if_pos (by omega)]
    simp only [middle] at k
    obtain rfl : d = .Down := by
      have := move_nbr k.1
      cases d <;> simp only [nbr, Option.ite_none_right_eq_some, Option.some.injEq] at this <;> first | rfl | omega
    have aw : Away 3 (m + 1) g (3 * y + 1) .Down := ⟨_, k⟩
    have low := up (y + 2) (m + 1) (by omega) (Nat.le_refl _)
    simp only [middle] at low
    have bD := away_beyond hT aw
    have bL : Beyond 3 (m + 1) g (3 * y + 1) .Down .Left :=
      ⟨_, _, nD, nL, onRoute_trans hT low (side _ _ (by omega) rfl ⟨by omega, by omega⟩)⟩
    have bR : Beyond 3 (m + 1) g (3 * y + 1) .Down .Right :=
      ⟨_, _, nD, nR, onRoute_trans hT low (side _ _ (by omega) rfl ⟨by omega, by omega⟩)⟩
    obtain ⟨e, p, he, hp⟩ := parent_not_beyond hw hT aw (by omega)
    refine ⟨aw, ?_⟩
    have he' : e = .Up := by
      cases e
      · exact absurd bR hp
      · exact absurd bD hp
      · exact absurd bL hp
      · rfl
    subst he'
    have : ∀ e, Beyond 3 (m + 1) g (3 * y + 1) .Down e ↔ e ≠ .Up := by
      intro e
      cases e <;> simp [bR, bD, bL, hp]
    unfold beyond
    rw [Nat.card_congr (Equiv.subtypeEquivRight this), Nat.card_eq_fintype_card]
    decide
  rw [show m + 1 - 2 = Nat.card (Fin (m + 1 - 2)) by simp]
  have a' : ∀ i : Fin (m + 1 - 2), 3 * (i.1 + 1) + 1 < 3 * (m + 1) := fun i => by have := i.2; omega
  refine Nat.card_le_card_of_injective (fun i => (⟨(⟨3 * (i.1 + 1) + 1, a' i⟩, .Down), all (i.1 + 1) (by omega) (by have := i.2; omega)⟩)) ?_
  intro i j e
  have := congrArg (fun p => p.1.1.1) e
  simp only at this
  exact Fin.ext (by omega)

end Maze
