import Verif.Proofs.Maze.OddsSum

/-! Helper lemmas: mazes with and without passages beyond which three neighbours lie. -/
namespace Maze
open Spec

variable {w h : Nat} {g : List MazeNode}

theorem beyond_le {c : Nat} {d e1 e2 : MazeDirection} (hne : e1 ≠ e2) (h1 : ¬ Beyond w h g c d e1)
    (h2 : ¬ Beyond w h g c d e2) : beyond w h g c d ≤ 2 := by
  have hc : Nat.card {e : MazeDirection // e ≠ e1 ∧ e ≠ e2} = 2 := by
    rw [Nat.card_eq_fintype_card]
    revert hne
    cases e1 <;> cases e2 <;> decide
  rw [beyond, ← hc]
  refine Nat.card_le_card_of_injective (fun e => ⟨e.1, ?_, ?_⟩) ?_
  · rintro rfl; exact h1 e.2
  · rintro rfl; exact h2 e.2
  · intro a b e
    exact Subtype.ext (congrArg (fun x => x.1) e)

theorem not_beyond_none {c : Nat} {d e : MazeDirection} (H : nbr w h c e = none) : ¬ Beyond w h g c d e := by
  rintro ⟨u, v, _, h2, _⟩
  rw [H] at h2
  cases h2

/-- The neighbour from which a cell is entered does not lie beyond it. -/
theorem parent_not_beyond (hw : 0 < w) (hT : (graph w h g).IsTree) {c : Nat} {d : MazeDirection} (hd : Away w h g c d)
    (hc0 : c ≠ 0) : ∃ e p, nbr w h c e = some p ∧ ¬ Beyond w h g c d e := by
  obtain ⟨u, hm, hr⟩ := hd
  have hc := (onRoute_lt hr).1
  have h0 : 0 < w * h := by omega
  obtain ⟨p, hp⟩ := Anc.parent (r := (⟨0, h0⟩ : Fin (w * h))) hT.connected (u := ⟨c, hc⟩) (by simpa using hc0)
  obtain ⟨e, he⟩ := adj_nbr hp.adj.symm hw
  refine ⟨e, p, he, ?_⟩
  rintro ⟨u', v, h1, h2, h3⟩
  obtain rfl : u' = u := Option.some.inj (h1.symm.trans (move_nbr hm))
  obtain rfl : p.1 = v := Option.some.inj (he.symm.trans h2)
  exact hp.adj.ne (Fin.ext (onRoute_antisymm hT ⟨h0, p.2, hc, hp.anc⟩ (onRoute_trans hT hr h3)))

/-- With two rows or two columns no three neighbours of a cell lie beyond one of its passages. -/
theorem thin_beyond (hw : 0 < w) (hT : (graph w h g).IsTree) (hs : w ≤ 2 ∨ h ≤ 2) {c : Nat} {d : MazeDirection}
    (hd : Away w h g c d) : beyond w h g c d ≤ 2 := by
  have hc := (onRoute_lt hd.choose_spec.2).1
  by_cases hc0 : c = 0
  · subst hc0
    exact beyond_le (e1 := .Left) (e2 := .Up) (by decide) (not_beyond_none (by simp [nbr]))
      (not_beyond_none (by simp [nbr]; omega))
  · obtain ⟨e, p, he, hp⟩ := parent_not_beyond hw hT hd hc0
    have : ∃ e', nbr w h c e' = none := by
      rcases hs with hs | hs
      · by_cases hx : c % w + 1 < w
        · exact ⟨.Left, by simp [nbr]; omega⟩
        · exact ⟨.Right, by simp [nbr]; omega⟩
      · by_cases hx : c + w < w * h
        · refine ⟨.Up, ?_⟩
          have : w * h ≤ w * 2 := Nat.mul_le_mul_left _ hs
          simp [nbr]; omega
        · exact ⟨.Down, by simp [nbr]; omega⟩
    obtain ⟨e', he'⟩ := this
    refine beyond_le (e1 := e) (e2 := e') ?_ hp (not_beyond_none he')
    rintro rfl
    rw [he] at he'
    cases he'

theorem triples_zero (H : ∀ c d, Away w h g c d → beyond w h g c d ≤ 2) : triples w h g = 0 := by
  unfold triples
  rw [Nat.card_eq_zero]
  left
  refine ⟨?_⟩
  rintro ⟨p, h1, h2⟩
  have := H _ _ h1
  omega

/-! ### The serpentine -/

theorem ham_onRoute {pos : Nat → Nat → Nat} (H : Ham w h pos) (hw : 1 ≤ w) (hh : 1 ≤ h) {a b : Nat}
    (hr : OnRoute w h (hamGrid w h pos) a b) : pos (a % w) (a / w) ≤ pos (b % w) (b / w) := by
  obtain ⟨ha, hb⟩ := onRoute_lt hr
  have h0 : 0 < w * h := by omega
  by_contra hlt
  have L := H.line hw
  have z : pos ((⟨0, h0⟩ : Fin (w * h)).1 % w) ((⟨0, h0⟩ : Fin (w * h)).1 / w) = 0 := by simp [H.zero]
  have hr' : OnRoute w h (hamGrid w h pos) b a :=
    ⟨h0, hb, ha, L.route (a := ⟨0, h0⟩) z ⟨a, ha⟩ ⟨b, hb⟩ (by simp only; omega)⟩
  have := onRoute_antisymm (H.closed hw hh).tree hr hr'
  subst this
  omega

theorem ham_not_beyond {pos : Nat → Nat → Nat} (H : Ham w h pos) (hw : 1 ≤ w) (hh : 1 ≤ h) {c : Nat}
    {d e : MazeDirection} (hd : Away w h (hamGrid w h pos) c d)
    (he : ∀ v, nbr w h c e = some v → pos (v % w) (v / w) < pos (c % w) (c / w)) :
    ¬ Beyond w h (hamGrid w h pos) c d e := by
  rintro ⟨u', v, h1, h2, h3⟩
  obtain ⟨u, hm, hr⟩ := hd
  obtain rfl : u' = u := Option.some.inj (h1.symm.trans (move_nbr hm))
  have := ham_onRoute H hw hh (onRoute_trans (H.closed hw hh).tree hr h3)
  have := he v h2
  omega

theorem snake_triples (hw : 1 ≤ w) (hh : 1 ≤ h) : triples w h (hamGrid w h (snake w)) = 0 := by
  refine triples_zero fun c d hd => ?_
  have H := snake_ham (w := w) (h := h)
  have hc := (onRoute_lt hd.choose_spec.2).1
  have hx := Nat.mod_lt c hw
  have up : ¬ Beyond w h (hamGrid w h (snake w)) c d .Up := by
    refine ham_not_beyond H hw hh hd fun v hv => ?_
    simp only [nbr, Option.ite_none_right_eq_some, Option.some.injEq] at hv
    obtain ⟨h1, rfl⟩ := hv
    have e1 : (c - w) % w = c % w := (Nat.mod_eq_sub_mod h1).symm
    have e2 : c / w = (c - w) / w + 1 := Nat.div_eq_sub_div hw h1
    rw [e1, e2]
    simp only [snake]
    rw [Nat.mul_succ]
    split <;> split <;> omega
  by_cases hy : c / w % 2 = 0
  · refine beyond_le (e1 := .Up) (e2 := .Left) (by decide) up (ham_not_beyond H hw hh hd fun v hv => ?_)
    obtain ⟨_, h1, h2⟩ := nbr_pos hw hc hv
    simp only [vec, Int.add_zero] at h1 h2
    have h2' : v / w = c / w := by exact_mod_cast h2
    rw [h2']
    simp only [snake, hy]
    simp only [if_true]
    omega
  · refine beyond_le (e1 := .Up) (e2 := .Right) (by decide) up (ham_not_beyond H hw hh hd fun v hv => ?_)
    obtain ⟨_, h1, h2⟩ := nbr_pos hw hc hv
    simp only [vec, Int.add_zero] at h1 h2
    have h2' : v / w = c / w := by exact_mod_cast h2
    have hv := Nat.mod_lt v hw
    rw [h2']
    simp only [snake, hy]
    simp only [if_false]
    omega

/-! ### A maze that goes right and then down -/

/-- If the first two passages go right and down, three neighbours lie beyond the next one. -/
theorem hook_beyond (hw : 3 ≤ w) (hh : 3 ≤ h) (hT : (graph w h g).IsTree) (hD : DepthFirst w h g)
    (h1 : move w h g 0 .Right = some 1) (h2 : move w h g 1 .Down = some (w + 1)) : triples w h g ≠ 0 := by
  have hw' : 0 < w := by omega
  have hwh : w * 3 ≤ w * h := Nat.mul_le_mul_left _ hh
  have h0 : 0 < w * h := by omega
  have k1 : Kid w h g 0 .Right 1 := ⟨h1, onRoute_root hT (by omega)⟩
  have a0 : ∀ x, OnRoute w h g x 0 → x = 0 := fun x hx => onRoute_antisymm hT hx (onRoute_root hT (onRoute_lt hx).1)
  have a1 : ∀ x, OnRoute w h g x 1 → x = 1 ∨ x = 0 := fun x hx => (k1.before hw' hT hx).imp id (a0 x)
  have k2 : Kid w h g 1 .Down (w + 1) := by
    rcases kid_of_move hw' hT (by omega) h2 with hk | hk
    · exact hk
    · rcases a1 _ hk with e | e <;> omega
  have a2 : ∀ x, OnRoute w h g x (w + 1) → x = w + 1 ∨ x = 1 ∨ x = 0 := fun x hx =>
    (k2.before hw' hT hx).imp id (a1 x)
  have m1 : (w + 1) % w = 1 := by rw [Nat.add_mod_left, Nat.mod_eq_of_lt (by omega)]
  have nD : nbr w h (w + 1) .Down = some (2 * w + 1) := by
    simp only [nbr]
    rw [if_pos (by omega)]
    congr 1
    omega
  have nR : nbr w h (w + 1) .Right = some (w + 2) := by
    simp only [nbr, m1]
    rw [if_pos (by omega)]
  have nL : nbr w h (w + 1) .Left = some w := by
    simp only [nbr, m1]
    rw [if_pos (by omega)]
    rfl
  have b0 : OnRoute w h g (w + 1) (2 * w + 1) := by
    rcases hD _ _ _ (by omega) nD with hb | hb
    · exact hb
    · rcases a2 _ hb with e | e | e <;> omega
  obtain ⟨d, u, k3, hu⟩ := onRoute_next hw' b0 (by omega)
  have a3 : ∀ x, OnRoute w h g x u → x = u ∨ x = w + 1 ∨ x = 1 ∨ x = 0 := fun x hx =>
    (k3.before hw' hT hx).imp id (a2 x)
  let R : Nat → Prop := fun x => x ≠ 0 ∧ x ≠ 1 ∧ x ≠ w + 1
  -- neighbours away from the first three cells lie beyond `u` together
  have half : ∀ x y, R x → (OnRoute w h g x y ∨ OnRoute w h g y x) → OnRoute w h g u y → OnRoute w h g u x := by
    rintro x y ⟨r0, r1, r2⟩ hxy hy
    rcases hxy with hxy | hxy
    · obtain ⟨_, hx', hy', p⟩ := hxy
      obtain ⟨_, hu', _, q⟩ := hy
      rcases Anc.chain hT.isAcyclic p q with e | e
      · rcases a3 x ⟨_, _, _, e⟩ with rfl | e | e | e
        · exact onRoute_refl hT hu'
        · exact absurd e r2
        · exact absurd e r1
        · exact absurd e r0
      · exact ⟨_, _, _, e⟩
    · exact onRoute_trans hT hy hxy
  have step : ∀ x y d, x < w * h → nbr w h x d = some y → R x → R y → (OnRoute w h g u x ↔ OnRoute w h g u y) := by
    intro x y d hx hd rx ry
    have hc := hD x y d hx hd
    exact ⟨half y x ry hc.symm, half x y rx hc⟩
  have last : ∀ n x, x < w * h → w * h - x = n → R x → (OnRoute w h g u x ↔ OnRoute w h g u (w * h - 1)) := by
    intro n
    induction n using Nat.strongRecOn with
    | ind n ih =>
      intro x hx hn rx
      by_cases hd : x + w < w * h
      · have ry : R (x + w) := ⟨by omega, by omega, by have := rx.2.1; omega⟩
        rw [step x (x + w) .Down hx (by simp [nbr, hd]) rx ry]
        exact ih (w * h - (x + w)) (by omega) _ hd rfl ry
      · by_cases hr : x % w + 1 < w
        · have ry : R (x + 1) := ⟨by omega, by omega, by omega⟩
          rw [step x (x + 1) .Right hx (by simp [nbr, hr]) rx ry]
          exact ih (w * h - (x + 1)) (by omega) _ (succ_lt_of_mod hx hr) rfl ry
        · have : x = w * h - 1 := by
            have e1 := Nat.div_add_mod x w
            have e2 := Nat.mod_lt x hw'
            have e3 : h ≤ x / w + 1 := by
              by_contra hlt
              have : w * (x / w + 2) ≤ w * h := Nat.mul_le_mul_left _ (by omega)
              rw [Nat.mul_add] at this
              omega
            have : w * h ≤ w * (x / w + 1) := Nat.mul_le_mul_left _ e3
            rw [Nat.mul_succ] at this
            omega
          rw [← this]
  have all : ∀ x, x < w * h → R x → OnRoute w h g u x := by
    intro x hx rx
    rw [last _ x hx rfl rx, ← last _ (2 * w + 1) (by omega) rfl ⟨by omega, by omega, by omega⟩]
    exact hu
  have hw1 : w + 1 < w * h := by omega
  have bey : ∀ e, Beyond w h g (w + 1) d e ↔ e ≠ .Up := by
    intro e
    constructor
    · rintro ⟨u', v, n1, n2, n3⟩ rfl
      obtain rfl : u' = u := Option.some.inj (n1.symm.trans (move_nbr k3.1))
      simp only [nbr, Option.ite_none_right_eq_some, Option.some.injEq] at n2
      obtain rfl : v = 1 := by omega
      have := a1 _ (onRoute_trans hT k3.2 n3)
      omega
    · intro he
      cases e
      · exact ⟨u, _, move_nbr k3.1, nR, all _ (by omega) ⟨by omega, by omega, by omega⟩⟩
      · exact ⟨u, _, move_nbr k3.1, nD, hu⟩
      · exact ⟨u, _, move_nbr k3.1, nL, all _ (by omega) ⟨by omega, by omega, by omega⟩⟩
      · exact absurd rfl he
  have hb3 : beyond w h g (w + 1) d = 3 := by
    rw [beyond, Nat.card_congr (Equiv.subtypeEquivRight bey), Nat.card_eq_fintype_card]
    decide
  unfold triples
  rw [Nat.card_ne_zero]
  exact ⟨⟨⟨(⟨w + 1, hw1⟩, d), ⟨u, k3⟩, hb3⟩⟩, inferInstance⟩

end Maze
