import Verif.Proofs.Maze.OddsCount
import Verif.Proofs.Maze.Snake

/-! Helper lemmas: the product `odds` is made of twos and threes. -/
namespace Maze
open Spec

variable {w h : Nat} {g : List MazeNode}

instance : Fintype MazeDirection := ⟨directions.toFinset, by intro x; cases x <;> decide⟩

theorem sum_pairs (n : Nat) (P : Nat → MazeDirection → Bool) :
    ∑ c ∈ Finset.range n, directions.countP (P c) = Nat.card {p : Fin n × MazeDirection // P p.1 p.2 = true} := by
  rw [← Fin.sum_univ_eq_sum_range (fun c => directions.countP (P c)) n]
  have : ∀ c : Fin n, directions.countP (P c) = Nat.card {e // P c e = true} := fun c => (card_dirs _).symm
  rw [Finset.sum_congr rfl fun c _ => this c, ← Nat.card_sigma]
  refine Nat.card_congr ⟨fun p => ⟨(p.1, p.2.1), p.2.2⟩, fun p => ⟨p.1.1, p.1.2, p.2⟩, ?_, ?_⟩
  · intro p; rfl
  · intro p; rfl

theorem marks_table : ∀ a ∈ markValues, ∀ b ∈ markValues, ∀ c ∈ markValues, ∀ d ∈ markValues,
    (∀ e ∈ directions, (marks a b c d e).all fun x => marks a b c d x = some x) →
    (∃ e ∈ directions, marks a b c d e = none) →
    (directions.map fun x => if marks a b c d x = some x then directions.countP fun e => marks a b c d e = some x
        else 1).prod *
      4 ^ directions.countP (fun x => marks a b c d x = some x ∧ (directions.countP fun e => marks a b c d e = some x) = 3) *
      2 ^ directions.countP (fun x => marks a b c d x = some x) =
    2 ^ directions.countP (fun e => (marks a b c d e).isSome) *
      3 ^ directions.countP (fun x => marks a b c d x = some x ∧ (directions.countP fun e => marks a b c d e = some x) = 3) := by
  decide +kernel

theorem marks_powers (lab : MazeDirection → Option MazeDirection)
    (hl : ∀ e x, lab e = some x → lab x = some x) (hn : ∃ e, lab e = none) :
    (directions.map fun x => if lab x = some x then directions.countP fun e => lab e = some x else 1).prod *
      4 ^ directions.countP (fun x => lab x = some x ∧ (directions.countP fun e => lab e = some x) = 3) *
      2 ^ directions.countP (fun x => lab x = some x) =
    2 ^ directions.countP (fun e => (lab e).isSome) *
      3 ^ directions.countP (fun x => lab x = some x ∧ (directions.countP fun e => lab e = some x) = 3) := by
  have e : lab = marks (lab .Right) (lab .Down) (lab .Left) (lab .Up) := by funext x; cases x <;> rfl
  have hm : ∀ x, lab x ∈ markValues := by
    intro x
    cases lab x with
    | none => simp [markValues]
    | some d => cases d <;> simp [markValues]
  have := marks_table _ (hm .Right) _ (hm .Down) _ (hm .Left) _ (hm .Up)
  rw [← e] at this
  refine this (fun x _ => ?_) ?_
  · cases hx : lab x with
    | none => rfl
    | some d => simpa using hl x d hx
  · obtain ⟨x, hx⟩ := hn
    exact ⟨x, by cases x <;> decide, hx⟩

theorem mark_self (hw : 0 < w) (hT : (graph w h g).IsTree) {c : Nat} {d : MazeDirection} :
    mark w h g c d = some d ↔ Away w h g c d := by
  rw [mark_iff hw hT]
  exact ⟨fun h => h.1, fun h => ⟨h, away_beyond hT h⟩⟩

theorem mark_idem (hw : 0 < w) (hT : (graph w h g).IsTree) {c : Nat} {e d : MazeDirection}
    (H : mark w h g c e = some d) : mark w h g c d = some d :=
  (mark_self hw hT).mpr ((mark_iff hw hT).mp H).1

theorem beyond_mark (hw : 0 < w) (hT : (graph w h g).IsTree) {c : Nat} {d : MazeDirection} (hd : Away w h g c d) :
    beyond w h g c d = directions.countP fun e => mark w h g c e = some d := by
  rw [beyond, ← card_dirs]
  refine Nat.card_congr (Equiv.subtypeEquivRight fun e => ?_)
  rw [decide_eq_true_eq, mark_iff hw hT]
  exact ⟨fun h => ⟨hd, h⟩, fun h => h.2⟩

theorem nbr_ne (hw : 0 < w) {c v : Nat} {e : MazeDirection} (h1 : nbr w h c e = some v) : v ≠ c := by
  have z : 0 < c % w → 0 < c := fun h => by
    rcases Nat.eq_zero_or_pos c with e | e
    · subst e; simp at h
    · exact e
  cases e <;> simp only [nbr, Option.ite_none_right_eq_some, Option.some.injEq] at h1 <;> omega

/-- The neighbours that lie beyond a cell. -/
theorem mark_some (hw : 0 < w) (hT : (graph w h g).IsTree) {c : Nat} {e : MazeDirection} (hc : c < w * h) :
    (mark w h g c e).isSome = true ↔ ∃ v, nbr w h c e = some v ∧ OnRoute w h g c v := by
  rw [Option.isSome_iff_exists]
  constructor
  · rintro ⟨d, hd⟩
    obtain ⟨⟨u, k1, k2⟩, u1, v, n1, n2, r⟩ := (mark_iff hw hT).mp hd
    obtain rfl : u1 = u := Option.some.inj (n1.symm.trans (move_nbr k1))
    exact ⟨v, n2, onRoute_trans hT k2 r⟩
  · rintro ⟨v, h1, h2⟩
    have hne : c ≠ v := by
      rintro rfl
      exact nbr_ne hw h1 rfl
    obtain ⟨d, u, hk, hr⟩ := onRoute_next hw h2 hne
    exact ⟨d, (mark_iff hw hT).mpr ⟨⟨u, hk⟩, u, v, move_nbr hk.1, h1, hr⟩⟩

/-- Some direction does not lead to a cell beyond. -/
theorem mark_none (hw : 0 < w) (hT : (graph w h g).IsTree) {c : Nat} (hc : c < w * h) : ∃ e, mark w h g c e = none := by
  by_cases e : c = 0
  · subst e
    refine ⟨.Left, ?_⟩
    rw [← Option.not_isSome_iff_eq_none, mark_some hw hT hc]
    simp [nbr]
  · have h0 : 0 < w * h := by omega
    obtain ⟨p, hp⟩ := Anc.parent (r := (⟨0, h0⟩ : Fin (w * h))) hT.connected (u := ⟨c, hc⟩) (by simpa using e)
    obtain ⟨d, hd⟩ := adj_nbr hp.adj.symm hw
    refine ⟨d, ?_⟩
    rw [← Option.not_isSome_iff_eq_none, mark_some hw hT hc]
    rintro ⟨v, h1, h2⟩
    obtain rfl : p.1 = v := Option.some.inj (hd.symm.trans h1)
    exact hp.adj.ne (Fin.ext (onRoute_antisymm hT ⟨h0, p.2, hc, hp.anc⟩ h2))

/-- Every cell but the first has exactly one passage that leads to it from the side of cell 0. -/
theorem away_count (hw : 0 < w) (h0 : 0 < w * h) (hT : (graph w h g).IsTree) :
    Nat.card {p : Fin (w * h) × MazeDirection // Away w h g p.1 p.2} + 1 = w * h := by
  classical
  have : Nat.card {p : Fin (w * h) × MazeDirection // Away w h g p.1 p.2} =
      Nat.card {u : Fin (w * h) // u ≠ ⟨0, h0⟩} := by
    refine Nat.card_congr (Equiv.ofBijective (fun p => ⟨⟨p.2.choose, (onRoute_lt p.2.choose_spec.2).2⟩, ?_⟩) ⟨?_, ?_⟩)
    · intro e
      have e' : p.2.choose = 0 := congrArg Fin.val e
      have hk : Kid w h g p.1.1 p.1.2 p.2.choose := p.2.choose_spec
      rw [e'] at hk
      exact hk.ne hw (onRoute_antisymm hT hk.2 (onRoute_root hT p.1.1.2))
    · intro p q e
      have e' : p.2.choose = q.2.choose := congrArg (fun x => x.1.1) e
      have k1 : Kid w h g p.1.1 p.1.2 p.2.choose := p.2.choose_spec
      have k2 : Kid w h g q.1.1 q.1.2 q.2.choose := q.2.choose_spec
      rw [← e'] at k2
      obtain ⟨_, _, _, c1⟩ := k1.child hw
      obtain ⟨_, _, _, c2⟩ := k2.child hw
      have ec : p.1.1 = q.1.1 := Child.parent hT c1 c2
      refine Subtype.ext (Prod.ext ec ?_)
      rw [← ec] at k2
      exact nbr_inj hw (move_nbr k1.1) (move_nbr k2.1)
    · rintro ⟨u, hu⟩
      obtain ⟨p, hp⟩ := Anc.parent (r := (⟨0, h0⟩ : Fin (w * h))) hT.connected hu
      obtain ⟨d, hd⟩ := Child.kid hw hp
      refine ⟨⟨(p, d), u, hd⟩, Subtype.ext (Fin.ext ?_)⟩
      have ex : ∃ v, move w h g p d = some v ∧ OnRoute w h g p v := ⟨u, hd⟩
      exact Option.some.inj (ex.choose_spec.1.symm.trans hd.1)
  rw [this, Nat.card_eq_fintype_card, Fintype.card_subtype_compl]
  simp
  omega

/-- The pairs of neighbouring cells. -/
theorem grid_count (hw : 0 < w) (hh : 0 < h) :
    Nat.card {c : Fin (w * h) // c.1 % w + 1 < w} = (w - 1) * h ∧ Nat.card {c : Fin (w * h) // c.1 + w < w * h} = w * (h - 1) := by
  constructor
  · rw [show (w - 1) * h = Nat.card (Fin (w - 1) × Fin h) by simp]
    have hm : ∀ p : Fin (w - 1) × Fin h, (w * p.2.1 + p.1.1) % w + 1 < w := by
      intro p
      have := p.1.2
      rw [Nat.mul_add_mod, Nat.mod_eq_of_lt (by omega)]
      omega
    refine (Nat.card_congr (Equiv.ofBijective
      (fun p => ⟨⟨w * p.2.1 + p.1.1, digits_lt p.2.2 (by have := p.1.2; omega)⟩, hm p⟩) ⟨?_, ?_⟩)).symm
    · rintro ⟨⟨x, hx⟩, ⟨y, hy⟩⟩ ⟨⟨x', hx'⟩, ⟨y', hy'⟩⟩ e
      have e' : w * y + x = w * y' + x' := congrArg (fun z => z.1.1) e
      obtain ⟨rfl, rfl⟩ := digits_inj (by omega) (by omega) e'
      rfl
    · rintro ⟨⟨c, hc⟩, hm⟩
      simp only at hm
      refine ⟨(⟨c % w, by omega⟩, ⟨c / w, Nat.div_lt_of_lt_mul hc⟩), ?_⟩
      exact Subtype.ext (Fin.ext (Nat.div_add_mod c w))
  · rw [show w * (h - 1) = Nat.card (Fin (w * (h - 1))) by simp]
    refine Nat.card_congr ⟨fun c => ⟨c.1.1, (lt_mul_pred hh).mp c.2⟩, fun c => ⟨⟨c.1, ?_⟩, (lt_mul_pred hh).mpr c.2⟩, ?_, ?_⟩
    · have := (lt_mul_pred (w := w) hh).mpr c.2; omega
    · intro c; rfl
    · intro c; rfl

/-- Of every pair of neighbouring cells one lies beyond the other. -/
theorem edge_count (hw : 0 < w) (hh : 0 < h) (hT : (graph w h g).IsTree) (hD : DepthFirst w h g) :
    Nat.card {p : Fin (w * h) × MazeDirection // ∃ v, nbr w h p.1 p.2 = some v ∧ OnRoute w h g p.1 v} =
      (w - 1) * h + w * (h - 1) := by
  rw [← (grid_count hw hh).1, ← (grid_count hw hh).2, ← Nat.card_sum]
  symm
  have cR : ∀ c : {c : Fin (w * h) // c.1 % w + 1 < w}, nbr w h c.1 .Right = some (c.1.1 + 1) := fun c => by
    simp [nbr, c.2]
  have cL : ∀ c : {c : Fin (w * h) // c.1 % w + 1 < w}, nbr w h (c.1.1 + 1) .Left = some c.1 := fun c => by
    have : (c.1.1 + 1) % w = c.1.1 % w + 1 := by
      have := c.2
      rw [Nat.add_mod, Nat.mod_eq_of_lt (show 1 < w by omega), Nat.mod_eq_of_lt this]
    simp [nbr, this]
  have cD : ∀ c : {c : Fin (w * h) // c.1 + w < w * h}, nbr w h c.1 .Down = some (c.1.1 + w) := fun c => by
    simp [nbr, c.2]
  have cU : ∀ c : {c : Fin (w * h) // c.1 + w < w * h}, nbr w h (c.1.1 + w) .Up = some c.1 := fun c => by
    simp [nbr]
  have anti : ∀ {a b : Nat}, OnRoute w h g a b → OnRoute w h g b a → a = b := fun h1 h2 => onRoute_antisymm hT h1 h2
  classical
  let F : {c : Fin (w * h) // c.1 % w + 1 < w} ⊕ {c : Fin (w * h) // c.1 + w < w * h} →
      {p : Fin (w * h) × MazeDirection // ∃ v, nbr w h p.1 p.2 = some v ∧ OnRoute w h g p.1 v} := fun s =>
    match s with
    | .inl c => if H : OnRoute w h g c.1 (c.1.1 + 1) then ⟨(c.1, .Right), _, cR c, H⟩ else
        ⟨(⟨c.1 + 1, succ_lt_of_mod c.1.2 c.2⟩, .Left), _, cL c, (hD _ _ _ c.1.2 (cR c)).resolve_left H⟩
    | .inr c => if H : OnRoute w h g c.1 (c.1.1 + w) then ⟨(c.1, .Down), _, cD c, H⟩ else
        ⟨(⟨c.1 + w, c.2⟩, .Up), _, cU c, (hD _ _ _ c.1.2 (cD c)).resolve_left H⟩
  refine Nat.card_congr (Equiv.ofBijective F ⟨?_, ?_⟩)
  · rintro (c | c) (c' | c') e <;> simp only [F] at e <;> split at e <;> split at e <;>
      simp only [Subtype.mk.injEq, Prod.mk.injEq, reduceCtorEq, and_false, and_true, Fin.mk.injEq] at e
    all_goals first
      | exact congrArg _ (Subtype.ext e)
      | exact congrArg _ (Subtype.ext (Fin.ext (by omega)))
  · rintro ⟨⟨c, d⟩, v, h1, h2⟩
    simp only at h1 h2
    cases d
    · simp only [nbr, Option.ite_none_right_eq_some, Option.some.injEq] at h1
      refine ⟨.inl ⟨c, h1.1⟩, ?_⟩
      simp only [F]
      rw [dif_pos (by rw [h1.2]; exact h2)]
    · simp only [nbr, Option.ite_none_right_eq_some, Option.some.injEq] at h1
      refine ⟨.inr ⟨c, h1.1⟩, ?_⟩
      simp only [F]
      rw [dif_pos (by rw [h1.2]; exact h2)]
    · simp only [nbr, Option.ite_none_right_eq_some, Option.some.injEq] at h1
      have hc : 0 < c.1 := by
        rcases Nat.eq_zero_or_pos c.1 with e | e
        · rw [e] at h1; simp at h1
        · exact e
      refine ⟨.inl ⟨⟨c.1 - 1, by have := c.2; omega⟩, mod_pred hw h1.1⟩, ?_⟩
      simp only [F]
      rw [dif_neg]
      · exact Subtype.ext (Prod.ext (Fin.ext (by simp; omega)) rfl)
      · intro H
        have : c.1 - 1 + 1 = c.1 := by omega
        rw [this, h1.2] at H
        have := anti h2 H
        omega
    · simp only [nbr, Option.ite_none_right_eq_some, Option.some.injEq] at h1
      refine ⟨.inr ⟨⟨c.1 - w, by have := c.2; omega⟩, by simp only; have := c.2; omega⟩, ?_⟩
      simp only [F]
      rw [dif_neg]
      · exact Subtype.ext (Prod.ext (Fin.ext (by simp; omega)) rfl)
      · intro H
        have : c.1 - w + w = c.1 := by omega
        rw [this, h1.2] at H
        have := anti h2 H
        omega

/-- The product `odds` has a factor 2 for every pair of neighbouring cells without passage, except that two such
pairs give together a factor 3 if they belong to the same passage. -/
theorem odds_powers (hw : 0 < w) (hh : 0 < h) (hT : (graph w h g).IsTree) (hD : DepthFirst w h g) :
    odds w h g * 4 ^ triples w h g = 2 ^ ((w - 1) * (h - 1)) * 3 ^ triples w h g := by
  classical
  have h0 : 0 < w * h := Nat.mul_pos hw hh
  have cell : ∀ c ∈ Finset.range (w * h),
      (directions.map fun d => if Away w h g c d then beyond w h g c d else 1).prod *
        4 ^ directions.countP (fun d => decide (Away w h g c d ∧ beyond w h g c d = 3)) *
        2 ^ directions.countP (fun d => decide (Away w h g c d)) =
      2 ^ directions.countP (fun e => decide (∃ v, nbr w h c e = some v ∧ OnRoute w h g c v)) *
        3 ^ directions.countP (fun d => decide (Away w h g c d ∧ beyond w h g c d = 3)) := by
    intro c hc
    have hc := Finset.mem_range.mp hc
    have := marks_powers (mark w h g c) (fun e x hx => mark_idem hw hT hx) (mark_none hw hT hc)
    have e1 : (fun d => if Away w h g c d then beyond w h g c d else 1) =
        fun x => if mark w h g c x = some x then directions.countP fun e => mark w h g c e = some x else 1 := by
      funext d
      by_cases hd : Away w h g c d
      · rw [if_pos hd, if_pos ((mark_self hw hT).mpr hd), beyond_mark hw hT hd]
      · rw [if_neg hd, if_neg (fun h => hd ((mark_self hw hT).mp h))]
    have e2 : (fun d => decide (Away w h g c d ∧ beyond w h g c d = 3)) =
        fun x => decide (mark w h g c x = some x ∧ (directions.countP fun e => mark w h g c e = some x) = 3) := by
      funext d
      rw [decide_eq_decide, mark_self hw hT]
      refine and_congr_right fun hd => ?_
      rw [beyond_mark hw hT hd]
    have e3 : (fun d => decide (Away w h g c d)) = fun x => decide (mark w h g c x = some x) := by
      funext d
      rw [decide_eq_decide, mark_self hw hT]
    have e4 : (fun e => decide (∃ v, nbr w h c e = some v ∧ OnRoute w h g c v)) = fun e => (mark w h g c e).isSome := by
      funext d
      rw [Bool.eq_iff_iff, decide_eq_true_eq, mark_some hw hT hc]
    rw [e1, e2, e3, e4]
    exact this
  have all := Finset.prod_congr rfl cell
  rw [Finset.prod_mul_distrib, Finset.prod_mul_distrib, Finset.prod_mul_distrib, Finset.prod_pow_eq_pow_sum,
    Finset.prod_pow_eq_pow_sum, Finset.prod_pow_eq_pow_sum, Finset.prod_pow_eq_pow_sum,
    sum_pairs _ fun c d => decide (Away w h g c d ∧ beyond w h g c d = 3), sum_pairs _ fun c d => decide (Away w h g c d),
    sum_pairs _ fun c e => decide (∃ v, nbr w h c e = some v ∧ OnRoute w h g c v)] at all
  simp only [decide_eq_true_eq] at all
  rw [edge_count hw hh hT hD] at all
  have hA := away_count hw h0 hT
  have hE : (w - 1) * h + w * (h - 1) = (w - 1) * (h - 1) +
      Nat.card {p : Fin (w * h) × MazeDirection // Away w h g p.1 p.2} := by
    obtain ⟨a, rfl⟩ : ∃ a, w = a + 1 := ⟨w - 1, by omega⟩
    obtain ⟨b, rfl⟩ : ∃ b, h = b + 1 := ⟨h - 1, by omega⟩
    simp only [Nat.add_sub_cancel]
    have : (a + 1) * (b + 1) = a * b + a + b + 1 := by ring
    have e1 : a * (b + 1) = a * b + a := by ring
    have e2 : (a + 1) * b = a * b + b := by ring
    omega
  rw [hE, Nat.pow_add] at all
  refine Nat.eq_of_mul_eq_mul_right (Nat.pow_pos (n := Nat.card {p : Fin (w * h) × MazeDirection // Away w h g p.1 p.2})
    (show 0 < 2 by decide)) ?_
  calc _ = _ := all
    _ = _ := by unfold triples; ring

end Maze
