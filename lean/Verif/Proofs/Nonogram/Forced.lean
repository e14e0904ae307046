import Verif.Proofs.Nonogram.Overlap

/-! On an empty line a square with the same value in all fillings belongs to the same block or gap in all of them. -/
namespace Nonogram
open Spec

theorem blockLine_get {g a i : Nat} {T : List Bool} :
    (List.replicate g false ++ (List.replicate a true ++ T))[i]? =
      if i < g then some false else if i < g + a then some true else T[i - g - a]? := by
  split
  · rw [List.getElem?_append_left (by simpa), List.getElem?_replicate, if_pos ‹_›]
  · rw [List.getElem?_append_right (by simp; omega), List.length_replicate]
    split
    · rw [List.getElem?_append_left (by simp; omega), List.getElem?_replicate, if_pos (by omega)]
    · rw [List.getElem?_append_right (by simp; omega), List.length_replicate]

/-- Moving the first block to the left uncovers position `i`, or covers it. -/
theorem first_block {a g i : Nat} (ha : 0 < a) {T : List Bool}
    (h : ∀ g' ≤ g, (List.replicate g' false ++ (List.replicate a true ++ (List.replicate (g - g') false ++ T)))[i]? =
      (List.replicate g false ++ (List.replicate a true ++ T))[i]?) :
    (i < a → g ≤ i) ∧ (a ≤ i → g + a ≤ i) := by
  have left : ¬ i < g := by
    intro hg
    have := h i (by omega)
    rw [blockLine_get, blockLine_get, if_neg (by omega), if_pos (by omega), if_pos hg] at this
    cases this
  refine ⟨fun _ => by omega, fun hi => ?_⟩
  by_contra hn
  have := h (i - a) (by omega)
  rw [blockLine_get, blockLine_get, if_neg (by omega), if_neg (by omega), if_neg left, if_pos (by omega),
    List.getElem?_append_left (by simp; omega), List.getElem?_replicate, if_pos (by omega)] at this
  cases this

theorem blk_pad {g k : Nat} {ys : List Bool} : blk (List.replicate g false ++ ys) (g + k) = blk ys k := by
  unfold blk
  rw [List.take_append, List.take_replicate, Nat.min_eq_right (by omega), List.length_replicate,
    show g + k + 1 - g = k + 1 by omega, changes_append, changes_replicate, lastB_replicate]
  simp

theorem blk_gap {g i : Nat} (h : i < g) {ys : List Bool} : blk (List.replicate g false ++ ys) i = 0 := by
  unfold blk
  rw [List.take_append_of_le_length (by simp; omega), List.take_replicate, changes_replicate]
  simp

theorem blk_after {a g : Nat} (ha : 0 < a) {ys : List Bool} :
    blk (List.replicate g false ++ (List.replicate a true ++ false :: ys)) (g + a) = 2 := by
  unfold blk
  rw [List.take_append, List.take_append, List.take_replicate, List.take_replicate, List.length_replicate, List.length_replicate,
    show g + a + 1 - g - a = 1 by omega, Nat.min_eq_right (by omega), Nat.min_eq_right (by omega), changes_append, changes_append,
    changes_replicate, changes_replicate, lastB_replicate, lastB_replicate]
  have : a ≠ 0 := by omega
  by_cases hg : g = 0 <;> simp [hg, this, changes]

theorem replicate_cons_comm (k : Nat) (ys : List Bool) :
    List.replicate k false ++ false :: ys = false :: (List.replicate k false ++ ys) := by
  rw [← List.singleton_append, ← List.append_assoc, ← List.replicate_succ', List.replicate_succ]; rfl

theorem forced_blk {rule : List Nat} {n i : Nat} (hi : i < n)
    (hall : ∀ xs ys : List Bool, xs.length = n → ys.length = n → Follows rule xs → Follows rule ys → xs[i]? = ys[i]?)
    {xs ys : List Bool} (hx : xs.length = n) (hy : ys.length = n) (fx : Follows rule xs) (fy : Follows rule ys) :
    blk xs i = blk ys i := by
  induction rule generalizing n i xs ys with
  | nil =>
    obtain ⟨g, rfl⟩ := fx
    obtain ⟨k, rfl⟩ := fy
    simp only [List.length_replicate] at hx hy
    rw [hx, hy]
  | cons a r ih =>
    cases r with
    | nil =>
      rcases Nat.eq_zero_or_pos a with rfl | ha
      · obtain ⟨g, k, rfl⟩ := fx
        obtain ⟨g', k', rfl⟩ := fy
        simp only [List.replicate_zero, List.nil_append, List.replicate_append_replicate, List.length_replicate] at hx hy ⊢
        rw [hx, hy]
      · have key : ∀ g k : Nat, g + (a + k) = n → (i < a → g ≤ i) ∧ (a ≤ i → g + a ≤ i) := by
          intro g k hl
          refine first_block ha (T := List.replicate k false) fun g' hg' => ?_
          refine hall _ _ (by simp; omega) (by simp; omega) ⟨g', g - g' + k, ?_⟩ ⟨g, k, rfl⟩
          rw [List.replicate_append_replicate]
        have val : ∀ g k : Nat, g + (a + k) = n →
            blk (List.replicate g false ++ (List.replicate a true ++ List.replicate k false)) i = if i < a then 1 else 2 := by
          intro g k hl
          have hk := key g k hl
          split
          · exact blk_first (hk.1 ‹_›) (by omega)
          · have h1 := hk.2 (by omega)
            obtain ⟨k, rfl⟩ : ∃ k', k = k' + 1 := ⟨k - 1, by omega⟩
            rw [List.replicate_succ]
            by_cases h2 : i = g + a
            · rw [h2]; exact blk_after ha
            · obtain ⟨t, rfl⟩ : ∃ t, i = g + a + 1 + t := ⟨i - (g + a + 1), by omega⟩
              rw [blk_later, if_neg (by omega)]
              have := blk_gap (show t < k by omega) (ys := [])
              rw [List.append_nil] at this
              rw [this]
        obtain ⟨g, k, rfl⟩ := fx
        obtain ⟨g', k', rfl⟩ := fy
        simp only [List.length_append, List.length_replicate] at hx hy
        rw [val g k hx, val g' k' hy]
    | cons b r =>
      rcases Nat.eq_zero_or_pos a with rfl | ha
      · obtain ⟨g, u, rfl, fu⟩ := fx
        obtain ⟨g', u', rfl, fu'⟩ := fy
        simp only [List.replicate_zero, List.nil_append, replicate_cons_comm, List.length_cons] at hx hy ⊢
        cases i with
        | zero =>
          have : ∀ l, blk (false :: l) 0 = 0 := fun l => blk_gap (g := 1) (by omega)
          rw [this, this]
        | succ i =>
          have : ∀ l, blk (false :: l) (i + 1) = blk l i := fun l => by
            have := blk_pad (g := 1) (k := i) (ys := l)
            rwa [Nat.add_comm 1 i] at this
          rw [this, this]
          refine ih (n := n - 1) (by omega) (fun xs ys h1 h2 f1 f2 => ?_) (by omega) (by omega) (follows_pad g fu) (follows_pad g' fu')
          exact hall (false :: xs) (false :: ys) (by simp; omega) (by simp; omega) ⟨0, xs, rfl, f1⟩ ⟨0, ys, rfl, f2⟩
      · have key : ∀ g u, g + (a + (u.length + 1)) = n → Follows (b :: r) u → (i < a → g ≤ i) ∧ (a ≤ i → g + a ≤ i) := by
          intro g u hl fu
          refine first_block ha (T := false :: u) fun g' hg' => ?_
          refine hall _ _ (by simp; omega) (by simp; omega) ⟨g', List.replicate (g - g') false ++ u, ?_, follows_pad _ fu⟩ ⟨g, u, rfl, fu⟩
          rw [replicate_cons_comm]
        have val : ∀ g u, g + (a + (u.length + 1)) = n → Follows (b :: r) u →
            blk (List.replicate g false ++ (List.replicate a true ++ false :: u)) i =
              if i < a then 1 else if i = a then 2 else 2 + blk (List.replicate g false ++ u) (i - a - 1) := by
          intro g u hl fu
          have hk := key g u hl fu
          split
          · exact blk_first (hk.1 ‹_›) (by omega)
          · have h1 := hk.2 (by omega)
            split
            · obtain rfl : g = 0 := by omega
              rw [show i = 0 + a by omega]; exact blk_after ha
            · by_cases h2 : i = g + a
              · rw [h2, blk_after ha, blk_gap (by omega)]
              · obtain ⟨t, rfl⟩ : ∃ t, i = g + a + 1 + t := ⟨i - (g + a + 1), by omega⟩
                rw [blk_later, if_neg (by omega), show g + a + 1 + t - a - 1 = g + t by omega, blk_pad]
        obtain ⟨g, u, rfl, fu⟩ := fx
        obtain ⟨g', u', rfl, fu'⟩ := fy
        simp only [List.length_append, List.length_replicate, List.length_cons] at hx hy
        rw [val g u hx fu, val g' u' hy fu']
        by_cases h1 : i < a
        · simp only [if_pos h1]
        by_cases h2 : i = a
        · simp only [if_neg h1, if_pos h2]
        simp only [if_neg h1, if_neg h2]
        congr 1
        refine ih (n := n - a - 1) (by omega) (fun xs ys h3 h4 f1 f2 => ?_) (by simp; omega) (by simp; omega) (follows_pad g fu)
          (follows_pad g' fu')
        have := hall (List.replicate 0 false ++ (List.replicate a true ++ false :: xs))
          (List.replicate 0 false ++ (List.replicate a true ++ false :: ys)) (by simp; omega) (by simp; omega) ⟨0, xs, rfl, f1⟩
          ⟨0, ys, rfl, f2⟩
        rw [blockLine_get, blockLine_get, if_neg (by omega), if_neg (by omega), if_neg (by omega), if_neg (by omega),
          show i - 0 - a = (i - a - 1) + 1 by omega, List.getElem?_cons_succ, List.getElem?_cons_succ] at this
        exact this

end Nonogram
