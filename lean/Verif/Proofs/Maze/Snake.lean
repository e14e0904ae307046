import Verif.Proofs.Maze.Ham

/-!
Two paths through all cells of a grid: one that reaches the last row as late as possible and one that passes through it as
early as possible.
-/
namespace Maze
open Maze.Spec

/-- Row by row, alternately to the right and to the left. -/
def snake (w x y : Nat) : Nat := w * y + if y % 2 = 0 then x else w - 1 - x

/-- Down the first column, along the last row, then row by row upwards through the remaining cells. -/
def comb (w h x y : Nat) : Nat :=
  if x = 0 then y
  else if y + 1 = h then h - 1 + x
  else w + h - 1 + ((w - 1) * (h - 2 - y) + if (h - 2 - y) % 2 = 0 then w - 1 - x else x - 1)

theorem digits_inj {k r s r' s' : Nat} (hs : s < k) (hs' : s' < k) (e : k * r + s = k * r' + s') : r = r' ∧ s = s' := by
  have h1 := congrArg (· / k) e
  have h2 := congrArg (· % k) e
  simp only [Nat.mul_add_div (show 0 < k by omega), Nat.div_eq_of_lt hs, Nat.div_eq_of_lt hs', Nat.mul_add_mod,
    Nat.mod_eq_of_lt hs, Nat.mod_eq_of_lt hs', Nat.add_zero] at h1 h2
  exact ⟨h1, h2⟩

theorem digits_lt {k r s n : Nat} (hr : r < n) (hs : s < k) : k * r + s < k * n := by
  have : k * (r + 1) ≤ k * n := Nat.mul_le_mul_left _ hr
  rw [Nat.mul_add] at this
  omega

theorem snake_ham {w h : Nat} : Ham w h (snake w) := by
  have sl : ∀ x y, x < w → (if y % 2 = 0 then x else w - 1 - x) < w := by intro x y hx; split <;> omega
  refine ⟨fun x y hx hy => digits_lt hy (sl x y hx), ?_, by simp [snake], ?_⟩
  · intro x y x' y' hx hy hx' hy' e
    obtain ⟨rfl, e2⟩ := digits_inj (sl x y hx) (sl x' y' hx') e
    split at e2 <;> omega
  · intro x y hx hy hlt
    simp only [snake] at hlt ⊢
    by_cases hp : y % 2 = 0
    · rw [if_pos hp] at hlt ⊢
      by_cases hx1 : x + 1 < w
      · exact ⟨x + 1, y, hx1, hy, by rw [if_pos hp]; omega, .inr ⟨rfl, .inl rfl⟩⟩
      · have hy1 : y + 1 < h := by
          by_contra hc
          have : h = y + 1 := by omega
          rw [this, Nat.mul_add] at hlt
          omega
        exact ⟨x, y + 1, hx, hy1, by rw [if_neg (by omega), Nat.mul_add]; omega, .inl ⟨rfl, .inl rfl⟩⟩
    · rw [if_neg hp] at hlt ⊢
      by_cases hx1 : 0 < x
      · exact ⟨x - 1, y, by omega, hy, by rw [if_neg hp]; omega, .inr ⟨rfl, .inr (by omega)⟩⟩
      · have hy1 : y + 1 < h := by
          by_contra hc
          have : h = y + 1 := by omega
          rw [this, Nat.mul_add] at hlt
          omega
        exact ⟨x, y + 1, hx, hy1, by rw [if_pos (by omega), Nat.mul_add]; omega, .inl ⟨rfl, .inl rfl⟩⟩

theorem comb_ham {w h : Nat} (hw : 1 ≤ w) (hh : 1 ≤ h) : Ham w h (comb w h) := by
  obtain ⟨k, rfl⟩ : ∃ k, w = k + 1 := ⟨w - 1, by omega⟩
  obtain ⟨m, rfl⟩ : ∃ m, h = m + 1 := ⟨h - 1, by omega⟩
  have area : (k + 1) * (m + 1) = k * m + k + m + 1 := by
    rw [Nat.add_mul, Nat.mul_add]; omega
  have c0 : ∀ y, comb (k + 1) (m + 1) 0 y = y := by intro y; simp [comb]
  have c1 : ∀ x, comb (k + 1) (m + 1) x m = m + x := by
    intro x; by_cases hx : x = 0 <;> simp [comb, hx]
  have c2 : ∀ x y, 0 < x → y < m → comb (k + 1) (m + 1) x y =
      k + m + 1 + (k * (m - 1 - y) + if (m - 1 - y) % 2 = 0 then k - x else x - 1) := by
    intro x y hx hy
    rw [comb, if_neg (by omega), if_neg (by omega), show m + 1 - 2 - y = m - 1 - y by omega]
    simp only [Nat.add_sub_cancel]
    omega
  have sl : ∀ x r, 0 < x → x < k + 1 → (if r % 2 = 0 then k - x else x - 1) < k := by intro x r _ _; split <;> omega
  have cases' : ∀ x y, x < k + 1 → y < m + 1 → x = 0 ∨ (0 < x ∧ y = m) ∨ (0 < x ∧ y < m) := by
    intro x y _ _; omega
  have blk : ∀ x y, 0 < x → x < k + 1 → y < m →
      k * (m - 1 - y) + (if (m - 1 - y) % 2 = 0 then k - x else x - 1) < k * m :=
    fun x y h1 h2 h3 => digits_lt (by omega) (sl x _ h1 h2)
  refine ⟨?_, ?_, c0 0, ?_⟩
  · intro x y hx hy
    rw [area]
    rcases cases' x y hx hy with rfl | ⟨h1, rfl⟩ | ⟨h1, h2⟩
    · rw [c0]; omega
    · rw [c1]; omega
    · rw [c2 x y h1 h2]
      have := blk x y h1 hx h2
      omega
  · intro x y x' y' hx hy hx' hy' e
    rcases cases' x y hx hy with rfl | ⟨h1, rfl⟩ | ⟨h1, h2⟩ <;>
      rcases cases' x' y' hx' hy' with rfl | ⟨h1', rfl⟩ | ⟨h1', h2'⟩ <;>
      try simp only [c0, c1] at e
    · exact ⟨rfl, e⟩
    · omega
    · rw [c2 _ _ h1' h2'] at e; omega
    · omega
    · exact ⟨by omega, rfl⟩
    · rw [c2 _ _ h1' h2'] at e; omega
    · rw [c2 _ _ h1 h2] at e; omega
    · rw [c2 _ _ h1 h2] at e; omega
    · rw [c2 _ _ h1 h2, c2 _ _ h1' h2'] at e
      obtain ⟨e1, e2⟩ := digits_inj (sl x (m - 1 - y) h1 hx) (sl x' (m - 1 - y') h1' hx') (Nat.add_left_cancel e)
      rw [e1] at e2
      split at e2 <;> omega
  · intro x y hx hy hlt
    rw [area] at hlt
    rcases cases' x y hx hy with rfl | ⟨h1, rfl⟩ | ⟨h1, h2⟩
    · rw [c0] at hlt ⊢
      by_cases hm : y = m
      · subst hm
        by_cases hk : k = 0
        · subst hk; omega
        · exact ⟨1, y, by omega, hy, by rw [c1], .inr ⟨rfl, .inl rfl⟩⟩
      · exact ⟨0, y + 1, by omega, by omega, by rw [c0], .inl ⟨rfl, .inl rfl⟩⟩
    · rw [c1] at hlt ⊢
      by_cases hk : x = k
      · subst hk
        have hy0 : 0 < y := by
          rcases Nat.eq_zero_or_pos y with rfl | h
          · simp only [Nat.mul_zero] at hlt; omega
          · exact h
        refine ⟨x, y - 1, hx, by omega, ?_, .inl ⟨rfl, .inr (by omega)⟩⟩
        rw [c2 _ _ h1 (by omega), show y - 1 - (y - 1) = 0 by omega]
        simp only [Nat.mul_zero, Nat.zero_mod, if_true]
        omega
      · exact ⟨x + 1, y, by omega, hy, by rw [c1]; omega, .inr ⟨rfl, .inl rfl⟩⟩
    · rw [c2 x y h1 h2] at hlt ⊢
      generalize hr : m - 1 - y = r at hlt ⊢
      by_cases hp : r % 2 = 0
      · rw [if_pos hp] at hlt ⊢
        by_cases hx1 : x = 1
        · subst hx1
          have hy0 : 0 < y := by
            by_contra hc
            have e : m = r + 1 := by omega
            rw [e, Nat.mul_add] at hlt
            omega
          refine ⟨1, y - 1, hx, by omega, ?_, .inl ⟨rfl, .inr (by omega)⟩⟩
          rw [c2 _ _ (by omega) (by omega), show m - 1 - (y - 1) = r + 1 by omega, if_neg (by omega), Nat.mul_add]
          omega
        · refine ⟨x - 1, y, by omega, hy, ?_, .inr ⟨rfl, .inr (by omega)⟩⟩
          rw [c2 _ _ (by omega) h2, hr, if_pos hp]
          omega
      · rw [if_neg hp] at hlt ⊢
        by_cases hx1 : x = k
        · subst hx1
          have hy0 : 0 < y := by
            by_contra hc
            have e : m = r + 1 := by omega
            rw [e, Nat.mul_add] at hlt
            omega
          refine ⟨x, y - 1, hx, by omega, ?_, .inl ⟨rfl, .inr (by omega)⟩⟩
          rw [c2 _ _ (by omega) (by omega), show m - 1 - (y - 1) = r + 1 by omega, if_pos (by omega), Nat.mul_add]
          omega
        · refine ⟨x + 1, y, by omega, hy, ?_, .inr ⟨rfl, .inl (by omega)⟩⟩
          rw [c2 _ _ (by omega) h2, hr, if_neg hp]
          omega

/-- Along the first row, then column by column from the last to the first. -/
def turn (w h x y : Nat) : Nat :=
  if y = 0 then x else w + ((h - 1) * (w - 1 - x) + if (w - 1 - x) % 2 = 0 then y - 1 else h - 1 - y)

theorem turn_ham {w h : Nat} (hw : 1 ≤ w) (hh : 1 ≤ h) : Ham w h (turn w h) := by
  obtain ⟨k, rfl⟩ : ∃ k, w = k + 1 := ⟨w - 1, by omega⟩
  obtain ⟨m, rfl⟩ : ∃ m, h = m + 1 := ⟨h - 1, by omega⟩
  have area : (k + 1) * (m + 1) = k + 1 + m * (k + 1) := by
    rw [Nat.mul_add, Nat.mul_comm m]; omega
  have c0 : ∀ x, turn (k + 1) (m + 1) x 0 = x := by intro x; simp [turn]
  have c1 : ∀ x y, 0 < y → turn (k + 1) (m + 1) x y =
      k + 1 + (m * (k - x) + if (k - x) % 2 = 0 then y - 1 else m - y) := by
    intro x y hy
    rw [turn, if_neg (by omega)]
    simp only [Nat.add_sub_cancel]
  have sl : ∀ y r, 0 < y → y < m + 1 → (if r % 2 = 0 then y - 1 else m - y) < m := by intro y r _ _; split <;> omega
  have blk : ∀ x y, 0 < y → y < m + 1 → x < k + 1 →
      m * (k - x) + (if (k - x) % 2 = 0 then y - 1 else m - y) < m * (k + 1) :=
    fun x y h1 h2 h3 => digits_lt (by omega) (sl y _ h1 h2)
  refine ⟨?_, ?_, c0 0, ?_⟩
  · intro x y hx hy
    rw [area]
    rcases Nat.eq_zero_or_pos y with rfl | h1
    · rw [c0]; omega
    · rw [c1 x y h1]
      have := blk x y h1 hy hx
      omega
  · intro x y x' y' hx hy hx' hy' e
    rcases Nat.eq_zero_or_pos y with rfl | h1 <;> rcases Nat.eq_zero_or_pos y' with rfl | h1'
    · rw [c0, c0] at e; exact ⟨e, rfl⟩
    · rw [c0, c1 _ _ h1'] at e; omega
    · rw [c0, c1 _ _ h1] at e; omega
    · rw [c1 _ _ h1, c1 _ _ h1'] at e
      obtain ⟨e1, e2⟩ := digits_inj (sl y (k - x) h1 hy) (sl y' (k - x') h1' hy') (Nat.add_left_cancel e)
      rw [e1] at e2
      have : x = x' := by omega
      split at e2 <;> omega
  · intro x y hx hy hlt
    rw [area] at hlt
    rcases Nat.eq_zero_or_pos y with rfl | h1
    · rw [c0] at hlt ⊢
      by_cases hk : x = k
      · subst hk
        have hm : 0 < m := by
          rcases Nat.eq_zero_or_pos m with rfl | h
          · simp only [Nat.zero_mul] at hlt; omega
          · exact h
        refine ⟨x, 1, hx, by omega, ?_, .inl ⟨rfl, .inl rfl⟩⟩
        rw [c1 _ _ (by omega)]
        simp
      · exact ⟨x + 1, 0, by omega, hy, c0 _, .inr ⟨rfl, .inl rfl⟩⟩
    · rw [c1 x y h1] at hlt ⊢
      generalize hr : k - x = r at hlt ⊢
      by_cases hp : r % 2 = 0
      · rw [if_pos hp] at hlt ⊢
        by_cases hy1 : y = m
        · subst hy1
          have hx0 : 0 < x := by
            by_contra hc
            have e : k = r := by omega
            rw [e, Nat.mul_add] at hlt
            omega
          refine ⟨x - 1, y, by omega, hy, ?_, .inr ⟨rfl, .inr (by omega)⟩⟩
          rw [c1 _ _ h1, show k - (x - 1) = r + 1 by omega, if_neg (by omega), Nat.mul_add]
          omega
        · refine ⟨x, y + 1, hx, by omega, ?_, .inl ⟨rfl, .inl rfl⟩⟩
          rw [c1 _ _ (by omega), hr, if_pos hp]
          omega
      · rw [if_neg hp] at hlt ⊢
        by_cases hy1 : y = 1
        · subst hy1
          have hx0 : 0 < x := by
            by_contra hc
            have e : k = r := by omega
            rw [e, Nat.mul_add] at hlt
            omega
          refine ⟨x - 1, 1, by omega, hy, ?_, .inr ⟨rfl, .inr (by omega)⟩⟩
          rw [c1 _ _ h1, show k - (x - 1) = r + 1 by omega, if_pos (by omega), Nat.mul_add]
          omega
        · refine ⟨x, y - 1, hx, by omega, ?_, .inl ⟨rfl, .inr (by omega)⟩⟩
          rw [c1 _ _ (by omega), hr, if_neg hp]
          omega

/-- Every route to the last column takes as many steps as there are columns and rows to pass. -/
theorem Result.long {w h : Nat} {g : List MazeNode} {sol : List MazeDirection} {e : Nat} (R : Result w h g sol e)
    (hw : 1 ≤ w) (hh : 1 ≤ h) : w + h - 2 ≤ sol.length := by
  have h0 : 0 < w * h := Nat.mul_pos hw hh
  have hwh : w * (h - 1) + w = w * h := by rw [← Nat.mul_succ]; congr 1; omega
  have hb : w * (h - 1) + (w - 1) < w * h := by omega
  have hd : (w * (h - 1) + (w - 1)) / w = h - 1 := by
    rw [Nat.mul_add_div hw, Nat.div_eq_of_lt (by omega), Nat.add_zero]
  have hm : (w * (h - 1) + (w - 1)) % w = w - 1 := by rw [Nat.mul_add_mod, Nat.mod_eq_of_lt (by omega)]
  have far := R.far h0 _ hb hd
  have step : ∀ a b : Nat, Passage w g a b → a % w + a / w + 1 = b % w + b / w := by
    rintro a b (⟨rfl, h1, _⟩ | ⟨rfl, _⟩)
    · have e1 : (a + 1) % w = a % w + 1 := by
        rw [Nat.add_mod, Nat.mod_eq_of_lt (show 1 < w by omega), Nat.mod_eq_of_lt h1]
      have e2 : (a + 1) / w = a / w := by
        have h1 := Nat.div_add_mod (a + 1) w
        have h2 := Nat.div_add_mod a w
        have : w * ((a + 1) / w) = w * (a / w) := by omega
        exact Nat.eq_of_mul_eq_mul_left hw this
      omega
    · rw [Nat.add_mod_right, Nat.add_div_right a hw]
      omega
  have key := lipschitz_dist R.tree.connected (fun c : Fin (w * h) => c.1 % w + c.1 / w) (fun a b hab => by
    rw [graph, SimpleGraph.fromRel_adj] at hab
    rcases hab.2 with h | h
    · have := step _ _ h; omega
    · have := step _ _ h; omega) ⟨0, h0⟩ ⟨_, hb⟩
  rw [R.slen h0]
  simp only [hd, hm, Nat.zero_mod, Nat.zero_div] at key
  omega

end Maze
