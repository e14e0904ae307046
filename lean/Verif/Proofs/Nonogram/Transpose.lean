import Verif.Proofs.Nonogram.Stable

/-! Exchanging rows and columns. -/
namespace Nonogram
open Spec

/-- The grid with rows and columns exchanged; `w`, `h` are the dimensions of `G`. -/
def transpose (w h : Nat) (G : List Square) : List Square :=
  (List.range (w * h)).map fun p => G.getD (w * (p % h) + p / h) .Blank

theorem transpose_length (w h : Nat) (G : List Square) : (transpose w h G).length = w * h := by simp [transpose]

theorem index_lt {w h x y : Nat} (hx : x < w) (hy : y < h) : h * x + y < w * h := by
  calc h * x + y < h * x + h := by omega
    _ = h * (x + 1) := by rw [Nat.mul_add, Nat.mul_one]
    _ ≤ h * w := Nat.mul_le_mul_left _ hx
    _ = w * h := Nat.mul_comm _ _

theorem transpose_get {w h x y : Nat} (G : List Square) (hx : x < w) (hy : y < h) :
    (transpose w h G)[h * x + y]? = some (G.getD (w * y + x) .Blank) := by
  unfold transpose
  rw [List.getElem?_map, List.getElem?_range (index_lt hx hy)]
  have h1 : (h * x + y) % h = y := by rw [Nat.mul_add_mod, Nat.mod_eq_of_lt hy]
  have h2 : (h * x + y) / h = x := by rw [Nat.mul_add_div (by omega), Nat.div_eq_of_lt hy, Nat.add_zero]
  simp only [Option.map_some, h1, h2]

theorem transpose_getD {w h x y : Nat} (G : List Square) (hx : x < w) (hy : y < h) :
    (transpose w h G).getD (h * x + y) .Blank = G.getD (w * y + x) .Blank := by
  rw [List.getD_eq_getElem?_getD, transpose_get G hx hy]; rfl

theorem split_index {w h p : Nat} (hp : p < w * h) : ∃ x < w, ∃ y < h, p = w * y + x := by
  have hw : 0 < w := Nat.pos_of_mul_pos_right (by omega : 0 < w * h)
  exact ⟨p % w, Nat.mod_lt _ hw, p / w, Nat.div_lt_of_lt_mul hp, by rw [Nat.div_add_mod]⟩

theorem transpose_transpose {w h : Nat} {G : List Square} (hG : G.length = w * h) :
    transpose h w (transpose w h G) = G := by
  apply List.ext_getElem?
  intro p
  by_cases hp : p < w * h
  · obtain ⟨x, hx, y, hy, rfl⟩ := split_index hp
    rw [transpose_get _ hy hx, transpose_getD _ hx hy, List.getD_eq_getElem?_getD, List.getElem?_eq_getElem (by omega)]
    rfl
  · rw [List.getElem?_eq_none (by rw [transpose_length, Nat.mul_comm]; omega), List.getElem?_eq_none (by omega)]

theorem rowSq_transpose {w h x : Nat} (G : List Square) (hx : x < w) :
    rowSq h (transpose w h G) x = columnSq w h G x := by
  unfold rowSq columnSq
  apply List.map_congr_left
  intro y hy
  exact transpose_getD G hx (List.mem_range.mp hy)

theorem columnSq_transpose {w h y : Nat} (G : List Square) (hy : y < h) :
    columnSq h w (transpose w h G) y = rowSq w G y := by
  unfold rowSq columnSq
  apply List.map_congr_left
  intro x hx
  exact transpose_getD G (List.mem_range.mp hx) hy

theorem stable_transpose {col row : List (List Nat)} {G : List Square} (h : Stable col row G) :
    Stable row col (transpose col.length row.length G) := by
  refine ⟨by rw [transpose_length, Nat.mul_comm], fun y rule hy => ?_, fun x rule hx => ?_⟩
  · rw [columnSq_transpose G (List.getElem?_eq_some_iff.mp hy).1]; exact h.2.2 y rule hy
  · rw [rowSq_transpose G (List.getElem?_eq_some_iff.mp hx).1]; exact h.2.1 x rule hx

theorem extends_transpose {w h : Nat} {G F : List Square} (hG : G.length = w * h) (h' : Extends G F) :
    Extends (transpose w h G) (transpose w h F) := by
  refine ⟨by rw [transpose_length, transpose_length], fun p q hp hq => ?_⟩
  have hlt : p < h * w := by
    have := (List.getElem?_eq_some_iff.mp hp).1
    rwa [transpose_length, Nat.mul_comm] at this
  obtain ⟨y, hy, x, hx, rfl⟩ := split_index hlt
  rw [transpose_get G hx hy] at hp
  rw [transpose_get F hx hy]
  have hi : w * y + x < G.length := by rw [hG]; have := index_lt hy hx; rwa [Nat.mul_comm h] at this
  rw [List.getD_eq_getElem?_getD, List.getElem?_eq_getElem hi] at hp
  have hp' : G[w * y + x]? = some q := by rw [List.getElem?_eq_getElem hi]; exact hp
  rw [List.getD_eq_getElem?_getD, h'.2 _ _ hp' hq]
  rfl

end Nonogram
