import Verif.Proofs.Nonogram.Transpose

/-! Reading a puzzle from right to left. -/
namespace Nonogram
open Spec

theorem settled_reverse {line : List Square} {rule : List Nat} {i : Nat} (hi : i < line.length)
    (h : Settled line rule i) : Settled line.reverse rule.reverse (line.length - 1 - i) := by
  rw [settled_iff (by rw [List.length_reverse]; omega)]
  rw [settled_iff hi] at h
  intro xs ys hx hy
  have hx' := completes_reverse.mpr hx
  have hy' := completes_reverse.mpr hy
  rw [List.reverse_reverse, List.reverse_reverse] at hx' hy'
  have e := h _ _ hx' hy'
  have lx : xs.length = line.length := by rw [hx.1.1, List.length_reverse]
  have ly : ys.length = line.length := by rw [hy.1.1, List.length_reverse]
  have b1 := blk_reverse (xs := xs.reverse) (i := i) (by rw [List.length_reverse]; omega)
  have b2 := blk_reverse (xs := ys.reverse) (i := i) (by rw [List.length_reverse]; omega)
  rw [List.reverse_reverse, List.length_reverse, lx, hx'.2.runs] at b1
  rw [List.reverse_reverse, List.length_reverse, ly, hy'.2.runs] at b2
  omega

theorem stableLine_reverse {line : List Square} {rule : List Nat} (h : StableLine line rule) :
    StableLine line.reverse rule.reverse := by
  obtain ⟨⟨xs, hx⟩, hn⟩ := h
  refine ⟨⟨xs.reverse, completes_reverse.mpr hx⟩, fun i hi hs => ?_⟩
  have hlt : i < line.length := by
    have := (List.getElem?_eq_some_iff.mp hi).1
    rwa [List.length_reverse] at this
  have hs' := settled_reverse (by rw [List.length_reverse]; exact hlt) hs
  rw [List.reverse_reverse, List.reverse_reverse, List.length_reverse] at hs'
  refine hn _ ?_ hs'
  rwa [List.getElem?_reverse hlt] at hi

/-- The grid seen in a mirror: the columns in reverse order. -/
def mirror (w : Nat) (G : List Square) : List Square :=
  (List.range G.length).map fun p => G.getD (w * (p / w) + (w - 1 - p % w)) .Blank

theorem mirror_length (w : Nat) (G : List Square) : (mirror w G).length = G.length := by simp [mirror]

variable {w h : Nat}

theorem index_lt' {x y : Nat} (hx : x < w) (hy : y < h) : w * y + x < w * h := by
  have := index_lt hy hx
  rwa [Nat.mul_comm h] at this

theorem mirror_get {x y : Nat} {G : List Square} (hG : G.length = w * h) (hx : x < w) (hy : y < h) :
    (mirror w G)[w * y + x]? = some (G.getD (w * y + (w - 1 - x)) .Blank) := by
  unfold mirror
  rw [List.getElem?_map, List.getElem?_range (by rw [hG]; exact index_lt' hx hy)]
  have h1 : (w * y + x) % w = x := by rw [Nat.mul_add_mod, Nat.mod_eq_of_lt hx]
  have h2 : (w * y + x) / w = y := by rw [Nat.mul_add_div (by omega), Nat.div_eq_of_lt hx, Nat.add_zero]
  simp only [Option.map_some, h1, h2]

theorem mirror_getD {x y : Nat} {G : List Square} (hG : G.length = w * h) (hx : x < w) (hy : y < h) :
    (mirror w G).getD (w * y + x) .Blank = G.getD (w * y + (w - 1 - x)) .Blank := by
  rw [List.getD_eq_getElem?_getD, mirror_get hG hx hy]; rfl

theorem mirror_mirror {G : List Square} (hG : G.length = w * h) : mirror w (mirror w G) = G := by
  apply List.ext_getElem?
  intro p
  by_cases hp : p < w * h
  · obtain ⟨x, hx, y, hy, rfl⟩ := split_index hp
    rw [mirror_get (by rw [mirror_length]; exact hG) hx hy, mirror_getD hG (by omega) hy,
      show w - 1 - (w - 1 - x) = x by omega, List.getD_eq_getElem?_getD, List.getElem?_eq_getElem (by omega)]
    rfl
  · rw [List.getElem?_eq_none (by rw [mirror_length, mirror_length]; omega), List.getElem?_eq_none (by omega)]

theorem columnSq_mirror {x : Nat} {G : List Square} (hG : G.length = w * h) (hx : x < w) :
    columnSq w h (mirror w G) x = columnSq w h G (w - 1 - x) := by
  unfold columnSq
  apply List.map_congr_left
  intro y hy
  exact mirror_getD hG hx (List.mem_range.mp hy)

theorem rowSq_mirror {y : Nat} {G : List Square} (hG : G.length = w * h) (hy : y < h) :
    rowSq w (mirror w G) y = (rowSq w G y).reverse := by
  apply List.ext_getElem?
  intro i
  by_cases hi : i < w
  · rw [List.getElem?_reverse (by simp [rowSq]; exact hi)]
    simp only [rowSq, List.length_map, List.length_range, List.getElem?_map]
    rw [List.getElem?_range hi, List.getElem?_range (by omega)]
    simp only [Option.map_some, mirror_getD hG hi hy]
  · rw [List.getElem?_eq_none (by simp [rowSq]; omega), List.getElem?_eq_none (by simp [rowSq]; omega)]

theorem stable_mirror {col row : List (List Nat)} {G : List Square} (h : Stable col row G) :
    Stable col.reverse (row.map List.reverse) (mirror col.length G) := by
  refine ⟨?_, fun x rule hx => ?_, fun y rule hy => ?_⟩
  · rw [mirror_length, List.length_reverse, List.length_map]; exact h.1
  · have hlt := (List.getElem?_eq_some_iff.mp hx).1
    rw [List.length_reverse] at hlt
    rw [List.length_reverse, List.length_map, columnSq_mirror h.1 hlt]
    rw [List.getElem?_reverse hlt] at hx
    exact h.2.1 _ _ hx
  · have hlt := (List.getElem?_eq_some_iff.mp hy).1
    rw [List.length_map] at hlt
    rw [List.length_reverse, rowSq_mirror h.1 hlt]
    rw [List.getElem?_map] at hy
    obtain ⟨r, hr, rfl⟩ := Option.map_eq_some_iff.mp hy
    exact stableLine_reverse (h.2.2 y r hr)

theorem extends_mirror {G F : List Square} (hG : G.length = w * h) (h' : Extends G F) :
    Extends (mirror w G) (mirror w F) := by
  refine ⟨by rw [mirror_length, mirror_length]; exact h'.1, fun p q hp hq => ?_⟩
  have hlt : p < w * h := by
    have := (List.getElem?_eq_some_iff.mp hp).1
    rwa [mirror_length, hG] at this
  obtain ⟨x, hx, y, hy, rfl⟩ := split_index hlt
  rw [mirror_get hG hx hy] at hp
  rw [mirror_get (by rw [h'.1]; exact hG) hx hy]
  have hi : w * y + (w - 1 - x) < G.length := by rw [hG]; exact index_lt' (by omega) hy
  rw [List.getD_eq_getElem?_getD, List.getElem?_eq_getElem hi] at hp
  have hp' : G[w * y + (w - 1 - x)]? = some q := by rw [List.getElem?_eq_getElem hi]; exact hp
  rw [List.getD_eq_getElem?_getD, h'.2 _ _ hp' hq]
  rfl

theorem fits_mirror {col row : List (List Nat)} (h : Fits col row) : Fits col.reverse (row.map List.reverse) := by
  refine ⟨⟨?_, ?_, ?_, ?_, ?_⟩, ?_⟩
  · intro rule hr
    rcases List.mem_append.mp hr with hr | hr
    · exact h.small _ (List.mem_append_left _ (List.mem_reverse.mp hr))
    · obtain ⟨r, hr', rfl⟩ := List.mem_map.mp hr
      exact small_reverse (h.small _ (List.mem_append_right _ hr'))
  · rw [List.length_map]; exact h.rows
  · rw [List.length_map, List.length_reverse]; exact h.size
  · rw [List.length_reverse]
    refine ⟨h.width.1, fun rule hr => ?_⟩
    obtain ⟨r, hr', rfl⟩ := List.mem_map.mp hr
    rw [CountsFit, List.length_reverse (as := r)]
    exact h.width.2 r hr'
  · rw [List.length_map]; exact ⟨h.height.1, fun rule hr => h.height.2 rule (List.mem_reverse.mp hr)⟩
  · intro rule hr
    rcases List.mem_append.mp hr with hr | hr
    · exact h.framed _ (List.mem_append_left _ (List.mem_reverse.mp hr))
    · obtain ⟨r, hr', rfl⟩ := List.mem_map.mp hr
      exact framed_reverse (h.framed _ (List.mem_append_right _ hr'))

end Nonogram
