import Verif.Props.NonogramPrint

/-! C93: a printed nonogram solution can be read. -/
namespace Nonogram.Props
open Nonogram Nonogram.Spec

/-- No square is black before a solution is printed on the image: the interior of each has a pixel of another colour. -/
def NotBlack (width height : Nat) (image : Img) : Prop :=
  ∀ cx < width, ∀ cy < height, ∃ x y, Inside width cx x ∧ Inside height cy y ∧ image.px x y ≠ ⟨0, 0, 0⟩

/-- C93. A square is marked exactly if its whole interior is black. -/
theorem C93_read (oc : Bool) (width height : Nat) (image : Img) (grid : List Bool) (hw : side width < 2 ^ 31)
    (hh : side height < 2 ^ 31) (hs : width * height < 2 ^ 32) (hg : grid.length = width * height)
    (hiw : image.width = side width) (hih : image.height = side height) (hn : NotBlack width height image) :
    ∃ img, printNonogramSolution oc width height image grid = .ok (.ok img) ∧ ∀ cx < width, ∀ cy < height,
      (grid[width * cy + cx]? = some true ↔ ∀ x y, Inside width cx x → Inside height cy y → img.px x y = ⟨0, 0, 0⟩) := by
  obtain ⟨img, h1, _, _, h2⟩ := C51_fills oc width height image grid hw hh hs hg hiw hih
  refine ⟨img, h1, fun cx hcx cy hcy => ⟨fun hb x y hx hy => (h2 x y).1 ⟨cx, hcx, cy, hcy, hb, hx, hy⟩, fun hall => ?_⟩⟩
  obtain ⟨x, y, hx, hy, hne⟩ := hn cx hcx cy hcy
  by_contra hb
  refine hne ?_
  rw [← (h2 x y).2, hall x y hx hy]
  rintro ⟨cx', _, cy', _, hb', hx', hy'⟩
  unfold Inside at hx hy hx' hy'
  obtain rfl : cx = cx' := by omega
  obtain rfl : cy = cy' := by omega
  exact hb hb'

/-- C93. Different solutions give different images. -/
theorem C93_faithful (oc : Bool) (width height : Nat) (image : Img) (g g' : List Bool) (hw : side width < 2 ^ 31)
    (hh : side height < 2 ^ 31) (hs : width * height < 2 ^ 32) (hg : g.length = width * height)
    (hg' : g'.length = width * height) (hiw : image.width = side width) (hih : image.height = side height)
    (hn : NotBlack width height image) (img img' : Img)
    (e : printNonogramSolution oc width height image g = .ok (.ok img))
    (e' : printNonogramSolution oc width height image g' = .ok (.ok img'))
    (h : ∀ x < image.width, ∀ y < image.height, img.px x y = img'.px x y) : g = g' := by
  obtain ⟨i, h1, h2⟩ := C93_read oc width height image g hw hh hs hg hiw hih hn
  obtain ⟨i', h3, h4⟩ := C93_read oc width height image g' hw hh hs hg' hiw hih hn
  obtain rfl : i = img := by rw [h1] at e; cases e; rfl
  obtain rfl : i' = img' := by rw [h3] at e'; cases e'; rfl
  refine List.ext_getElem (hg.trans hg'.symm) fun k hk hk' => ?_
  have hw0 : 0 < width := Nat.pos_of_ne_zero fun h0 => by rw [hg, h0, Nat.zero_mul] at hk; omega
  have hx : k % width < width := Nat.mod_lt _ hw0
  have hy : k / width < height := Nat.div_lt_of_lt_mul (hg ▸ hk)
  have a := h2 _ hx _ hy
  have b := h4 _ hx _ hy
  rw [Nat.div_add_mod] at a b
  have key : g[k]? = some true ↔ g'[k]? = some true := by
    rw [a, b]
    have : ∀ x y, Inside width (k % width) x → Inside height (k / width) y → i.px x y = i'.px x y := by
      intro x y ix iy
      unfold Inside at ix iy
      have m1 : 50 * (k % width + 1) ≤ 50 * width := by omega
      have m2 : 50 * (k / width + 1) ≤ 50 * height := by omega
      exact h x (by rw [hiw]; unfold side; omega) y (by rw [hih]; unfold side; omega)
    exact ⟨fun H x y ix iy => by rw [← this x y ix iy, H x y ix iy], fun H x y ix iy => by rw [this x y ix iy, H x y ix iy]⟩
  rw [List.getElem?_eq_getElem hk, List.getElem?_eq_getElem hk', Option.some.injEq, Option.some.injEq] at key
  cases hgk : g[k] <;> cases hgk' : g'[k] <;> simp_all

/-- Drawn on a white image the two diagonals differ. -/
example : ∃ img img', printNonogramSolution true 2 2 ⟨250, 250, fun _ _ => ⟨255, 255, 255⟩⟩ [true, false, false, true] = .ok (.ok img) ∧
    printNonogramSolution true 2 2 ⟨250, 250, fun _ _ => ⟨255, 255, 255⟩⟩ [false, true, true, false] = .ok (.ok img') ∧
    ∃ x < 250, ∃ y < 250, img.px x y ≠ img'.px x y := by
  have hn : NotBlack 2 2 ⟨250, 250, fun _ _ => ⟨255, 255, 255⟩⟩ := fun cx hcx cy hcy =>
    ⟨50 * cx + margin 2 + 1, 50 * cy + margin 2 + 1, by unfold Inside; omega, by unfold Inside; omega,
      fun h => by injection h with h; exact absurd h (by decide)⟩
  obtain ⟨img, e, _⟩ := C93_read true 2 2 ⟨250, 250, fun _ _ => ⟨255, 255, 255⟩⟩ [true, false, false, true] (by decide) (by decide)
    (by decide) rfl rfl rfl hn
  obtain ⟨img', e', _⟩ := C93_read true 2 2 ⟨250, 250, fun _ _ => ⟨255, 255, 255⟩⟩ [false, true, true, false] (by decide) (by decide)
    (by decide) rfl rfl rfl hn
  refine ⟨img, img', e, e', ?_⟩
  by_contra hc
  have := C93_faithful true 2 2 _ _ _ (by decide) (by decide) (by decide) rfl rfl rfl rfl hn img img' e e'
    fun x hx y hy => by by_contra h; exact hc ⟨x, hx, y, hy, h⟩
  exact absurd this (by decide)

/-- C93. Painting a second solution over the first: the squares marked in one of them are black. -/
theorem C93_twice (oc : Bool) (width height : Nat) (image : Img) (g g' : List Bool) (hw : side width < 2 ^ 31)
    (hh : side height < 2 ^ 31) (hs : width * height < 2 ^ 32) (hg : g.length = width * height)
    (hg' : g'.length = width * height) (hiw : image.width = side width) (hih : image.height = side height) :
    ∃ img img' imgu, printNonogramSolution oc width height image g = .ok (.ok img) ∧
      printNonogramSolution oc width height img g' = .ok (.ok img') ∧
      printNonogramSolution oc width height image (List.zipWith (· || ·) g g') = .ok (.ok imgu) ∧
      ∀ x y, img'.px x y = imgu.px x y := by
  obtain ⟨img, h1, w1, v1, h2⟩ := C51_fills oc width height image g hw hh hs hg hiw hih
  obtain ⟨img', h3, w3, v3, h4⟩ := C51_fills oc width height img g' hw hh hs hg' (w1.trans hiw) (v1.trans hih)
  obtain ⟨imgu, h5, _, _, h6⟩ := C51_fills oc width height image (List.zipWith (· || ·) g g') hw hh hs (by simp [hg, hg']) hiw hih
  refine ⟨img, img', imgu, h1, h3, h5, fun x y => ?_⟩
  have hz : ∀ n < width * height, (List.zipWith (· || ·) g g')[n]? = some true ↔ g[n]? = some true ∨ g'[n]? = some true := by
    intro n hn
    rw [List.getElem?_zipWith, List.getElem?_eq_getElem (by omega), List.getElem?_eq_getElem (by omega)]
    simp
  have hlt : ∀ cx < width, ∀ cy < height, width * cy + cx < width * height := by
    intro cx hcx cy hcy
    calc width * cy + cx < width * cy + width := by omega
      _ = width * (cy + 1) := by rw [Nat.mul_add, Nat.mul_one]
      _ ≤ width * height := Nat.mul_le_mul_left _ hcy
  by_cases c2 : ∃ cx < width, ∃ cy < height, g'[width * cy + cx]? = some true ∧ Inside width cx x ∧ Inside height cy y
  · obtain ⟨cx, a, cy, b, m, r⟩ := c2
    rw [(h4 x y).1 ⟨cx, a, cy, b, m, r⟩, (h6 x y).1 ⟨cx, a, cy, b, (hz _ (hlt cx a cy b)).mpr (.inr m), r⟩]
  · rw [(h4 x y).2 c2]
    by_cases c1 : ∃ cx < width, ∃ cy < height, g[width * cy + cx]? = some true ∧ Inside width cx x ∧ Inside height cy y
    · obtain ⟨cx, a, cy, b, m, r⟩ := c1
      rw [(h2 x y).1 ⟨cx, a, cy, b, m, r⟩, (h6 x y).1 ⟨cx, a, cy, b, (hz _ (hlt cx a cy b)).mpr (.inl m), r⟩]
    · rw [(h2 x y).2 c1, (h6 x y).2]
      rintro ⟨cx, a, cy, b, m, r⟩
      rcases (hz _ (hlt cx a cy b)).mp m with m | m
      · exact c1 ⟨cx, a, cy, b, m, r⟩
      · exact c2 ⟨cx, a, cy, b, m, r⟩

/-- The hypotheses of C93 are met, for instance by a white image. -/
example : ∃ img, printNonogramSolution true 2 2 ⟨250, 250, fun _ _ => ⟨255, 255, 255⟩⟩ [true, false, false, true] = .ok (.ok img) ∧
    ∀ cx < 2, ∀ cy < 2, ([true, false, false, true][2 * cy + cx]? = some true ↔
      ∀ x y, Inside 2 cx x → Inside 2 cy y → img.px x y = ⟨0, 0, 0⟩) :=
  C93_read true 2 2 _ _ (by decide) (by decide) (by decide) rfl rfl rfl fun cx hcx cy hcy =>
    ⟨50 * cx + margin 2 + 1, 50 * cy + margin 2 + 1, by unfold Inside; omega, by unfold Inside; omega, fun h => by injection h with h; exact absurd h (by decide)⟩

end Nonogram.Props
