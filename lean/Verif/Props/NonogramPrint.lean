import Verif.Proofs.Nonogram.Print
import Verif.Props.Nonogram

/-!
Property theorems for `print_nonogram` and `print_nonogram_solution` (C50, C51, C61).

`text` is the opaque text-drawing function; the theorems hold for every such function, so they say nothing about
the shapes of the digits.
-/
namespace Nonogram.Props
open Nonogram Nonogram.Spec

/-! ### C50: `print_nonogram` -/

/-- C50, errors: whatever the sizes, `InvalidDimensions` is returned if the numbers of rules do not fit, and (in the
range where the image can exist) only then. -/
theorem C50_invalid_dimensions (oc : Bool) (text : TextFn) (width height : Nat) (col row : List (List Nat)) :
    (width ≠ col.length ∨ height ≠ row.length →
      printNonogram oc text width height col row = .ok (.error .InvalidDimensions)) ∧
    (Printable width height → (∀ r ∈ col, 30 * r.length < 2 ^ 31) → ∀ e,
      printNonogram oc text width height col row = .ok (.error e) →
      e = .InvalidDimensions ∧ (width ≠ col.length ∨ height ≠ row.length)) := by
  have first : width ≠ col.length ∨ height ≠ row.length →
      printNonogram oc text width height col row = .ok (.error .InvalidDimensions) := by
    intro h
    unfold printNonogram
    rw [if_pos h]; rfl
  refine ⟨first, fun hp hr e he => ?_⟩
  by_cases h : width ≠ col.length ∨ height ≠ row.length
  · rw [first h] at he
    exact ⟨(Except.error.inj (Prog.ok.inj he)).symm, h⟩
  · have h1 : width = col.length := by omega
    have h2 : height = row.length := by omega
    subst h1; subst h2
    rw [printNonogram_eq oc text col row (drawable_of hp hr)] at he
    cases Prog.ok.inj he

/-- C50, image: if the numbers of rules fit, an image of the stated size is returned whose grid-line pixels are gray,
and whose other pixels are those of the texts on a white page. -/
theorem C50_print (oc : Bool) (text : TextFn) (col row : List (List Nat))
    (hp : Printable col.length row.length) (hr : ∀ r ∈ col, 30 * r.length < 2 ^ 31) :
    ∃ img, printNonogram oc text col.length row.length col row = .ok (.ok img) ∧
      img.width = 50 * col.length + max 150 (10 * col.length) ∧
      img.height = 50 * row.length + max 150 (10 * row.length) ∧
      ∀ x < img.width, ∀ y < img.height,
        (OnLine col.length x ∨ OnLine row.length y → img.px x y = ⟨105, 105, 105⟩) ∧
        (¬ (OnLine col.length x ∨ OnLine row.length y) →
          img.px x y = (page text col.length row.length (texts col row)).px x y) :=
  printNonogram_px oc text col row (drawable_of hp hr)

/-- The hypotheses of C50 are met by every puzzle of ordinary size. -/
theorem printable_of_le {w h : Nat} (hw : w ≤ 100000) (hh : h ≤ 100000) : Printable w h := by
  have h1 : side w ≤ 6000150 := by unfold side margin; omega
  have h2 : side h ≤ 6000150 := by unfold side margin; omega
  refine ⟨by omega, by omega, ?_⟩
  calc 3 * side w * side h ≤ 3 * 6000150 * 6000150 := Nat.mul_le_mul (Nat.mul_le_mul_left 3 h1) h2
    _ < 2 ^ 63 := by decide

example (text : TextFn) : ∃ img, printNonogram true text 2 2 [[2], [1]] [[2], [1]] = .ok (.ok img) ∧
    img.width = 250 ∧ img.px 151 7 = ⟨105, 105, 105⟩ ∧ img.px 3 150 = ⟨105, 105, 105⟩ := by
  obtain ⟨img, h, hw, hh, hpx⟩ := C50_print true text [[2], [1]] [[2], [1]]
    (printable_of_le (by decide) (by decide)) (by decide)
  simp only [List.length_cons, List.length_nil] at hw hh hpx
  refine ⟨img, h, hw, (hpx _ (by rw [hw]; decide) _ (by rw [hh]; decide)).1 (.inl ⟨0, by decide, ?_⟩),
    (hpx _ (by rw [hw]; decide) _ (by rw [hh]; decide)).1 (.inr ⟨0, by decide, ?_⟩)⟩ <;> simp [margin]

/-! ### C51: `print_nonogram_solution` -/

/-- C51, errors. -/
theorem C51_invalid_dimensions (oc : Bool) (width height : Nat) (image : Img) (grid : List Bool)
    (hw : side width < 2 ^ 31) (hh : side height < 2 ^ 31)
    (h : grid.length ≠ width * height ∨ image.width ≠ side width ∨ image.height ≠ side height) :
    printNonogramSolution oc width height image grid = .ok (.error .InvalidDimensions) := by
  unfold printNonogramSolution
  rw [ruleSide_ok oc (by omega), Prog.ok_bind, ruleSide_ok oc (by omega), Prog.ok_bind]
  by_cases h1 : grid.length ≠ width * height
  · rw [if_pos h1]; rfl
  rw [if_neg h1, imageSide_ok oc (by omega), Prog.ok_bind]
  by_cases h2 : image.width ≠ side width
  · rw [if_pos h2]; rfl
  rw [if_neg h2, imageSide_ok oc (by omega), Prog.ok_bind, if_pos ((h.resolve_left h1).resolve_left h2)]
  rfl

example (image : Img) : printNonogramSolution true 2 2 image [true, false, true] = .ok (.error .InvalidDimensions) :=
  C51_invalid_dimensions true 2 2 image _ (by decide) (by decide) (.inl (by decide))

/-- C51, image: otherwise exactly the interiors of the squares marked `true` become black, and all other pixels
stay as they are. -/
theorem C51_fills (oc : Bool) (width height : Nat) (image : Img) (grid : List Bool)
    (hw : side width < 2 ^ 31) (hh : side height < 2 ^ 31) (hs : width * height < 2 ^ 32)
    (hg : grid.length = width * height) (hiw : image.width = side width) (hih : image.height = side height) :
    ∃ img, printNonogramSolution oc width height image grid = .ok (.ok img) ∧
      img.width = image.width ∧ img.height = image.height ∧
      ∀ x y, ((∃ cx < width, ∃ cy < height, grid[width * cy + cx]? = some true ∧ Inside width cx x ∧ Inside height cy y) →
          img.px x y = ⟨0, 0, 0⟩) ∧
        ((¬ ∃ cx < width, ∃ cy < height, grid[width * cy + cx]? = some true ∧ Inside width cx x ∧ Inside height cy y) →
          img.px x y = image.px x y) := by
  have hrun : printNonogramSolution oc width height image grid =
      .ok (.ok (image.puts (grid.zipIdx.flatMap (squarePuts width height)))) := by
    unfold printNonogramSolution
    rw [ruleSide_ok oc (by omega), Prog.ok_bind, ruleSide_ok oc (by omega), Prog.ok_bind, if_neg (by simp [hg]),
      imageSide_ok oc (by omega), Prog.ok_bind, if_neg (by simp [hiw]), imageSide_ok oc (by omega), Prog.ok_bind,
      if_neg (by simp [hih])]
    rw [forIn'_puts (f := squarePuts width height)]
    · rfl
    · rintro i h1 h2 e he
      have hlt : e.2 < grid.length := List.snd_lt_of_mem_zipIdx he
      exact printSquare_ok oc hw hh i (by omega) (by omega) e (by omega) (by omega)
  have hone : ∀ p ∈ grid.zipIdx.flatMap (squarePuts width height), p.c = blackPixel := by
    intro p hp
    obtain ⟨e, _, hp⟩ := List.mem_flatMap.mp hp
    unfold squarePuts at hp
    split at hp
    · simp only [rectPuts, List.mem_flatMap, List.mem_singleton] at hp
      obtain ⟨_, _, _, _, rfl⟩ := hp
      rfl
    · cases hp
  have hmem : ∀ x y, (∃ p ∈ grid.zipIdx.flatMap (squarePuts width height), p.x = x ∧ p.y = y) ↔
      ∃ cx < width, ∃ cy < height, grid[width * cy + cx]? = some true ∧ Inside width cx x ∧ Inside height cy y := by
    intro x y
    constructor
    · rintro ⟨p, hp, hxy⟩
      obtain ⟨⟨b, n⟩, he, hp⟩ := List.mem_flatMap.mp hp
      have hn : n < width * height := hg ▸ List.snd_lt_of_mem_zipIdx he
      have hb := List.mk_mem_zipIdx_iff_getElem?.mp he
      have hw0 : 0 < width := Nat.pos_of_mul_pos_right (by omega : 0 < width * height)
      cases b with
      | false => cases hp
      | true =>
        obtain ⟨h1, h2⟩ := mem_rectPuts.mp ⟨p, hp, hxy⟩
        dsimp only at h1 h2
        refine ⟨n % width, Nat.mod_lt _ hw0, n / width, Nat.div_lt_of_lt_mul hn, ?_, ?_, ?_⟩
        · rw [Nat.div_add_mod]; exact hb
        · unfold Inside; omega
        · unfold Inside; omega
    · rintro ⟨cx, hcx, cy, hcy, hb, h1, h2⟩
      unfold Inside at h1 h2
      have hq : (width * cy + cx) % width = cx := by rw [Nat.mul_add_mod, Nat.mod_eq_of_lt hcx]
      have hd : (width * cy + cx) / width = cy := by
        rw [Nat.mul_add_div (by omega), Nat.div_eq_of_lt hcx, Nat.add_zero]
      obtain ⟨p, hp, hxy⟩ := (mem_rectPuts (a := 50 * cx + margin width + 1) (b := 50 * cy + margin height + 1)
        (w := 49) (h := 49) (x := x) (y := y) (c := blackPixel)).mpr ⟨by omega, by omega⟩
      refine ⟨p, List.mem_flatMap.mpr ⟨(true, width * cy + cx), List.mk_mem_zipIdx_iff_getElem?.mpr hb, ?_⟩, hxy⟩
      simp only [squarePuts, if_true, hq, hd]
      exact hp
  refine ⟨_, hrun, Img.puts_width _ _, Img.puts_height _ _, fun x y => ?_⟩
  have := Img.puts_px_one (img := image) hone x y
  rw [hmem] at this
  exact this

/-- The hypotheses of C51 are met. -/
example (f : Nat → Nat → Rgb) : ∃ img, printNonogramSolution false 2 2 ⟨250, 250, f⟩ [true, false, false, true] = .ok (.ok img) ∧
    img.px 151 199 = ⟨0, 0, 0⟩ ∧ img.px 199 200 = f 199 200 ∧ img.px 249 249 = ⟨0, 0, 0⟩ := by
  have hs : side 2 = 250 := rfl
  have hm : margin 2 = 150 := rfl
  obtain ⟨img, h, _, _, hp⟩ := C51_fills false 2 2 ⟨250, 250, f⟩ [true, false, false, true] (by rw [hs]; decide) (by rw [hs]; decide)
    (by decide) rfl rfl rfl
  refine ⟨img, h, (hp _ _).1 ⟨0, by decide, 0, by decide, rfl, ?_, ?_⟩, (hp _ _).2 ?_,
    (hp _ _).1 ⟨1, by decide, 1, by decide, rfl, ?_, ?_⟩⟩
  · rw [Inside, hm]; decide
  · rw [Inside, hm]; decide
  · rintro ⟨cx, _, cy, _, _, h1, h2⟩
    rw [Inside, hm] at h2
    omega
  · rw [Inside, hm]; decide
  · rw [Inside, hm]; decide

/-! ### C61: solving and printing -/

/-- C61. Solving a puzzle, printing it and printing the result onto the image always succeeds if solving does, and in
the final image the pixels of a square's interior are black if the square is marked `true`, and those of the printed
puzzle otherwise. -/
theorem C61_pipeline (oc : Bool) (text : TextFn) (col row : List (List Nat)) (hf : Fits col row)
    (hp : Printable col.length row.length) (hr : ∀ r ∈ col, 30 * r.length < 2 ^ 31)
    (hs : col.length * row.length < 2 ^ 32) (g : List Bool) (hg : solveNonogram oc col row = .ok (.ok g)) :
    ∃ img img', printNonogram oc text col.length row.length col row = .ok (.ok img) ∧
      printNonogramSolution oc col.length row.length img g = .ok (.ok img') ∧
      ∀ cx < col.length, ∀ cy < row.length, ∀ x y, Inside col.length cx x → Inside row.length cy y →
        ∃ b, g[col.length * cy + cx]? = some b ∧ (b = true → img'.px x y = ⟨0, 0, 0⟩) ∧
          (b = false → img'.px x y = img.px x y) := by
  obtain ⟨r, h1, h2⟩ := C47_terminates oc col row hf
  obtain rfl := Prog.ok.inj (hg.symm.trans h1)
  have hlen := h2 g rfl
  obtain ⟨img, h3, h4, h5, _⟩ := C50_print oc text col row hp hr
  obtain ⟨img', h6, _, _, h7⟩ := C51_fills oc col.length row.length img g hp.width hp.height hs hlen h4 h5
  refine ⟨img, img', h3, h6, fun cx hcx cy hcy x y hx hy => ?_⟩
  have hi : col.length * cy + cx < g.length := by
    rw [hlen]
    calc col.length * cy + cx < col.length * cy + col.length := by omega
      _ = col.length * (cy + 1) := by rw [Nat.mul_add, Nat.mul_one]
      _ ≤ col.length * row.length := Nat.mul_le_mul_left _ hcy
  refine ⟨_, List.getElem?_eq_getElem hi, fun hb => ?_, fun hb => ?_⟩
  · exact (h7 x y).1 ⟨cx, hcx, cy, hcy, by rw [List.getElem?_eq_getElem hi, hb], hx, hy⟩
  · refine (h7 x y).2 ?_
    rintro ⟨cx', _, cy', _, hb', hx', hy'⟩
    unfold Inside at hx hy hx' hy'
    obtain rfl : cx = cx' := by omega
    obtain rfl : cy = cy' := by omega
    rw [List.getElem?_eq_getElem hi, hb] at hb'
    cases hb'

/-- The hypotheses of C61 are met. -/
example (oc : Bool) (text : TextFn) :
    ∃ img img', printNonogram oc text 2 2 [[2], [1]] [[2], [1]] = .ok (.ok img) ∧
      printNonogramSolution oc 2 2 img [true, true, true, false] = .ok (.ok img') := by
  obtain ⟨img, img', h1, h2, _⟩ := C61_pipeline oc text _ _ fits_two_two (printable_of_le (by decide) (by decide)) (by decide)
    (by decide) _ (solve_two_two oc)
  exact ⟨img, img', h1, h2⟩

/-- C61. The solution is painted over the thick grid lines: pixel 151 of row 160 belongs to the first vertical line
(gray in the printed puzzle), and is black after a filled first square is painted. -/
theorem C61_overpaints (oc : Bool) (text : TextFn) :
    ∃ img img', printNonogram oc text 2 2 [[2], [1]] [[2], [1]] = .ok (.ok img) ∧
      printNonogramSolution oc 2 2 img [true, true, true, false] = .ok (.ok img') ∧
      OnLine 2 151 ∧ img.px 151 160 = ⟨105, 105, 105⟩ ∧ img'.px 151 160 = ⟨0, 0, 0⟩ := by
  have hm : margin 2 = 150 := rfl
  have hl : OnLine 2 151 := ⟨0, by decide, by rw [hm]; decide⟩
  obtain ⟨img, h3, h4, h5, h6⟩ := C50_print oc text [[2], [1]] [[2], [1]] (printable_of_le (by decide) (by decide)) (by decide)
  obtain ⟨img', h7, _, _, h8⟩ := C51_fills oc 2 2 img [true, true, true, false] (by decide) (by decide) (by decide) rfl h4 h5
  refine ⟨img, img', h3, h7, hl, (h6 _ (by rw [h4]; decide) _ (by rw [h5]; decide)).1 (.inl hl),
    (h8 _ _).1 ⟨0, by decide, 0, by decide, rfl, ?_, ?_⟩⟩
  · rw [Inside, hm]; decide
  · rw [Inside, hm]; decide

end Nonogram.Props
