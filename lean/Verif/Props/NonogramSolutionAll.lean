import Verif.Proofs.Nonogram.FillAll
import Verif.Props.NonogramMany

/-! C125: `print_nonogram_solution` on the inputs C108 leaves: large images, and releases with wrapping numbers. -/
namespace Nonogram.Props
open Nonogram Nonogram.Spec

/-- Some square marked `true` contains pixel column or pixel row `2^31 - 1`. -/
def OnEdge (width height : Nat) (grid : List Bool) : Prop :=
  ∃ i, grid[i]? = some true ∧
    (Inside width (i % 2 ^ 32 % width) (2 ^ 31 - 1) ∨ Inside height (i % 2 ^ 32 / width) (2 ^ 31 - 1))

/-- C125, with overflow checks: if a side of the image has `2^31` pixels or more (and both have less than `2^32`),
nothing is drawn whatever the grid, or the call panics. -/
theorem C125_debug (width height : Nat) (image : Img) (grid : List Bool)
    (hw : side width < 2 ^ 32) (hh : side height < 2 ^ 32) (hl : 2 ^ 31 ≤ side width ∨ 2 ^ 31 ≤ side height)
    (hg : grid.length = width * height) (hiw : image.width = side width) (hih : image.height = side height) :
    (OnEdge width height grid → printNonogramSolution true width height image grid = .panic) ∧
    (¬ OnEdge width height grid → printNonogramSolution true width height image grid = .ok (.ok image)) := by
  have lw := le_side width
  have lh := le_side height
  have key := forIn'_panic (xs := grid.zipIdx) (body := printSquare true width height) (s := image)
    (P := fun e => e.1 = true ∧
      (Inside width (e.2 % 2 ^ 32 % width) (2 ^ 31 - 1) ∨ Inside height (e.2 % 2 ^ 32 / width) (2 ^ 31 - 1)))
    fun e he => printSquare_debug hw hh hl image hiw hih e (by
      have : e.2 < grid.length := List.snd_lt_of_mem_zipIdx he
      omega)
  have hP : (∃ e ∈ grid.zipIdx, e.1 = true ∧
      (Inside width (e.2 % 2 ^ 32 % width) (2 ^ 31 - 1) ∨ Inside height (e.2 % 2 ^ 32 / width) (2 ^ 31 - 1))) ↔
      OnEdge width height grid := by
    constructor
    · rintro ⟨⟨b, n⟩, he, rfl, h⟩
      exact ⟨n, List.mk_mem_zipIdx_iff_getElem?.mp he, h⟩
    · rintro ⟨n, he, h⟩
      exact ⟨(true, n), List.mk_mem_zipIdx_iff_getElem?.mpr he, rfl, h⟩
  rw [hP] at key
  unfold printNonogramSolution
  rw [ruleSide_ok true (by omega), Prog.ok_bind, ruleSide_ok true (by omega), Prog.ok_bind, if_neg (by simp [hg]),
    imageSide_ok true (by omega), Prog.ok_bind, if_neg (by simp [hiw]), imageSide_ok true (by omega), Prog.ok_bind,
    if_neg (by simp [hih])]
  exact ⟨fun h => by rw [key.1 h]; rfl, fun h => by rw [key.2 h]; rfl⟩

/-- Pixel `(x, y)` is painted for a square marked `true`, with wrapping numbers. -/
def Marked32 (width height : Nat) (grid : List Bool) (x y : Nat) : Prop :=
  ∃ i, grid[i]? = some true ∧ Painted32 width (i % 2 ^ 32 % width) x ∧ Painted32 height (i % 2 ^ 32 / width) y

/-- C125, with wrapping numbers, for all dimensions, images and grids. -/
theorem C125_release (width height : Nat) (image : Img) (grid : List Bool) :
    let fits := grid.length = width * height ∧ image.width = side32 width ∧ image.height = side32 height
    (¬ fits → printNonogramSolution false width height image grid = .ok (.error .InvalidDimensions)) ∧
    (fits → true ∉ grid → printNonogramSolution false width height image grid = .ok (.ok image)) ∧
    (fits → true ∈ grid → (side32 width = 0 ∨ side32 height = 0) →
      printNonogramSolution false width height image grid = .panic) ∧
    (fits → true ∈ grid → side32 width ≠ 0 → side32 height ≠ 0 →
      ∃ img, printNonogramSolution false width height image grid = .ok (.ok img) ∧
        img.width = image.width ∧ img.height = image.height ∧
        ∀ x y, (Marked32 width height grid x y → img.px x y = ⟨0, 0, 0⟩) ∧
          (¬ Marked32 width height grid x y → img.px x y = image.px x y)) := by
  intro fits
  have start : fits → printNonogramSolution false width height image grid =
      (_root_.forIn' grid.zipIdx image (printSquare false width height)).bind fun i => .ok (.ok i) := by
    rintro ⟨hg, hiw, hih⟩
    unfold printNonogramSolution
    rw [ruleSide_wrap, Prog.ok_bind, ruleSide_wrap, Prog.ok_bind, if_neg (by simp [hg]), imageSide_wrap, Prog.ok_bind,
      if_neg (by simp [hiw]), imageSide_wrap, Prog.ok_bind, if_neg (by simp [hih])]
    rfl
  refine ⟨fun hn => ?_, fun hf ht => ?_, fun hf ht hz => ?_, fun hf ht h1 h2 => ?_⟩
  · unfold printNonogramSolution
    rw [ruleSide_wrap, Prog.ok_bind, ruleSide_wrap, Prog.ok_bind]
    by_cases hg : grid.length = width * height
    · rw [if_neg (by simp [hg]), imageSide_wrap, Prog.ok_bind]
      by_cases hiw : image.width = side32 width
      · rw [if_neg (by simp [hiw]), imageSide_wrap, Prog.ok_bind, if_pos (fun hih => hn ⟨hg, hiw, hih⟩)]
        rfl
      · rw [if_pos hiw]
        rfl
    · rw [if_pos hg]
      rfl
  · rw [start hf]
    have := (forIn'_panic (xs := grid.zipIdx) (body := printSquare false width height) (s := image)
      (P := fun _ => False) fun e he => ⟨False.elim, fun _ => by
        obtain ⟨b, n⟩ := e
        cases b with
        | false => rfl
        | true => exact absurd (List.mem_of_getElem? (List.mk_mem_zipIdx_iff_getElem?.mp he)) ht⟩).2 (by simp)
    rw [this]
    rfl
  · rw [start hf]
    obtain ⟨n, hn⟩ := List.mem_iff_getElem?.mp ht
    have hlt : n < grid.length := (List.getElem?_eq_some_iff.1 hn).1
    have hw0 : 0 < width := by
      rcases Nat.eq_zero_or_pos width with h0 | h0
      · rw [hf.1, h0, Nat.zero_mul] at hlt; omega
      · exact h0
    have := (forIn'_panic (xs := grid.zipIdx) (body := printSquare false width height) (s := image)
      (P := fun e => e.1 = true) fun e he => ⟨fun hb => by
        obtain ⟨b, n⟩ := e
        cases hb
        rw [printSquare_rect hw0]
        unfold drawFilledRect
        rw [Rect.ofSize, if_neg (by rw [hf.2.1, hf.2.2]; omega)]
        rfl, fun hb => by
        obtain ⟨b, n⟩ := e
        cases b with
        | false => rfl
        | true => exact absurd rfl hb⟩).1 ⟨(true, n), List.mk_mem_zipIdx_iff_getElem?.mpr hn, rfl⟩
    rw [this]
    rfl
  · have hrun : printNonogramSolution false width height image grid =
        .ok (.ok (image.puts (grid.zipIdx.flatMap (squarePuts32 width height)))) := by
      rw [start hf, forIn'_puts (f := squarePuts32 width height)]
      · rfl
      · rintro i e1 e2 e he
        have hlt : e.2 < grid.length := List.snd_lt_of_mem_zipIdx he
        have hw0 : 0 < width := by
          rcases Nat.eq_zero_or_pos width with h0 | h0
          · rw [hf.1, h0, Nat.zero_mul] at hlt; omega
          · exact h0
        exact printSquare_wrap hw0 i (e1.trans hf.2.1) (e2.trans hf.2.2) (by omega) (by omega) e
    have hone : ∀ p ∈ grid.zipIdx.flatMap (squarePuts32 width height), p.c = blackPixel := by
      intro p hp
      obtain ⟨e, _, hp⟩ := List.mem_flatMap.mp hp
      unfold squarePuts32 at hp
      split at hp
      · simp only [rectPuts, List.mem_flatMap, List.mem_singleton] at hp
        obtain ⟨_, _, _, _, rfl⟩ := hp
        rfl
      · cases hp
    have hmem : ∀ x y, (∃ p ∈ grid.zipIdx.flatMap (squarePuts32 width height), p.x = x ∧ p.y = y) ↔
        Marked32 width height grid x y := by
      intro x y
      have q : ∀ n, (∃ p ∈ squarePuts32 width height (true, n), p.x = x ∧ p.y = y) ↔
          Painted32 width (n % 2 ^ 32 % width) x ∧ Painted32 height (n % 2 ^ 32 / width) y := by
        intro n
        unfold squarePuts32
        simp only [if_true]
        rw [mem_rectPuts, pixels_iff (Nat.mod_lt _ (by decide)) (by omega),
          pixels_iff (Nat.mod_lt _ (by decide)) (by omega)]
        rfl
      constructor
      · rintro ⟨p, hp, hxy⟩
        obtain ⟨⟨b, n⟩, he, hp⟩ := List.mem_flatMap.mp hp
        have hb := List.mk_mem_zipIdx_iff_getElem?.mp he
        cases b with
        | false => cases hp
        | true => exact ⟨n, hb, (q n).mp ⟨p, hp, hxy⟩⟩
      · rintro ⟨n, hb, h⟩
        obtain ⟨p, hp, hxy⟩ := (q n).mpr h
        exact ⟨p, List.mem_flatMap.mpr ⟨(true, n), List.mk_mem_zipIdx_iff_getElem?.mpr hb, hp⟩, hxy⟩
    refine ⟨_, hrun, Img.puts_width _ _, Img.puts_height _ _, fun x y => ?_⟩
    have := Img.puts_px_one (img := image) hone x y
    rw [hmem] at this
    exact this

/-- Where nothing overflows, the painted pixels are those of C51. -/
theorem painted32_small {n k x : Nat} (hs : side n < 2 ^ 31) (hk : k < n) : Painted32 n k x ↔ Inside n k x := by
  have e : side n = 50 * n + margin n := rfl
  have em : margin32 n = margin n := by
    have : 10 * n % 2 ^ 32 = 10 * n := by have := le_side n; omega
    unfold margin32 margin
    rw [this]
  have es : side32 n = side n := by unfold side32; rw [em]; omega
  unfold Painted32 Inside
  rw [em, es]
  have : (50 * k + margin n + 1) % 2 ^ 32 = 50 * k + margin n + 1 := by omega
  rw [this]
  unfold signed32
  rw [if_pos (by omega)]
  omega

/-- C125, both build modes: the picture of the puzzle comes back without any of the solution when it has a side of
`2^31` pixels or more. -/
theorem C125_lost (oc : Bool) (width height : Nat) (image img : Img) (grid : List Bool)
    (hw : side width < 2 ^ 32) (hh : side height < 2 ^ 32) (hl : 2 ^ 31 ≤ side width ∨ 2 ^ 31 ≤ side height)
    (h : printNonogramSolution oc width height image grid = .ok (.ok img)) :
    img.width = image.width ∧ img.height = image.height ∧ img.px = image.px := by
  have s32 : ∀ {n}, side n < 2 ^ 32 → side32 n = side n := by
    intro n hn
    have e : side n = 50 * n + margin n := rfl
    have : 10 * n % 2 ^ 32 = 10 * n := by have := le_side n; omega
    unfold side32 margin32
    rw [this, ← Nat.mod_eq_of_lt hn]
    rfl
  have no : ∀ k, side k ≠ 2 ^ 31 := by intro k; unfold side margin; omega
  have nw := no width
  have nh := no height
  have lw := le_side width
  have lh := le_side height
  cases oc with
  | true =>
    have hf : 10 * width < 2 ^ 32 ∧ 10 * height < 2 ^ 32 := by omega
    obtain ⟨_, e2, _, e4, _, e6⟩ := C108_errors width height image grid
    have hg : grid.length = width * height := by
      by_contra hn
      rw [e2 hf hn] at h
      cases h
    have hiw : image.width = side width := by
      by_contra hn
      rw [e4 hf hg hw hn] at h
      cases h
    have hih : image.height = side height := by
      by_contra hn
      rw [e6 hf hg hw hiw hh hn] at h
      cases h
    obtain ⟨d1, d2⟩ := C125_debug width height image grid hw hh hl hg hiw hih
    by_cases hE : OnEdge width height grid
    · rw [d1 hE] at h
      cases h
    · rw [d2 hE] at h
      cases h
      exact ⟨rfl, rfl, rfl⟩
  | false =>
    obtain ⟨e1, e2, e3, e4⟩ := C125_release width height image grid
    rw [s32 hw, s32 hh] at e1 e2 e3 e4
    by_cases hf : grid.length = width * height ∧ image.width = side width ∧ image.height = side height
    · by_cases ht : true ∈ grid
      · have p : ∀ k, 0 < side k := by intro k; unfold side margin; omega
        have pw := p width
        have ph := p height
        obtain ⟨im, q, b1, b2, b3⟩ := e4 hf ht (by omega) (by omega)
        rw [q] at h
        cases h
        refine ⟨b1, b2, funext fun x => funext fun y => (b3 x y).2 ?_⟩
        rintro ⟨i, _, m1, m2⟩
        unfold Painted32 at m1 m2
        rw [s32 hw] at m1
        rw [s32 hh] at m2
        omega
      · rw [e2 hf ht] at h
        cases h
        exact ⟨rfl, rfl, rfl⟩
    · rw [e1 hf] at h
      cases h

theorem first_true {n i : Nat} (h : (true :: List.replicate n false)[i]? = some true) : i = 0 := by
  cases i with
  | zero => rfl
  | succ i =>
    rw [List.getElem?_cons_succ, List.getElem?_replicate] at h
    split at h <;> simp at h

theorem first_length (n : Nat) : (true :: List.replicate n false).length = n + 1 := by
  rw [List.length_cons, List.length_replicate]

theorem late_length (n : Nat) : (List.replicate n false ++ [true, false]).length = n + 2 := by
  rw [List.length_append, List.length_replicate]; rfl

theorem late_true (n : Nat) : (List.replicate n false ++ [true, false])[n]? = some true := by
  rw [List.getElem?_append_right (by rw [List.length_replicate]), List.length_replicate, Nat.sub_self]; rfl

/-- 35791395 columns give an image of 2147483700 pixels. A marked first square is not drawn. -/
example (image : Img) (hw : image.width = 2147483700) (hh : image.height = 200) :
    printNonogramSolution true 35791395 1 image (true :: List.replicate 35791394 false) = .ok (.ok image) := by
  refine (C125_debug 35791395 1 image _ (by decide) (by decide) (.inl (by decide)) (first_length _) hw hh).2 ?_
  rintro ⟨i, hi, h⟩
  cases first_true hi
  revert h
  unfold Inside margin
  omega

/-- A marked last but one square panics instead. -/
example (image : Img) (hw : image.width = 2147483700) (hh : image.height = 200) :
    printNonogramSolution true 35791395 1 image (List.replicate 35791393 false ++ [true, false]) = .panic := by
  refine (C125_debug 35791395 1 image _ (by decide) (by decide) (.inl (by decide)) (late_length _) hw hh).1
    ⟨35791393, late_true _, .inl ?_⟩
  unfold Inside margin
  omega

/-- With wrapping numbers `2^30` columns give an image without columns, in which a marked square cannot be drawn. -/
example (image : Img) (hw : image.width = 0) (hh : image.height = 200) :
    printNonogramSolution false 1073741824 1 image (true :: List.replicate 1073741823 false) = .panic :=
  (C125_release _ _ _ _).2.2.1 ⟨first_length _, hw.trans (by decide), hh.trans (by decide)⟩ List.mem_cons_self
    (.inl (by decide))

/-- With wrapping numbers 71582789 columns give an image with 44 columns, all covered by the last square. -/
example (x : Nat) : side32 71582789 = 44 ∧ (Painted32 71582789 71582788 x ↔ x < 44) ∧ ¬ Painted32 71582789 0 x := by
  have e : side32 71582789 = 44 := by decide
  have m : margin32 71582789 = 715827890 := by decide
  unfold Painted32
  rw [e, m]
  unfold signed32
  omega

end Nonogram.Props
