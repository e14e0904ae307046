import Verif.Spec.Png
import Verif.Props.Maze
import Verif.Props.SudokuPicture
import Verif.Props.NonogramRead

/-! C126: the bytes of `image_to_png_bytes`. -/
namespace Png.Props
open Png Png.Spec

variable {ε : Type}

theorem writeAll_end (b buf : List UInt8) : Cursor.writeAll ⟨b, b.length⟩ buf = ⟨b ++ buf, (b ++ buf).length⟩ := by
  simp [Cursor.writeAll]

theorem writes_end (l : List (List UInt8)) (b : List UInt8) :
    l.foldl Cursor.writeAll ⟨b, b.length⟩ = ⟨b ++ l.flatten, (b ++ l.flatten).length⟩ := by
  induction l generalizing b with
  | nil => simp
  | cons x l ih => rw [List.foldl_cons, writeAll_end, ih, List.flatten_cons, List.append_assoc]

/-- C126. The result is what the encoder wrote, in the order in which it wrote it, or its error. -/
theorem C126_bytes (E : Encoder ε) (img : Img) :
    (E.error img = none → imageToPngBytes E img = .ok (E.writes img).flatten) ∧
    ∀ e, E.error img = some e → imageToPngBytes E img = .error e := by
  have h := writes_end (E.writes img) []
  refine ⟨fun he => ?_, fun e he => ?_⟩
  · unfold imageToPngBytes Cursor.new
    rw [he]
    exact congrArg (fun c => Except.ok (Cursor.bytes c)) h
  · unfold imageToPngBytes
    rw [he]

theorem ok_iff {E : Encoder ε} {img : Img} {b : List UInt8} :
    imageToPngBytes E img = .ok b ↔ E.error img = none ∧ (E.writes img).flatten = b := by
  cases he : E.error img with
  | none => rw [(C126_bytes E img).1 he]; simp
  | some e => rw [(C126_bytes E img).2 e he]; simp

/-- C126. With a lossless encoder exactly the same images have the same bytes. -/
theorem C126_faithful (E : Encoder ε) (hE : Lossless E) (i j : Img) (b c : List UInt8) (hi : imageToPngBytes E i = .ok b)
    (hj : imageToPngBytes E j = .ok c) : b = c ↔ SameImage i j := by
  obtain ⟨ei, rfl⟩ := ok_iff.mp hi
  obtain ⟨ej, rfl⟩ := ok_iff.mp hj
  exact ⟨hE i j ei ej, fun ⟨h1, h2, h3⟩ => by rw [(E.inside i j h1 h2 h3).1]⟩

/-- C126, mazes: the bytes determine the dimensions and every wall. -/
theorem C126_maze (E : Encoder ε) (hE : Lossless E) (oc : Bool) {w h w' h' : Nat} {g g' : List Maze.MazeNode} {img img' : Img}
    {b : List UInt8} (hd : Maze.Props.PrintDims w h) (hd' : Maze.Props.PrintDims w' h')
    (h1 : Maze.printMaze oc w h g = .ok (.ok img)) (h2 : Maze.printMaze oc w' h' g' = .ok (.ok img'))
    (b1 : imageToPngBytes E img = .ok b) (b2 : imageToPngBytes E img' = .ok b) : w = w' ∧ h = h' ∧ g = g' := by
  obtain ⟨s1, s2, s3⟩ := (C126_faithful E hE img img' b b b1 b2).mp rfl
  have dims : ∀ {w h g img}, Maze.Props.PrintDims w h → Maze.printMaze oc w h g = .ok (.ok img) →
      img.width = 10 * w + 1 ∧ img.height = 10 * h + 1 := by
    intro w h g img hd hp
    have hl : g.length = w * h := by
      by_contra hn
      rw [(Maze.Props.C31_invalid_dimensions oc g).1.mpr hn] at hp
      cases hp
    obtain ⟨i, e, d1, d2, _⟩ := Maze.Props.C31_print_maze oc hl hd
    rw [hp] at e
    cases e
    exact ⟨d1, d2⟩
  obtain ⟨a1, a2⟩ := dims hd h1
  obtain ⟨a3, a4⟩ := dims hd' h2
  obtain rfl : w = w' := by omega
  obtain rfl : h = h' := by omega
  exact ⟨rfl, rfl, Maze.Props.C32_faithful oc hd h1 h2 fun x y hx hy => s3 x (by omega) y (by omega)⟩

/-- C126, sudokus: with a readable font the bytes determine every cell. -/
theorem C126_sudoku (E : Encoder ε) (hE : Lossless E) (oc : Bool) (text : TextFn) (shade : Nat → Nat → Nat → Rgb)
    (G : Sudoku.Spec.Glyphs text shade) (p q : List UInt8) (hp : p.length = 81) (p9 : ∀ v ∈ p, v.toNat ≤ 9)
    (hq : q.length = 81) (q9 : ∀ v ∈ q, v.toNat ≤ 9) {img img' : Img} {b : List UInt8}
    (h1 : Sudoku.printSudoku oc text p = .ok (.ok img)) (h2 : Sudoku.printSudoku oc text q = .ok (.ok img'))
    (b1 : imageToPngBytes E img = .ok b) (b2 : imageToPngBytes E img' = .ok b) : p = q := by
  obtain ⟨s1, s2, s3⟩ := (C126_faithful E hE img img' b b b1 b2).mp rfl
  obtain ⟨_, i, _, e, d1, d2, _⟩ := Sudoku.Props.C94_cells oc text shade G p hp p9
  rw [h1] at e
  cases e
  exact Sudoku.Props.C94_faithful oc text shade G p q hp p9 hq q9 img img' h1 h2 fun x hx y hy =>
    s3 x (by omega) y (by omega)

/-- C126, nonograms: the bytes determine the marked squares. -/
theorem C126_nonogram (E : Encoder ε) (hE : Lossless E) (oc : Bool) (width height : Nat) (image : Img) (g g' : List Bool)
    (hw : Nonogram.Spec.side width < 2 ^ 31) (hh : Nonogram.Spec.side height < 2 ^ 31) (hs : width * height < 2 ^ 32)
    (hg : g.length = width * height) (hg' : g'.length = width * height) (hiw : image.width = Nonogram.Spec.side width)
    (hih : image.height = Nonogram.Spec.side height) (hn : Nonogram.Props.NotBlack width height image) {img img' : Img}
    {b : List UInt8} (h1 : Nonogram.printNonogramSolution oc width height image g = .ok (.ok img))
    (h2 : Nonogram.printNonogramSolution oc width height image g' = .ok (.ok img'))
    (b1 : imageToPngBytes E img = .ok b) (b2 : imageToPngBytes E img' = .ok b) : g = g' := by
  obtain ⟨s1, s2, s3⟩ := (C126_faithful E hE img img' b b b1 b2).mp rfl
  obtain ⟨i, e, d1, d2, _⟩ := Nonogram.Props.C51_fills oc width height image g hw hh hs hg hiw hih
  rw [h1] at e
  cases e
  exact Nonogram.Props.C93_faithful oc width height image g g' hw hh hs hg hg' hiw hih hn img img' h1 h2 fun x hx y hy =>
    s3 x (by omega) y (by omega)

/-- The pixels row by row. -/
def pixels (i : Img) : List Rgb := (List.range (i.width * i.height)).map fun k => i.px (k % i.width) (k / i.width)

/-- A lossless encoder: the sides as numbers of ones, then the red, green and blue values. It refuses empty images. -/
def raw : Encoder Unit where
  writes i := [List.replicate i.width 1 ++ [0], List.replicate i.height 1 ++ [0], (pixels i).map Rgb.r, (pixels i).map Rgb.g,
    (pixels i).map Rgb.b]
  error i := if i.width * i.height = 0 then some () else none
  inside i j h1 h2 h3 := by
    have : pixels i = pixels j := by
      unfold pixels
      rw [← h1, ← h2]
      refine List.map_congr_left fun k hk => ?_
      have hk := List.mem_range.mp hk
      have hw : 0 < i.width := Nat.pos_of_mul_pos_right (by omega : 0 < i.width * i.height)
      exact h3 _ (Nat.mod_lt _ hw) _ (Nat.div_lt_of_lt_mul hk)
    rw [h1, h2, this]
    exact ⟨rfl, rfl⟩

theorem ones {a b : Nat} {s t : List UInt8} (h : List.replicate a 1 ++ 0 :: s = List.replicate b 1 ++ 0 :: t) : a = b ∧ s = t := by
  induction a generalizing b with
  | zero => cases b <;> simp_all [List.replicate_succ]
  | succ a ih =>
    cases b with
    | zero => simp [List.replicate_succ] at h
    | succ b =>
      simp only [List.replicate_succ, List.cons_append, List.cons.injEq, true_and] at h
      obtain ⟨h1, h2⟩ := ih h
      exact ⟨by rw [h1], h2⟩

/-- The hypotheses of C126 are met by an encoder, for every image that is not empty. -/
theorem raw_lossless : Lossless raw := by
  intro i j _ _ h
  simp only [raw, List.flatten_cons, List.flatten_nil, List.append_assoc, List.append_nil, List.cons_append, List.nil_append] at h
  obtain ⟨h1, h⟩ := ones h
  obtain ⟨h2, h⟩ := ones h
  have hl : (pixels i).length = (pixels j).length := by simp [pixels, h1, h2]
  obtain ⟨r, h⟩ := List.append_inj h (by simpa using hl)
  obtain ⟨g, b⟩ := List.append_inj h (by simpa using hl)
  refine ⟨h1, h2, fun x hx y hy => ?_⟩
  have hk : y * i.width + x < i.width * i.height := by
    have : (y + 1) * i.width ≤ i.height * i.width := Nat.mul_le_mul_right _ hy
    rw [Nat.add_mul, Nat.mul_comm i.height] at this
    omega
  have get : ∀ {α : Type} (f : Rgb → α), (pixels i).map f = (pixels j).map f → f (i.px x y) = f (j.px x y) := by
    intro α f hf
    have := congrArg (fun l => l[y * i.width + x]?) hf
    have e1 : (y * i.width + x) % i.width = x := by rw [Nat.mul_comm, Nat.mul_add_mod, Nat.mod_eq_of_lt hx]
    have e2 : (y * i.width + x) / i.width = y := by
      rw [Nat.mul_comm, Nat.mul_add_div (by omega), Nat.div_eq_of_lt hx, Nat.add_zero]
    simp only [pixels, List.map_map, List.getElem?_map, ← h1, ← h2, List.getElem?_range hk, Option.map_some,
      Function.comp_apply, e1, e2, Option.some.injEq] at this
    exact this
  have h3 := get Rgb.r r
  have h4 := get Rgb.g g
  have h5 := get Rgb.b b
  revert h3 h4 h5
  cases i.px x y
  cases j.px x y
  rintro rfl rfl rfl
  rfl

/-- One maze of one cell, 11 x 11 pixels, has bytes; an empty image has none. -/
example (g : Img) (h1 : g.width = 11) (h2 : g.height = 11) : imageToPngBytes raw g = .ok (raw.writes g).flatten :=
  (C126_bytes raw g).1 (by simp [raw, h1, h2])
example (c : Nat → Nat → Rgb) : imageToPngBytes raw ⟨0, 5, c⟩ = .error () := (C126_bytes raw _).2 () rfl
example : Maze.Props.PrintDims 20 30 := ⟨by decide, by decide, by decide, by decide⟩

example := C126_sudoku raw raw_lossless true Sudoku.Props.dots _ Sudoku.Props.dots_glyphs
example := C126_nonogram raw raw_lossless true 5 5

end Png.Props
