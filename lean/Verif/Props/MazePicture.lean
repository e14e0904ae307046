import Verif.Proofs.Maze.Picture
import Verif.Props.Maze

/-!
Property theorems about routes over the picture of a maze (C90): the picture alone tells whether a route crosses a wall.
-/
namespace Maze.Props
open Maze Maze.Spec

variable {w h : Nat}

/-- The pixels of a route that a walker can follow lie in the picture, if the last cell is not in the bottom row or the
route's tail fits. -/
theorem route_inImage {g : List MazeNode} (hw : 0 < w) (hh : 0 < h) {ds : List MazeDirection} {cells : List Nat} {c : Nat}
    (h1 : walk w h g 0 ds = some cells) (h2 : cells.getLast? = some c) :
    ∀ q ∈ routePixels ds, InImage (10 * w + 1) (10 * h + 1) q := by
  have h0 : 0 < w * h := Nat.mul_pos hw hh
  obtain ⟨e1, e2, e3⟩ := walk_pos hw ds h0 h1 h2
  simp only [Nat.zero_mod, Nat.zero_div, Int.ofNat_zero] at e2 e3
  have hx := Nat.mod_lt c hw
  have hy : c / w < h := Nat.div_lt_of_lt_mul e1
  generalize c % w = x at e2 hx
  generalize c / w = y at e2 hy
  intro q hq
  unfold routePixels at hq
  rcases List.mem_append.mp hq with hq | hq
  · rcases List.mem_append.mp hq with hq | hq
    · obtain ⟨k, hk, rfl⟩ := List.mem_map.mp hq
      have := List.mem_range.mp hk
      unfold InImage
      dsimp only
      omega
    · exact e3 q hq
  · obtain ⟨k, hk, rfl⟩ := List.mem_map.mp hq
    have := List.mem_range.mp hk
    have a : (endPos (0, 0) ds).1 = (x : Int) := by rw [show endPos (0, 0) ds = ((x : Int), (y : Int)) from e2]
    have b : (endPos (0, 0) ds).2 = (y : Int) := by rw [show endPos (0, 0) ds = ((x : Int), (y : Int)) from e2]
    unfold InImage
    dsimp only
    rw [a, b]
    omega

theorem white_iff {g : List MazeNode} {img : Img} {q : Int × Int}
    (hp : ∀ x y, x < 10 * w + 1 → y < 10 * h + 1 →
        (WallPixel w g x y → img.px x y = ⟨0, 0, 0⟩) ∧ (¬ WallPixel w g x y → img.px x y = ⟨255, 255, 255⟩))
    (hi : InImage (10 * w + 1) (10 * h + 1) q) :
    img.px q.1.toNat q.2.toNat = ⟨255, 255, 255⟩ ↔ ¬ Picture.Wall w g q := by
  obtain ⟨a, b, c, d⟩ := hi
  obtain ⟨p1, p2⟩ := hp q.1.toNat q.2.toNat (by omega) (by omega)
  refine ⟨fun hq hW => ?_, p2⟩
  rw [p1 hW] at hq
  exact absurd hq (by decide)

/-- C90: `print_maze` draws a picture in which a route that stays inside the picture (from the entrance above the first
cell, ten pixels for each direction, and out through the bottom of the last cell) touches only white pixels exactly if
a walker in the maze can follow it and the bottom of the last cell is open. -/
theorem C90_route_white (oc : Bool) {g : List MazeNode} (hl : g.length = w * h) (hw : 1 ≤ w) (hh : 1 ≤ h)
    (hd : PrintDims w h) :
    ∃ img, printMaze oc w h g = .ok (.ok img) ∧
      ∀ ds, (∀ q ∈ routePixels ds, InImage img.width img.height q) →
        ((∀ x y : Nat, ((x : Int), (y : Int)) ∈ routePixels ds → img.px x y = ⟨255, 255, 255⟩) ↔
          ∃ cells c, walk w h g 0 ds = some cells ∧ cells.getLast? = some c ∧ downOpen g c = true) := by
  obtain ⟨img, h1, hW, hH, hp⟩ := C31_print_maze oc hl hd
  refine ⟨img, h1, fun ds hi => ?_⟩
  rw [hW, hH] at hi
  rw [← Picture.route_white hl hw hh ds hi]
  constructor
  · intro hx q hq
    have hq' := hi q hq
    rw [← white_iff hp hq']
    refine hx _ _ ?_
    obtain ⟨a, b, c, d⟩ := hq'
    rwa [Int.toNat_of_nonneg a, Int.toNat_of_nonneg c]
  · intro hx x y hq
    simpa using (white_iff hp (hi _ hq)).mpr (hx _ hq)

/-- In the 2x1 maze with an open passage the step to the right runs over white pixels. -/
example : ∃ img, printMaze true 2 1 [⟨false, true⟩, ⟨true, false⟩] = .ok (.ok img) ∧
    ∀ x y : Nat, ((x : Int), (y : Int)) ∈ routePixels [.Right] → img.px x y = ⟨255, 255, 255⟩ := by
  obtain ⟨img, h1, h2⟩ := C90_route_white (w := 2) (h := 1) true (g := [⟨false, true⟩, ⟨true, false⟩]) rfl (by omega) (by omega)
    (by constructor <;> omega)
  obtain ⟨img', h1', hW, hH, _⟩ := C31_print_maze (w := 2) (h := 1) true (g := [⟨false, true⟩, ⟨true, false⟩]) rfl
    (by constructor <;> omega)
  obtain rfl : img = img' := by rw [h1] at h1'; cases h1'; rfl
  refine ⟨img, h1, (h2 [.Right] ?_).mpr ⟨[0, 1], 1, by decide, rfl, by decide⟩⟩
  rw [hW, hH]
  exact route_inImage (w := 2) (h := 1) (g := [⟨false, true⟩, ⟨true, false⟩]) (by omega) (by omega) (ds := [.Right])
    (cells := [0, 1]) (c := 1) (by decide) rfl

/-- C90, second part: the solution of a maze at least two cells wide lies inside the picture of the maze and touches
only white pixels. (`print_maze_solution` nevertheless rejects it, C56: it wants six more rows of pixels.) -/
theorem C90_created (oc : Bool) (rnd : Nat → Nat) (alg : MazeAlgorithm) (hw : 2 ≤ w) (hh : 1 ≤ h) (hd : PrintDims w h) :
    ∃ g sol img, createMaze oc rnd w h alg = .ok (g, sol) ∧ printMaze oc w h g = .ok (.ok img) ∧
      (∀ q ∈ routePixels sol.reverse, InImage img.width img.height q) ∧
      ∀ x y : Nat, ((x : Int), (y : Int)) ∈ routePixels sol.reverse → img.px x y = ⟨255, 255, 255⟩ := by
  have hn : w * h * 24 < 2 ^ 63 := by have := hd.cells; omega
  obtain ⟨g, sol, e, h1, hR⟩ := createMaze_result oc rnd (by omega) hh hn alg
  obtain ⟨img, h2, hW, hH, _⟩ := C31_print_maze oc hR.len hd
  obtain ⟨img', h2', hr⟩ := C90_route_white oc hR.len (by omega) hh hd
  obtain rfl : img' = img := by
    rw [h2] at h2'
    simpa using h2'.symm
  obtain ⟨cells, c1, c2, _⟩ := hR.wide hw
  have hi : ∀ q ∈ routePixels sol.reverse, InImage img'.width img'.height q := by
    rw [hW, hH]; exact route_inImage (by omega) hh c1 c2
  exact ⟨g, sol, img', h1, h2, hi, (hr _ hi).mpr ⟨cells, e, c1, c2, (hR.exits e hR.he hR.bottom).mpr rfl⟩⟩

/-- C90, third part: if `print_maze_solution` accepts a list of directions for the picture of a maze, then it has painted
over a black pixel exactly if no walker can follow the directions and leave through the bottom of the last cell. -/
theorem C90_painted (oc : Bool) {g : List MazeNode} {img img' : Img} {sol : List MazeDirection} (hl : g.length = w * h)
    (hw : 1 ≤ w) (hh : 1 ≤ h) (hd : PrintDims w h) (bW : 10 * w + 17 ≤ 2 ^ 32) (bH : 10 * h + 17 ≤ 2 ^ 32)
    (h1 : printMaze oc w h g = .ok (.ok img)) (h2 : printMazeSolution oc img sol = .ok (.ok img')) :
    (∃ x y : Nat, x < img.width ∧ y < img.height ∧ img.px x y = ⟨0, 0, 0⟩ ∧ img'.px x y ≠ ⟨0, 0, 0⟩) ↔
      ¬ ∃ cells c, walk w h g 0 sol.reverse = some cells ∧ cells.getLast? = some c ∧ downOpen g c = true := by
  obtain ⟨im, e1, hW, hH, hp⟩ := C31_print_maze oc hl hd
  obtain ⟨im', e1', hr⟩ := C90_route_white oc hl hw hh hd
  obtain rfl : im = img := by rw [h1] at e1; simpa using e1.symm
  obtain rfl : im' = im := by rw [h1] at e1'; simpa using e1'.symm
  obtain ⟨_, _, hi, hpx⟩ := C35_paints_route oc im' img' sol (by omega) (by omega) h2
  rw [← hr _ hi]
  constructor
  · rintro ⟨x, y, _, _, hb, hn⟩ hall
    by_cases hq : ((x : Int), (y : Int)) ∈ routePixels sol.reverse
    · rw [hall x y hq] at hb
      exact absurd hb (by decide)
    · exact hn ((hpx x y).2 hq ▸ hb)
  · intro hn
    push Not at hn
    obtain ⟨x, y, hq, hne⟩ := hn
    have hb := hi _ hq
    obtain ⟨a, b, c, d⟩ := hb
    simp only [Nat.cast_lt] at b d
    refine ⟨x, y, b, d, ?_, ?_⟩
    · obtain ⟨p1, p2⟩ := hp x y (by omega) (by omega)
      by_cases hwp : WallPixel w g x y
      · exact p1 hwp
      · exact absurd (p2 hwp) hne
    · rw [(hpx x y).1 hq]; decide

example (rnd : Nat → Nat) : ∃ g sol img, createMaze true rnd 20 30 .RecursiveBacktrack = .ok (g, sol) ∧
    printMaze true 20 30 g = .ok (.ok img) ∧
    (∀ q ∈ routePixels sol.reverse, InImage img.width img.height q) ∧
    ∀ x y : Nat, ((x : Int), (y : Int)) ∈ routePixels sol.reverse → img.px x y = ⟨255, 255, 255⟩ :=
  C90_created true rnd _ (by omega) (by omega) (by constructor <;> omega)

/-- In a 1 x 2 maze with a wall below the first cell the empty route is accepted and crosses that wall. -/
example : ∃ img img', printMaze true 1 2 [⟨true, true⟩, ⟨true, false⟩] = .ok (.ok img) ∧
    printMazeSolution true img [] = .ok (.ok img') ∧
    ∃ x y : Nat, x < img.width ∧ y < img.height ∧ img.px x y = ⟨0, 0, 0⟩ ∧ img'.px x y ≠ ⟨0, 0, 0⟩ := by
  have hd : PrintDims 1 2 := by constructor <;> omega
  obtain ⟨img, h1, hW, hH, _⟩ := C31_print_maze (w := 1) (h := 2) true (g := [⟨true, true⟩, ⟨true, false⟩]) rfl hd
  have h2 := ((printMazeSolution_spec true (img := img) (by omega) (by omega) (by omega) (by omega) []).1
    ⟨⟨by simp [segments], by simp [BackToEdge]⟩, by rw [hH]; decide⟩).1
  refine ⟨img, _, h1, h2, (C90_painted true rfl (by omega) (by omega) hd (by omega) (by omega) h1 h2).mpr ?_⟩
  rintro ⟨cells, c, e1, e2, e3⟩
  simp only [List.reverse_nil, walk, Option.some.injEq] at e1
  subst e1
  simp only [List.getLast?_singleton, Option.some.injEq] at e2
  subst e2
  exact absurd e3 (by decide)

end Maze.Props
