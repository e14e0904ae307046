import Verif.Props.PrintTarget
import Verif.Props.MazeTarget
import Verif.Props.NonogramTarget
import Verif.Props.FromText

/-! C136: whole runs of the maze and nonogram functions on targets with a 32-bit or 64-bit `usize`. -/
namespace PrintTarget.Props
open Maze Nonogram Nonogram.Spec Nonogram.Props

/-- C136, mazes: when the cells and the picture fit the target, `create_maze` followed by `print_maze` returns the maze, the route and the
picture of a 64-bit target for the same draws. The maze is perfect. -/
theorem C136_maze {ws : Nat} (hws : ws = 4 ∨ ws = 8) (oc : Bool) (rnd : Nat → Nat) {w h : Nat} (hw : 1 ≤ w) (hh : 1 ≤ h)
    (h1 : 10 * w + 1 < 2 ^ 32) (h2 : 10 * h + 1 < 2 ^ 32) (hb : 3 * (10 * w + 1) * (10 * h + 1) < 2 ^ (8 * ws - 1))
    (alg : MazeAlgorithm) :
    ∃ g sol img, createMazeT ws oc rnd w h alg = .ok (g, sol) ∧ createMaze oc rnd w h alg = .ok (g, sol) ∧
      printMazeT ws oc w h g = .ok (.ok img) ∧ printMaze oc w h g = .ok (.ok img) ∧ img.width = 10 * w + 1 ∧ img.height = 10 * h + 1 ∧
      (Maze.Spec.graph w h g).IsTree := by
  have hW : Maze.Props.Word ws := by rcases hws with rfl | rfl <;> simp [Maze.Props.Word]
  have hsz : w * h * 100 ≤ (10 * w + 1) * (10 * h + 1) := by
    have := Nat.mul_le_mul (show 10 * w ≤ 10 * w + 1 by omega) (show 10 * h ≤ 10 * h + 1 by omega)
    have e : 10 * w * (10 * h) = w * h * 100 := by ring
    omega
  have hn : w * h * (3 * ws) < 2 ^ (8 * ws - 1) := by
    rw [Nat.mul_assoc 3] at hb
    rcases hws with rfl | rfl <;> omega
  have hl : 2 ^ (8 * ws - 1) ≤ 2 ^ (8 * ws) := Nat.pow_le_pow_right (by omega) (by omega)
  obtain ⟨⟨g, sol⟩, e1, e2⟩ := Maze.Props.C133_create_maze hW oc rnd hw hh hn alg
  obtain ⟨g', sol', e3, hg, ht⟩ := Maze.Props.C133_perfect hW oc rnd hw hh hn alg
  rw [e1] at e3
  cases e3
  obtain ⟨img, e4, e5, e6⟩ := (C135_maze_ok hws oc g h1 h2).1 ⟨hg, hb⟩
  refine ⟨g, sol, img, e1, e2, e4, ?_, e5, e6, ht⟩
  have hp : w * h < 2 ^ (8 * ws) := by
    rw [Nat.mul_assoc 3] at hb
    omega
  rw [C135_maze hws oc g hp, Nat.mod_eq_of_lt h1, Nat.mod_eq_of_lt h2, if_neg (by omega)] at e4
  exact e4

/-- The rules of a picture are no longer than its lines. -/
theorem rules_short {w h : Nat} {pic : List Bool} (hl : pic.length = w * h) :
    (∀ r ∈ colRules w h pic, minLength r ≤ h) ∧ ∀ r ∈ rowRules w h pic, minLength r ≤ w := by
  have hcl : (colRules w h pic).length = w := by simp [colRules]
  have hrl : (rowRules w h pic).length = h := by simp [rowRules]
  constructor <;> intro r hr <;> obtain ⟨x, hx⟩ := List.getElem?_of_mem hr
  · have := follows_length ((solves_rules hl).2.1 x r hx)
    simpa [column, hrl] using this
  · have := follows_length ((solves_rules hl).2.2 x r hx)
    refine Nat.le_trans this ?_
    rw [hcl]
    simp [rowOf]

/-- C136, nonograms: a picture without empty lines whose image fits the target. Parsing its rules, solving, printing the puzzle and
printing the answer all succeed on the target, in both builds, and in the final image only filled squares of the picture are painted;
all of them, if the answer satisfies the rules. -/
theorem C136_nonogram {ws : Nat} (hws : ws = 4 ∨ ws = 8) (oc : Bool) (text : TextFn) (w h : Nat) (pic : List Bool)
    (hl : pic.length = w * h) (hw : 1 ≤ w) (hh : 1 ≤ h) (hw' : w ≤ 65535) (hh' : h ≤ 65535) (hn : NoEmptyLine w h pic)
    (hb : 3 * side w * side h < 2 ^ (8 * ws - 1)) :
    ∃ col row a img img', parseNonogramRulesT ws oc (writeRules (colRules w h pic)) h = .ok (.ok col) ∧
      parseNonogramRulesT ws oc (writeRules (rowRules w h pic)) w = .ok (.ok row) ∧
      solveNonogramT ws oc col row = .ok (.ok a) ∧ printNonogramT ws oc text w h col row = .ok (.ok img) ∧
      printNonogramSolutionT ws oc w h img a = .ok (.ok img') ∧
      (∀ cx < w, ∀ cy < h, ∀ x y, Inside w cx x → Inside h cy y →
        img'.px x y = img.px x y ∨ pic[w * cy + cx]? = some true ∧ img'.px x y = ⟨0, 0, 0⟩) ∧
      (Solves col row a → ∀ cx < w, ∀ cy < h, ∀ x y, Inside w cx x → Inside h cy y →
        (pic[w * cy + cx]? = some true → img'.px x y = ⟨0, 0, 0⟩) ∧
        (pic[w * cy + cx]? = some false → img'.px x y = img.px x y)) := by
  have hW : Nonogram.Props.Word ws := by rcases hws with rfl | rfl <;> simp [Nonogram.Props.Word]
  have h32 : 2 ^ 32 ≤ 2 ^ (8 * ws) := Nat.pow_le_pow_right (by omega) (by omega)
  have hlim : 2 ^ (8 * ws - 1) ≤ 2 ^ (8 * ws) := Nat.pow_le_pow_right (by omega) (by omega)
  have hcl : (colRules w h pic).length = w := by simp [colRules]
  have hrl : (rowRules w h pic).length = h := by simp [rowRules]
  obtain ⟨sc, sr⟩ := rules_short hl
  obtain ⟨p1, p2, _⟩ := C87_picture oc w h pic hl hw hh
    (short_limits (by simp [colRules]; omega) (by simp [rowRules]; omega))
  obtain ⟨col, row, a, img, img', q1, q2, q3, q4, q5, q6, q7⟩ := C120_nonogram oc text w h pic hl hw hh hw' hh' hn
  obtain rfl : col = colRules w h pic := by rw [p1] at q1; cases q1; rfl
  obtain rfl : row = rowRules w h pic := by rw [p2] at q2; cases q2; rfl
  have lift : ∀ {t : List Char} {rules : List (List Nat)} {b : Nat}, b ≤ 65535 → (∀ r ∈ rules, minLength r ≤ b) →
      parseNonogramRules oc t b = .ok (.ok rules) → parseNonogramRulesT ws oc t b = .ok (.ok rules) := by
    intro t rules b hb' hm e
    rw [← C134_64.1] at e
    rw [C134_parse hW oc (by omega) t rules (.inr fun r hr => by have := hm r hr; omega)]
    exact (C134_parse (.inr (.inr rfl)) oc (by omega) t rules (.inr fun r hr => by have := hm r hr; omega)).mp e
  have t1 := lift hh' sc q1
  have t2 := lift hw' sr q2
  have hle : w * h ≤ 3 * side w * side h := Nat.mul_le_mul (by unfold side; omega) (by unfold side; omega)
  have hpow : 2 ^ 25 ≤ 2 ^ min (8 * ws - 7) 31 := Nat.pow_le_pow_right (by omega) (by omega)
  have hacc := C134_accepted hW oc (colText := writeRules (colRules w h pic)) (rowText := writeRules (rowRules w h pic))
    (by rw [hrl]; exact t1) (by rw [hcl]; exact t2)
    (.inr fun r hr => by
      rcases List.mem_append.mp hr with hr | hr
      · have := sc r hr; omega
      · have := sr r hr; omega)
    (by rw [hcl]; omega) (by rw [hrl]; omega) (by rw [hcl, hrl]; omega)
  have s32 : ∀ {n}, n ≤ 65535 → side32 n = side n := by
    intro n hn
    unfold side32 margin32 side margin
    rw [Nat.mod_eq_of_lt (a := 10 * n) (by omega), Nat.mod_eq_of_lt (by omega)]
  refine ⟨_, _, a, img, img', t1, t2, hacc.2.2.2.trans q3, ?_, ?_, q6, q7⟩
  · rw [C135_nonogram hws, s32 hw', s32 hh', if_neg (by omega)]
    exact q4
  · rw [C135_solution oc img a (by omega)]
    exact q5

/-- A maze of 100 by 100 cells on a 32-bit target. -/
example (oc : Bool) (rnd : Nat → Nat) (alg : MazeAlgorithm) : ∃ g sol img, createMazeT 4 oc rnd 100 100 alg = .ok (g, sol) ∧
    printMazeT 4 oc 100 100 g = .ok (.ok img) ∧ img.width = 1001 := by
  obtain ⟨g, sol, img, e1, _, e2, _, e3, _⟩ := C136_maze (.inl rfl) oc rnd (w := 100) (h := 100) (by omega) (by omega) (by omega)
    (by omega) (by omega) alg
  exact ⟨g, sol, img, e1, e2, e3⟩

/-- The letter L on a 32-bit target. -/
example (oc : Bool) (text : TextFn) : ∃ col row a img,
    parseNonogramRulesT 4 oc (writeRules (colRules 2 2 [true, true, true, false])) 2 = .ok (.ok col) ∧
    solveNonogramT 4 oc col row = .ok (.ok a) ∧ printNonogramT 4 oc text 2 2 col row = .ok (.ok img) := by
  obtain ⟨col, row, a, img, _, h1, _, h3, h4, _⟩ := C136_nonogram (.inl rfl) oc text 2 2 [true, true, true, false] rfl
    (by decide) (by decide) (by decide) (by decide) (by unfold NoEmptyLine; decide) (by decide)
  exact ⟨col, row, a, img, h1, h3, h4⟩

end PrintTarget.Props
