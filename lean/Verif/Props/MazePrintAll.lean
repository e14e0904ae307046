import Verif.Props.Maze
import Verif.Proofs.Maze.PrintAll

/-! C105: `print_maze` on every grid of `width * height` cells, in both build modes. -/
namespace Maze.Props
open Maze Maze.Spec

variable {w h : Nat}

/-- C105, with overflow checks: a picture of `10w+1` by `10h+1` pixels is returned exactly if both dimensions fit in
`u32` and the buffer in an allocation; otherwise the call panics. The black pixels are the left border, the top
border from pixel 10 on, and the walls, where the walls of cell `c` are drawn at cell `c mod 2^32`. -/
theorem C105_debug {g : List MazeNode} (hl : g.length = w * h) :
    (10 * w + 1 < 2 ^ 32 ∧ 10 * h + 1 < 2 ^ 32 ∧ 3 * (10 * w + 1) * (10 * h + 1) < 2 ^ 63 →
      ∃ img, printMaze true w h g = .ok (.ok img) ∧ img.width = 10 * w + 1 ∧ img.height = 10 * h + 1 ∧
        ∀ x y, x < 10 * w + 1 → y < 10 * h + 1 →
          (x = 0 ∨ (y = 0 ∧ 10 ≤ x) ∨ DrawnWall w g x y → img.px x y = ⟨0, 0, 0⟩) ∧
          (¬ (x = 0 ∨ (y = 0 ∧ 10 ≤ x) ∨ DrawnWall w g x y) → img.px x y = ⟨255, 255, 255⟩)) ∧
    (¬ (10 * w + 1 < 2 ^ 32 ∧ 10 * h + 1 < 2 ^ 32 ∧ 3 * (10 * w + 1) * (10 * h + 1) < 2 ^ 63) →
      printMaze true w h g = .panic) := by
  have D := printMaze_debug hl
  have R := printMaze_release hl
  simp only at R
  constructor
  · rintro ⟨h1, h2, h3⟩
    rw [D.1 ⟨h1, h2⟩]
    rw [Nat.mod_eq_of_lt h1, Nat.mod_eq_of_lt h2] at R
    have lt : ∀ a b, DrawnWall w g a b → a % 2 ^ 32 = a ∧ b % 2 ^ 32 = b ∧ a < 10 * w + 1 ∧ b < 10 * h + 1 := by
      intro a b hd
      obtain ⟨l1, l2⟩ := drawn_in hl hd
      exact ⟨Nat.mod_eq_of_lt (by omega), Nat.mod_eq_of_lt (by omega), l1, l2⟩
    obtain ⟨img, e, eW, eH, px⟩ := R.1 ⟨h3, fun a b hd => by
      obtain ⟨e1, e2, l1, l2⟩ := lt a b hd
      rw [e1, e2]; exact ⟨l1, l2⟩⟩
    have key : ∀ x y, (∃ a b, DrawnWall w g a b ∧ x = a % 2 ^ 32 ∧ y = b % 2 ^ 32) ↔ DrawnWall w g x y := by
      intro x y
      constructor
      · rintro ⟨a, b, hd, rfl, rfl⟩
        obtain ⟨e1, e2, _⟩ := lt a b hd
        rw [e1, e2]; exact hd
      · intro hd
        obtain ⟨e1, e2, _⟩ := lt x y hd
        exact ⟨x, y, hd, e1.symm, e2.symm⟩
    refine ⟨img, e, eW, eH, fun x y hx hy => ?_⟩
    have := px x y hx hy
    rw [key] at this
    exact this
  · intro hn
    by_cases hb : 10 * w + 1 < 2 ^ 32 ∧ 10 * h + 1 < 2 ^ 32
    · rw [D.1 hb]
      rw [Nat.mod_eq_of_lt hb.1, Nat.mod_eq_of_lt hb.2] at R
      exact R.2 fun hf => hn ⟨hb.1, hb.2, hf.1⟩
    · exact D.2 hb

example : (∃ img, printMaze true 2 1 [⟨false, true⟩, ⟨true, true⟩] = .ok (.ok img) ∧ img.width = 21) ∧
    ∀ g : List MazeNode, g.length = 429496730 * 1 → printMaze true 429496730 1 g = .panic := by
  obtain ⟨img, h, hw, _⟩ := (C105_debug (w := 2) (h := 1) (g := [⟨false, true⟩, ⟨true, true⟩]) rfl).1 (by omega)
  exact ⟨⟨img, h, hw⟩, fun g hg => (C105_debug hg).2 (by omega)⟩

/-- C105, without overflow checks: the picture has the dimensions modulo `2^32`, and its wall pixels have their
coordinates modulo `2^32`. It is returned exactly if all of these lie inside it and the buffer fits in an allocation;
otherwise the call panics. -/
theorem C105_release {g : List MazeNode} (hl : g.length = w * h) {W H : Nat} (hW : W = (10 * w + 1) % 2 ^ 32)
    (hH : H = (10 * h + 1) % 2 ^ 32) :
    (3 * W * H < 2 ^ 63 ∧ (∀ a b, DrawnWall w g a b → a % 2 ^ 32 < W ∧ b % 2 ^ 32 < H) →
      ∃ img, printMaze false w h g = .ok (.ok img) ∧ img.width = W ∧ img.height = H ∧
        ∀ x y, x < W → y < H →
          ((x = 0 ∨ (y = 0 ∧ 10 ≤ x) ∨ ∃ a b, DrawnWall w g a b ∧ x = a % 2 ^ 32 ∧ y = b % 2 ^ 32) →
            img.px x y = ⟨0, 0, 0⟩) ∧
          (¬ (x = 0 ∨ (y = 0 ∧ 10 ≤ x) ∨ ∃ a b, DrawnWall w g a b ∧ x = a % 2 ^ 32 ∧ y = b % 2 ^ 32) →
            img.px x y = ⟨255, 255, 255⟩)) ∧
    (¬ (3 * W * H < 2 ^ 63 ∧ ∀ a b, DrawnWall w g a b → a % 2 ^ 32 < W ∧ b % 2 ^ 32 < H) →
      printMaze false w h g = .panic) := by
  subst hW hH
  exact printMaze_release hl

/-- C105: as long as both dimensions fit in `u32` the build mode makes no difference. -/
theorem C105_same {g : List MazeNode} (h1 : 10 * w + 1 < 2 ^ 32) (h2 : 10 * h + 1 < 2 ^ 32) :
    printMaze true w h g = printMaze false w h g := by
  by_cases hl : g.length = w * h
  · exact (printMaze_debug hl).1 ⟨h1, h2⟩
  · rw [(C31_invalid_dimensions true g).1.mpr hl, (C31_invalid_dimensions false g).1.mpr hl]

example (g : List MazeNode) : printMaze true 1000 1000 g = printMaze false 1000 1000 g := C105_same (by omega) (by omega)

/-- C105: the smallest width that overflows. A row of 429496730 cells without walls is drawn by a release build as a
picture 5 pixels wide, and makes a debug build panic. -/
theorem C105_small_picture {g : List MazeNode} (hg : g = List.replicate 429496730 ⟨false, false⟩) :
    (∃ img, printMaze false 429496730 1 g = .ok (.ok img) ∧ img.width = 5 ∧ img.height = 11) ∧
    printMaze true 429496730 1 g = .panic := by
  have hl : g.length = 429496730 * 1 := by rw [hg, List.length_replicate]
  constructor
  · obtain ⟨img, e, eW, eH, _⟩ := (C105_release hl (W := 5) (H := 11) rfl rfl).1 ⟨by omega, by
      rintro a b ⟨c, n, hc, hw⟩
      rw [hg, List.getElem?_replicate] at hc
      split at hc
      · obtain rfl := Option.some.inj hc
        simp at hw
      · cases hc⟩
    exact ⟨img, e, eW, eH⟩
  · exact (C105_debug hl).2 (by omega)

/-- C105: two different grids of the same size have the same picture exactly if there are more than `2^32` cells (for
the dimensions that can be drawn), so the bound on the number of cells in C32 cannot be dropped. -/
theorem C105_unfaithful (oc : Bool) (h1 : 10 * w + 1 < 2 ^ 32) (h2 : 10 * h + 1 < 2 ^ 32)
    (h3 : 3 * (10 * w + 1) * (10 * h + 1) < 2 ^ 63) :
    (∃ g g' img img', g ≠ g' ∧ printMaze oc w h g = .ok (.ok img) ∧ printMaze oc w h g' = .ok (.ok img') ∧
      ∀ x y, x < 10 * w + 1 → y < 10 * h + 1 → img.px x y = img'.px x y) ↔ 2 ^ 32 < w * h := by
  have sw : ∀ g : List MazeNode, printMaze oc w h g = printMaze true w h g := by
    intro g; cases oc
    · exact (C105_same h1 h2).symm
    · rfl
  constructor
  · rintro ⟨g, g', img, img', hne, e, e', hp⟩
    by_contra hc
    exact hne (C32_faithful oc ⟨by omega, by omega, by omega, by rwa [Nat.mul_comm w, Nat.mul_comm h]⟩ e e' hp)
  · intro hc
    have hpos : 0 < w := by
      rcases Nat.eq_zero_or_pos w with h0 | h0
      · rw [h0] at hc; simp at hc
      · exact h0
    obtain ⟨g, hg⟩ : ∃ g, g = List.replicate (w * h) (⟨true, true⟩ : MazeNode) := ⟨_, rfl⟩
    have hl : g.length = w * h := by rw [hg, List.length_replicate]
    have gi : ∀ c, c < w * h → g[c]? = some ⟨true, true⟩ := by
      intro c hc; rw [hg, List.getElem?_replicate, if_pos hc]
    obtain ⟨g', hg'⟩ : ∃ g', g' = g.set (2 ^ 32) ⟨false, false⟩ := ⟨_, rfl⟩
    have hl' : g'.length = w * h := by rw [hg', List.length_set, hl]
    have gi' : ∀ c, c < w * h → c ≠ 2 ^ 32 → g'[c]? = some ⟨true, true⟩ := by
      intro c hc hn; rw [hg', List.getElem?_set_ne (by omega), gi c hc]
    have gx : g'[2 ^ 32]? = some ⟨false, false⟩ := by
      rw [hg', List.getElem?_set_self (by omega)]
    obtain ⟨i, e, _, _, px⟩ := (C105_debug hl).1 ⟨h1, h2, h3⟩
    obtain ⟨i', e', _, _, px'⟩ := (C105_debug hl').1 ⟨h1, h2, h3⟩
    refine ⟨g, g', i, i', ?_, by rw [sw, e], by rw [sw, e'], ?_⟩
    · intro he
      have := gi _ hc
      rw [he, gx] at this
      simp at this
    · have key : ∀ x y, DrawnWall w g x y ↔ DrawnWall w g' x y := by
        intro x y
        constructor
        · rintro ⟨c, n, hcn, hw⟩
          have hlt : c < w * h := by rw [← hl]; exact (List.getElem?_eq_some_iff.1 hcn).1
          have := gi c hlt
          rw [this] at hcn
          obtain rfl := Option.some.inj hcn
          by_cases h0 : c = 2 ^ 32
          · rw [h0] at hw
            exact ⟨0, _, gi' 0 (by omega) (by omega), by simpa using hw⟩
          · exact ⟨c, _, gi' c hlt h0, hw⟩
        · rintro ⟨c, n, hcn, hw⟩
          have hlt : c < w * h := by rw [← hl']; exact (List.getElem?_eq_some_iff.1 hcn).1
          by_cases h0 : c = 2 ^ 32
          · rw [h0, gx] at hcn
            obtain rfl := Option.some.inj hcn
            simp at hw
          · rw [gi' c hlt h0] at hcn
            exact ⟨c, n, by rw [gi c hlt, hcn], hw⟩
      intro x y hx hy
      have p := px x y hx hy
      have p' := px' x y hx hy
      rw [key] at p
      by_cases hb : x = 0 ∨ (y = 0 ∧ 10 ≤ x) ∨ DrawnWall w g' x y
      · rw [p.1 hb, p'.1 hb]
      · rw [p.2 hb, p'.2 hb]

/-- The right side of C105_unfaithful holds for a square maze of 65537 x 65537 cells, and its hypotheses too. -/
example : 10 * 65537 + 1 < 2 ^ 32 ∧ 3 * (10 * 65537 + 1) * (10 * 65537 + 1) < 2 ^ 63 ∧ 2 ^ 32 < 65537 * 65537 := by
  omega

/-- The two cases of C105_debug: 1000 x 1000 cells are drawn, 429496730 x 1 cells are not. -/
example : (10 * 1000 + 1 < 2 ^ 32 ∧ 3 * (10 * 1000 + 1) * (10 * 1000 + 1) < 2 ^ 63) ∧ ¬ 10 * 429496730 + 1 < 2 ^ 32 := by
  omega

/-- With walls the narrow picture of C105_small_picture cannot be drawn: the same row with walls between its cells panics in a
release build too. -/
example {g : List MazeNode} (hg : g = List.replicate 429496730 ⟨true, false⟩) :
    printMaze false 429496730 1 g = .panic := by
  have hl : g.length = 429496730 * 1 := by rw [hg, List.length_replicate]
  refine (C105_release hl (W := 5) (H := 11) rfl rfl).2 ?_
  rintro ⟨_, hf⟩
  have := hf 10 0 ⟨0, ⟨true, false⟩, by rw [hg, List.getElem?_replicate, if_pos (by omega)], .inl ⟨rfl, by simp⟩⟩
  omega

end Maze.Props
