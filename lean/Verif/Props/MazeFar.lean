import Verif.Props.Maze
import Verif.Proofs.Maze.PrintFar

/-! C106: `print_maze_solution` on images of any size. The only difference to C33, C35 and C55 is in the last ten rows
and columns that a `u32` can number, where `x * 10 + 16` overflows. -/
namespace Maze.Props
open Maze Maze.Spec

/-- The steps of the route stay in the image and do not go back to the left or upper edge. -/
def Steps (W H : Nat) (ds : List MazeDirection) : Prop :=
  (∀ q ∈ segments (0, 0) ds, InImage W H q) ∧ ¬ BackToEdge (0, 0) ds

/-- C106, the panics. The overflow of `x * 10 + 16` in a step panics in both build modes (with wrapping, the pixels
written next are outside of the image); that of the last test only with overflow checks, or if the pixels written
after it are outside of the image. -/
theorem C106_panics (oc : Bool) {img : Img} (bW : img.width < 2 ^ 32) (bH : img.height < 2 ^ 32)
    (hW : 6 ≤ img.width) (hH : 6 ≤ img.height) (sol : List MazeDirection) :
    printMazeSolution oc img sol = .panic ↔ Overrun img.width img.height (0, 0) sol.reverse ∨
      (Steps img.width img.height sol.reverse ∧ (endPos (0, 0) sol.reverse).2 = 429496728 ∧
        (oc = true ∨ img.height < 4294967291)) := by
  obtain ⟨p1, p2, p3, p4, p5⟩ := printMazeSolution_all oc bW bH hW hH sol
  constructor
  · intro he
    by_contra hn
    simp only [not_or, not_and] at hn
    obtain ⟨n1, n2⟩ := hn
    by_cases hs : Steps img.width img.height sol.reverse
    · by_cases hE : (endPos (0, 0) sol.reverse).2 = 429496728
      · have := n2 hs hE
        have h3 : oc = false ∧ 4294967291 ≤ img.height := ⟨by simpa using this.1, by omega⟩
        rw [(p5 hs (.inr ⟨hE, h3⟩)).1] at he
        simp at he
      · by_cases hb : 10 * (endPos (0, 0) sol.reverse).2 + 16 ≤ img.height
        · rw [(p5 hs (.inl hb)).1] at he
          simp at he
        · rw [p3 hs hE hb] at he
          simp at he
    · rw [p2 n1 hs] at he
      simp at he
  · rintro (h | ⟨hs, hE, hc⟩)
    · exact p1 h
    · exact p4 hs hE hc

/-- C106, the pictures: which routes are accepted, and that exactly the pixels of the route become red. -/
theorem C106_pictures (oc : Bool) {img : Img} (bW : img.width < 2 ^ 32) (bH : img.height < 2 ^ 32)
    (hW : 6 ≤ img.width) (hH : 6 ≤ img.height) (sol : List MazeDirection) :
    ((∃ img', printMazeSolution oc img sol = .ok (.ok img')) ↔ Steps img.width img.height sol.reverse ∧
      (10 * (endPos (0, 0) sol.reverse).2 + 16 ≤ img.height ∨
        ((endPos (0, 0) sol.reverse).2 = 429496728 ∧ oc = false ∧ 4294967291 ≤ img.height))) ∧
    ∀ img', printMazeSolution oc img sol = .ok (.ok img') →
      img'.width = img.width ∧ img'.height = img.height ∧
      (∀ q ∈ routePixels sol.reverse, InImage img.width img.height q) ∧
      ∀ x y : Nat, (((x : Int), (y : Int)) ∈ routePixels sol.reverse → img'.px x y = ⟨255, 0, 0⟩) ∧
        (((x : Int), (y : Int)) ∉ routePixels sol.reverse → img'.px x y = img.px x y) := by
  obtain ⟨p1, p2, p3, p4, p5⟩ := printMazeSolution_all oc bW bH hW hH sol
  have key : (∃ img', printMazeSolution oc img sol = .ok (.ok img')) ↔ Steps img.width img.height sol.reverse ∧
      (10 * (endPos (0, 0) sol.reverse).2 + 16 ≤ img.height ∨
        ((endPos (0, 0) sol.reverse).2 = 429496728 ∧ oc = false ∧ 4294967291 ≤ img.height)) := by
    constructor
    · rintro ⟨img', he⟩
      by_cases ho : Overrun img.width img.height (0, 0) sol.reverse
      · rw [p1 ho] at he; cases he
      by_cases hs : Steps img.width img.height sol.reverse
      · refine ⟨hs, ?_⟩
        by_contra hn
        simp only [not_or, not_and] at hn
        by_cases hE : (endPos (0, 0) sol.reverse).2 = 429496728
        · have h3 : oc = true ∨ img.height < 4294967291 := by
            cases oc
            · exact .inr (by have := hn.2 hE rfl; omega)
            · exact .inl rfl
          rw [p4 hs hE h3] at he
          cases he
        · rw [p3 hs hE hn.1] at he
          simp at he
      · rw [p2 ho hs] at he
        simp at he
    · rintro ⟨hs, hc⟩
      exact ⟨_, (p5 hs hc).1⟩
  refine ⟨key, fun img' he => ?_⟩
  obtain ⟨hs, hc⟩ := key.1 ⟨img', he⟩
  obtain ⟨h1, h2⟩ := p5 hs hc
  rw [he] at h1
  simp only [Prog.ok.injEq, Except.ok.injEq] at h1
  subst h1
  refine ⟨by simp, by simp, h2, ?_⟩
  intro x y
  have hp := Img.puts_px_one (img := img) (ps := redPuts (routePixels sol.reverse)) (c := redPixel)
    (by intro p hp; simp only [redPuts, List.mem_map] at hp; obtain ⟨_, _, rfl⟩ := hp; rfl) x y
  have hmem : (∃ p ∈ redPuts (routePixels sol.reverse), p.x = x ∧ p.y = y) ↔
      ((x : Int), (y : Int)) ∈ routePixels sol.reverse := by
    constructor
    · rintro ⟨p, hm, rfl, rfl⟩
      simp only [redPuts, List.mem_map] at hm
      obtain ⟨q, hq, rfl⟩ := hm
      obtain ⟨i1, _, i3, _⟩ := h2 q hq
      simp only [Int.toNat_of_nonneg i1, Int.toNat_of_nonneg i3]
      exact hq
    · intro hq
      exact ⟨_, List.mem_map.mpr ⟨_, hq, rfl⟩, by simp, by simp⟩
  rw [hmem] at hp
  exact hp

/-- C106, the errors: everything else is rejected with `InvalidSolution`. -/
theorem C106_errors (oc : Bool) {img : Img} (bW : img.width < 2 ^ 32) (bH : img.height < 2 ^ 32)
    (hW : 6 ≤ img.width) (hH : 6 ≤ img.height) (sol : List MazeDirection) :
    printMazeSolution oc img sol = .panic ∨ (∃ img', printMazeSolution oc img sol = .ok (.ok img')) ∨
      printMazeSolution oc img sol = .ok (.error .InvalidSolution) := by
  obtain ⟨p1, p2, p3, p4, p5⟩ := printMazeSolution_all oc bW bH hW hH sol
  by_cases ho : Overrun img.width img.height (0, 0) sol.reverse
  · exact .inl (p1 ho)
  by_cases hs : Steps img.width img.height sol.reverse
  · by_cases hb : 10 * (endPos (0, 0) sol.reverse).2 + 16 ≤ img.height
    · exact .inr (.inl ⟨_, (p5 hs (.inl hb)).1⟩)
    by_cases hE : (endPos (0, 0) sol.reverse).2 = 429496728
    · by_cases hc : oc = true ∨ img.height < 4294967291
      · exact .inl (p4 hs hE hc)
      · simp only [not_or, Bool.not_eq_true, not_lt] at hc
        exact .inr (.inl ⟨_, (p5 hs (.inr ⟨hE, hc⟩)).1⟩)
    · exact .inr (.inr (p3 hs hE hb))
  · exact .inr (.inr (p2 ho hs))

example (sol : List MazeDirection) : printMazeSolution true ⟨301, 201, fun _ _ => ⟨255, 255, 255⟩⟩ sol = .panic ∨
    (∃ img', printMazeSolution true ⟨301, 201, fun _ _ => ⟨255, 255, 255⟩⟩ sol = .ok (.ok img')) ∨
    printMazeSolution true ⟨301, 201, fun _ _ => ⟨255, 255, 255⟩⟩ sol = .ok (.error .InvalidSolution) :=
  C106_errors true (by decide) (by decide) (by decide) (by decide) sol

theorem right_segments (n : Nat) : ∀ (p : Int × Int), (∀ q ∈ segments p (List.replicate n .Right),
      q.2 = 10 * p.2 + 5 ∧ 10 * p.1 + 5 ≤ q.1 ∧ q.1 ≤ 10 * p.1 + 5 + 10 * n) ∧
    ¬ BackToEdge p (List.replicate n .Right) ∧ endPos p (List.replicate n .Right) = (p.1 + n, p.2) := by
  induction n with
  | zero => intro p; simp [segments, BackToEdge, endPos]
  | succ n ih =>
    intro p
    obtain ⟨i1, i2, i3⟩ := ih (p.1 + 1, p.2)
    refine ⟨?_, ?_, ?_⟩
    · intro q hq
      simp only [List.replicate_succ, segments, vec, List.mem_append, segment, List.mem_map, List.mem_range,
        Int.add_zero] at hq
      rcases hq with ⟨k, hk, rfl⟩ | hq
      · simp only; omega
      · have := i1 q hq
        simp only at this
        omega
    · simp only [List.replicate_succ, BackToEdge, vec, reduceCtorEq, false_and, false_or, Int.add_zero]
      exact i2
    · simp only [List.replicate_succ, endPos, List.foldl_cons, vec, Int.add_zero] at i3 ⊢
      rw [i3]
      simp only [Prod.mk.injEq, and_true]
      omega

theorem down_segments (n : Nat) : ∀ (p : Int × Int), (∀ q ∈ segments p (List.replicate n .Down),
      q.1 = 10 * p.1 + 5 ∧ 10 * p.2 + 5 ≤ q.2 ∧ q.2 ≤ 10 * p.2 + 5 + 10 * n) ∧
    ¬ BackToEdge p (List.replicate n .Down) ∧ endPos p (List.replicate n .Down) = (p.1, p.2 + n) := by
  induction n with
  | zero => intro p; simp [segments, BackToEdge, endPos]
  | succ n ih =>
    intro p
    obtain ⟨i1, i2, i3⟩ := ih (p.1, p.2 + 1)
    refine ⟨?_, ?_, ?_⟩
    · intro q hq
      simp only [List.replicate_succ, segments, vec, List.mem_append, segment, List.mem_map, List.mem_range,
        Int.add_zero] at hq
      rcases hq with ⟨k, hk, rfl⟩ | hq
      · simp only; omega
      · have := i1 q hq
        simp only at this
        omega
    · simp only [List.replicate_succ, BackToEdge, vec, reduceCtorEq, false_and, false_or, Int.add_zero]
      exact i2
    · simp only [List.replicate_succ, endPos, List.foldl_cons, vec, Int.add_zero] at i3 ⊢
      rw [i3]
      simp only [Prod.mk.injEq, true_and]
      omega

/-- C106: the images on which no route makes `print_maze_solution` panic are exactly those of C33. -/
theorem C106_sharp (oc : Bool) {img : Img} (bW : img.width < 2 ^ 32) (bH : img.height < 2 ^ 32) :
    (∀ sol, ∃ r, printMazeSolution oc img sol = .ok r) ↔
      (img.width < 6 ∨ img.height < 6) ∨ (img.width + 11 ≤ 2 ^ 32 ∧ img.height + 11 ≤ 2 ^ 32) := by
  constructor
  · intro hall
    by_contra hn
    have hW : 6 ≤ img.width := by omega
    have hH : 6 ≤ img.height := by omega
    have hno : ∀ ds, ¬ Overrun img.width img.height (0, 0) ds := by
      intro ds ho
      obtain ⟨r, hr⟩ := hall ds.reverse
      have := (C106_panics oc bW bH hW hH ds.reverse).2 (.inl (by rwa [List.reverse_reverse]))
      rw [this] at hr
      cases hr
    by_cases hw : img.width + 11 ≤ 2 ^ 32
    · obtain ⟨s1, s2, s3⟩ := down_segments 429496728 (0, 0)
      refine hno _ ⟨List.replicate 429496728 .Down, .Down, [], rfl, fun q hq => ?_, s2, .inr ⟨rfl, ?_⟩⟩
      · have := s1 q hq
        simp only at this
        simp only [InImage]
        omega
      · rw [s3]; simp
    · obtain ⟨s1, s2, s3⟩ := right_segments 429496728 (0, 0)
      refine hno _ ⟨List.replicate 429496728 .Right, .Right, [], rfl, fun q hq => ?_, s2, .inl ⟨rfl, ?_⟩⟩
      · have := s1 q hq
        simp only at this
        simp only [InImage]
        omega
      · rw [s3]; simp
  · rintro (h | ⟨h1, h2⟩) sol
    · exact ⟨_, if_pos h⟩
    · exact C33_no_panic oc img sol h1 h2

/-- The exception in C106_pictures: straight down an image of 11 columns and `2^32 - 1` rows a release build paints the
route, a debug build panics. -/
example (img : Img) (hw : img.width = 11) (hh : img.height = 4294967295) :
    (∃ img', printMazeSolution false img (List.replicate 429496728 .Down) = .ok (.ok img')) ∧
    printMazeSolution true img (List.replicate 429496728 .Down) = .panic := by
  obtain ⟨s1, s2, s3⟩ := down_segments 429496728 (0, 0)
  have hs : Steps img.width img.height (List.replicate 429496728 MazeDirection.Down).reverse := by
    rw [List.reverse_replicate]
    refine ⟨fun q hq => ?_, s2⟩
    have := s1 q hq
    simp only at this
    simp only [InImage]
    omega
  have he : (endPos (0, 0) (List.replicate 429496728 MazeDirection.Down).reverse).2 = 429496728 := by
    rw [List.reverse_replicate, s3]; simp
  constructor
  · exact (C106_pictures false (by omega) (by omega) (by omega) (by omega) _).1.2 ⟨hs, .inr ⟨he, rfl, by omega⟩⟩
  · exact (C106_panics true (by omega) (by omega) (by omega) (by omega) _).2 (.inr ⟨hs, he, .inl rfl⟩)

end Maze.Props
