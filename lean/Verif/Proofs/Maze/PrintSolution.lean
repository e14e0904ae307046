import Verif.Proofs.Maze.Print

/-! Helper lemmas: `print_maze_solution`. -/
namespace Maze
open Spec

/-- Red writes at the given positions. -/
def redPuts (l : List (Int × Int)) : List Put := l.map fun p => ⟨p.1.toNat, p.2.toNat, redPixel⟩

theorem redPuts_append (a b : List (Int × Int)) : redPuts (a ++ b) = redPuts a ++ redPuts b := by
  simp [redPuts]

/-- The test made for one step, given that the current centre is inside the image. -/
def Acc (W H x y : Nat) : MazeDirection → Prop
  | .Right => x * 10 + 16 ≤ W
  | .Down => y * 10 + 16 ≤ H
  | .Left => 2 ≤ x
  | .Up => 2 ≤ y

/-- The next position. -/
def nextPos (x y : Nat) : MazeDirection → Nat × Nat
  | .Right => (x + 1, y)
  | .Down => (x, y + 1)
  | .Left => (x - 1, y)
  | .Up => (x, y - 1)

theorem map_range_eq {f g : Nat → Put} {n : Nat} (hfg : ∀ k, k < n → f k = g k) :
    (List.range' 0 n).map f = (List.range n).map g := by
  rw [List.range_eq_range']
  apply List.map_congr_left
  intro k hk
  rw [List.mem_range'_1] at hk
  exact hfg k (by omega)

theorem solutionStep_ok (oc : Bool) {s : PState} {W H : Nat} (hW : s.img.width = W) (hH : s.img.height = H)
    (bW : W < 2 ^ 32) (bH : H < 2 ^ 32) (hx : s.x * 10 + 6 ≤ W) (hy : s.y * 10 + 6 ≤ H)
    (d : MazeDirection) (ha : Acc W H s.x s.y d) :
    solutionStep oc s d = .ok (.ok ⟨s.img.puts (redPuts (segment (s.x, s.y) d)),
      (nextPos s.x s.y d).1, (nextPos s.x s.y d).2⟩) := by
  obtain ⟨img, x, y⟩ := s
  simp only at hW hH hx hy ha
  subst hW hH
  have seg : ∀ (f : Nat → Prog (Nat × Nat)) (a b : Nat → Nat),
      (∀ k, k ≤ 10 → f k = .ok (a k, b k)) →
      (∀ k, k ≤ 10 → a k < img.width ∧ b k < img.height) →
      (∀ k : Nat, k < 11 → a k = (10 * (x : Int) + 5 + k * (vec d).1).toNat ∧
        b k = (10 * (y : Int) + 5 + k * (vec d).2).toNat) →
      putLoop img 0 10 redPixel f = .ok (img.puts (redPuts (segment (x, y) d))) := by
    intro f a b h1 h2 h3
    rw [putLoop_eq a b (fun k _ hk => h1 k hk) (fun k _ hk => h2 k hk)]
    congr 2
    simp only [redPuts, segment, List.map_map]
    apply map_range_eq
    intro k hk
    obtain ⟨e1, e2⟩ := h3 k hk
    simp only [Function.comp]
    rw [e1, e2]
  cases d with
  | Right =>
    simp only [Acc] at ha
    simp only [solutionStep, nextPos]
    rw [mulW_ok (by omega), Prog.ok_bind, addW_ok (by omega), Prog.ok_bind, if_neg (by omega),
      mulW_ok (by omega), Prog.ok_bind, addW_ok (by omega), Prog.ok_bind, if_neg (by omega),
      seg _ (fun k => x * 10 + k + 5) (fun _ => y * 10 + 5) ?_ ?_ ?_]
    · simp only [Prog.ok_bind]
      rw [addW_ok (by omega)]; rfl
    · intro k hk
      simp only [Prog.ok_bind]
      rw [addW_ok (by omega), Prog.ok_bind, addW_ok (by omega), Prog.ok_bind, addW_ok (by omega)]
      rfl
    · intro k hk; omega
    · intro k hk; simp only [vec]; constructor <;> omega
  | Down =>
    simp only [Acc] at ha
    simp only [solutionStep, nextPos]
    rw [mulW_ok (by omega), Prog.ok_bind, addW_ok (by omega), Prog.ok_bind, if_neg (by omega),
      mulW_ok (by omega), Prog.ok_bind, addW_ok (by omega), Prog.ok_bind, if_neg (by omega),
      seg _ (fun _ => x * 10 + 5) (fun k => y * 10 + k + 5) ?_ ?_ ?_]
    · simp only [Prog.ok_bind]
      rw [addW_ok (by omega)]; rfl
    · intro k hk
      simp only [Prog.ok_bind]
      rw [addW_ok (by omega), Prog.ok_bind, addW_ok (by omega), Prog.ok_bind, addW_ok (by omega)]
      rfl
    · intro k hk; omega
    · intro k hk; simp only [vec]; constructor <;> omega
  | Left =>
    simp only [Acc] at ha
    simp only [solutionStep, nextPos]
    rw [mulW_ok (by omega), Prog.ok_bind, if_neg (by omega),
      mulW_ok (by omega), Prog.ok_bind, addW_ok (by omega), Prog.ok_bind, if_neg (by omega),
      seg _ (fun k => x * 10 - k + 5) (fun _ => y * 10 + 5) ?_ ?_ ?_]
    · simp only [Prog.ok_bind]
      rw [subW_ok (by omega)]; rfl
    · intro k hk
      simp only [Prog.ok_bind]
      rw [subW_ok (by omega), Prog.ok_bind, addW_ok (by omega), Prog.ok_bind, addW_ok (by omega)]
      rfl
    · intro k hk; omega
    · intro k hk; simp only [vec]; constructor <;> omega
  | Up =>
    simp only [Acc] at ha
    simp only [solutionStep, nextPos]
    rw [mulW_ok (by omega), Prog.ok_bind, addW_ok (by omega), Prog.ok_bind, if_neg (by omega),
      mulW_ok (by omega), Prog.ok_bind, if_neg (by omega),
      seg _ (fun _ => x * 10 + 5) (fun k => y * 10 - k + 5) ?_ ?_ ?_]
    · simp only [Prog.ok_bind]
      rw [subW_ok (by omega)]; rfl
    · intro k hk
      simp only [Prog.ok_bind]
      rw [addW_ok (by omega), Prog.ok_bind, subW_ok (by omega), Prog.ok_bind, addW_ok (by omega)]
      rfl
    · intro k hk; omega
    · intro k hk; simp only [vec]; constructor <;> omega

theorem solutionStep_err (oc : Bool) {s : PState} {W H : Nat} (hW : s.img.width = W) (hH : s.img.height = H)
    (bW : W < 2 ^ 32) (bH : H < 2 ^ 32) (hx : s.x * 10 + 6 ≤ W) (hy : s.y * 10 + 6 ≤ H)
    (d : MazeDirection) (fr : d = .Right → s.x * 10 + 16 < 2 ^ 32) (fd : d = .Down → s.y * 10 + 16 < 2 ^ 32) (ha : ¬ Acc W H s.x s.y d) :
    solutionStep oc s d = .ok (.error .InvalidSolution) := by
  obtain ⟨img, x, y⟩ := s
  simp only at hW hH hx hy fr fd ha
  subst hW hH
  cases d with
  | Right =>
    have fr := fr rfl
    simp only [Acc] at ha
    simp only [solutionStep]
    rw [mulW_ok (by omega), Prog.ok_bind, addW_ok (by omega), Prog.ok_bind, if_pos (by omega)]
    rfl
  | Down =>
    have fd := fd rfl
    simp only [Acc] at ha
    simp only [solutionStep]
    rw [mulW_ok (by omega), Prog.ok_bind, addW_ok (by omega), Prog.ok_bind, if_neg (by omega),
      mulW_ok (by omega), Prog.ok_bind, addW_ok (by omega), Prog.ok_bind, if_pos (by omega)]
    rfl
  | Left =>
    simp only [Acc] at ha
    simp only [solutionStep]
    rw [mulW_ok (by omega), Prog.ok_bind, if_pos (by omega)]
    rfl
  | Up =>
    simp only [Acc] at ha
    simp only [solutionStep]
    rw [mulW_ok (by omega), Prog.ok_bind, addW_ok (by omega), Prog.ok_bind, if_neg (by omega),
      mulW_ok (by omega), Prog.ok_bind, if_pos (by omega)]
    rfl

theorem acc_iff {W H x y : Nat} (hx : x * 10 + 6 ≤ W) (hy : y * 10 + 6 ≤ H) (d : MazeDirection) :
    Acc W H x y d ↔ (∀ q ∈ segment (x, y) d, InImage W H q) ∧ ¬ (d = .Left ∧ (x : Int) = 1) ∧
      ¬ (d = .Up ∧ (y : Int) = 1) := by
  have hseg : (∀ q ∈ segment (x, y) d, InImage W H q) ↔ ∀ k : Nat, k < 11 →
      InImage W H (10 * (x : Int) + 5 + k * (vec d).1, 10 * (y : Int) + 5 + k * (vec d).2) := by
    simp only [segment, List.mem_map, List.mem_range]
    constructor
    · intro h k hk; exact h _ ⟨k, hk, rfl⟩
    · rintro h q ⟨k, hk, rfl⟩; exact h k hk
  rw [hseg]
  cases d
  · simp only [Acc, InImage, vec, reduceCtorEq, false_and, not_false_eq_true, and_true]
    constructor
    · intro h k hk; omega
    · intro h; have := h 10 (by omega); omega
  · simp only [Acc, InImage, vec, reduceCtorEq, false_and, not_false_eq_true, and_true]
    constructor
    · intro h k hk; omega
    · intro h; have := h 10 (by omega); omega
  · simp only [Acc, InImage, vec, reduceCtorEq, false_and, not_false_eq_true, and_true, true_and]
    constructor
    · intro h; exact ⟨fun k hk => by omega, by omega⟩
    · rintro ⟨h, h'⟩; have := h 10 (by omega); omega
  · simp only [Acc, InImage, vec, reduceCtorEq, false_and, not_false_eq_true, true_and]
    constructor
    · intro h; exact ⟨fun k hk => by omega, by omega⟩
    · rintro ⟨h, h'⟩; have := h 10 (by omega); omega

/-- Acceptance of the steps of a route. -/
def StepsOk (W H : Nat) (p : Int × Int) (ds : List MazeDirection) : Prop :=
  (∀ q ∈ segments p ds, InImage W H q) ∧ ¬ BackToEdge p ds

theorem stepsOk_cons {W H x y : Nat} (hx : x * 10 + 6 ≤ W) (hy : y * 10 + 6 ≤ H) (d : MazeDirection)
    (ds : List MazeDirection) :
    StepsOk W H (x, y) (d :: ds) ↔ Acc W H x y d ∧ StepsOk W H ((x : Int) + (vec d).1, (y : Int) + (vec d).2) ds := by
  rw [acc_iff hx hy]
  simp only [StepsOk, segments, BackToEdge, List.forall_mem_append]
  tauto

theorem nextPos_cast {W H x y : Nat} {d : MazeDirection} (ha : Acc W H x y d) :
    ((x : Int) + (vec d).1, (y : Int) + (vec d).2) =
      (((nextPos x y d).1 : Int), ((nextPos x y d).2 : Int)) := by
  cases d <;> simp only [Acc] at ha <;> simp only [vec, nextPos, Prod.mk.injEq] <;> constructor <;> omega

theorem nextPos_in {W H x y : Nat} (hx : x * 10 + 6 ≤ W) (hy : y * 10 + 6 ≤ H) {d : MazeDirection}
    (ha : Acc W H x y d) : (nextPos x y d).1 * 10 + 6 ≤ W ∧ (nextPos x y d).2 * 10 + 6 ≤ H := by
  cases d <;> simp only [Acc] at ha <;> simp only [nextPos] <;> constructor <;> omega

theorem solutionSteps_spec (oc : Bool) {W H : Nat} (bW : W + 11 ≤ 2 ^ 32) (bH : H + 11 ≤ 2 ^ 32)
    (ds : List MazeDirection) : ∀ {s : PState}, s.img.width = W → s.img.height = H →
      s.x * 10 + 6 ≤ W → s.y * 10 + 6 ≤ H →
      (StepsOk W H (s.x, s.y) ds → ∃ x' y' : Nat,
        solutionSteps oc s ds = .ok (.ok ⟨s.img.puts (redPuts (segments (s.x, s.y) ds)), x', y'⟩) ∧
        endPos (s.x, s.y) ds = ((x' : Int), (y' : Int)) ∧ x' * 10 + 6 ≤ W ∧ y' * 10 + 6 ≤ H) ∧
      (¬ StepsOk W H (s.x, s.y) ds → solutionSteps oc s ds = .ok (.error .InvalidSolution)) := by
  induction ds with
  | nil =>
    intro s hW hH hx hy
    refine ⟨fun _ => ⟨s.x, s.y, rfl, rfl, hx, hy⟩, fun hn => ?_⟩
    exact absurd ⟨by simp [segments], by simp [BackToEdge]⟩ hn
  | cons d ds ih =>
    intro s hW hH hx hy
    rw [stepsOk_cons hx hy]
    by_cases ha : Acc W H s.x s.y d
    · have hstep := solutionStep_ok oc hW hH (by omega) (by omega) hx hy d ha
      obtain ⟨hx', hy'⟩ := nextPos_in hx hy ha
      have hc := nextPos_cast ha
      have ih' := ih (s := ⟨s.img.puts (redPuts (segment (s.x, s.y) d)),
        (nextPos s.x s.y d).1, (nextPos s.x s.y d).2⟩) (by simpa using hW) (by simpa using hH) hx' hy'
      simp only at ih'
      rw [← hc] at ih'
      have hunf : solutionSteps oc s (d :: ds) = solutionSteps oc ⟨s.img.puts (redPuts (segment (s.x, s.y) d)),
        (nextPos s.x s.y d).1, (nextPos s.x s.y d).2⟩ ds := by
        simp only [solutionSteps, hstep, Prog.ok_bind]
      rw [hunf]
      refine ⟨?_, ?_⟩
      · rintro ⟨_, h2⟩
        obtain ⟨x', y', e1, e2, e3⟩ := ih'.1 h2
        refine ⟨x', y', ?_, e2, e3⟩
        rw [e1]
        simp only [segments, redPuts_append, Img.puts_append]
      · intro hn
        exact ih'.2 (fun h => hn ⟨ha, h⟩)
    · refine ⟨fun h => absurd h.1 ha, fun _ => ?_⟩
      have hstep := solutionStep_err oc hW hH (by omega) (by omega) hx hy d (by omega) (by omega) ha
      simp [solutionSteps, hstep]

/-- Full description of `print_maze_solution` on an image of at least 6 by 6 pixels. -/
theorem printMazeSolution_spec (oc : Bool) {img : Img} (bW : img.width + 11 ≤ 2 ^ 32)
    (bH : img.height + 11 ≤ 2 ^ 32) (hW : 6 ≤ img.width) (hH : 6 ≤ img.height) (sol : List MazeDirection) :
    ((StepsOk img.width img.height (0, 0) sol.reverse ∧ 10 * (endPos (0, 0) sol.reverse).2 + 16 ≤ img.height) →
      printMazeSolution oc img sol = .ok (.ok (img.puts (redPuts (routePixels sol.reverse)))) ∧
      ∀ q ∈ routePixels sol.reverse, InImage img.width img.height q) ∧
    (¬ (StepsOk img.width img.height (0, 0) sol.reverse ∧ 10 * (endPos (0, 0) sol.reverse).2 + 16 ≤ img.height) →
      printMazeSolution oc img sol = .ok (.error .InvalidSolution)) := by
  have hentry : putLoop img 0 5 redPixel (fun k => do
      let px ← addW oc 32 0 5
      let py ← addW oc 32 0 k
      return (px, py)) =
      .ok (img.puts (redPuts ((List.range 6).map (fun (k : Nat) => ((5 : Int), (k : Int)))))) := by
    rw [putLoop_eq (fun _ => 5) (fun k => k) ?_ ?_]
    · congr 2
    · intro k _ hk
      rw [addW_ok (by omega), Prog.ok_bind, addW_ok (by omega)]
      simp
    · intro k _ hk; constructor <;> omega
  generalize hen : redPuts ((List.range 6).map (fun (k : Nat) => ((5 : Int), (k : Int)))) = en at hentry
  have hsteps := solutionSteps_spec oc bW bH sol.reverse (s := ⟨img.puts en, 0, 0⟩) (by simp) (by simp)
    (by simpa using hW) (by simpa using hH)
  simp only [Int.ofNat_zero] at hsteps
  have hunf : printMazeSolution oc img sol = (do
      match ← solutionSteps oc ⟨img.puts en, 0, 0⟩ sol.reverse with
      | .error e => return .error e
      | .ok s =>
        let a ← addW oc 32 (← mulW oc 32 s.x 10) 6
        if s.img.width < a then return .error .InvalidSolution
        let b ← addW oc 32 (← mulW oc 32 s.y 10) 16
        if s.img.height < b then return .error .InvalidSolution
        let img ← putLoop s.img 1 5 redPixel fun k => do
          let px ← addW oc 32 (← mulW oc 32 s.x 10) 5
          let py ← addW oc 32 (← addW oc 32 (← mulW oc 32 s.y 10) k) 5
          return (px, py)
        return .ok img) := by
    unfold printMazeSolution
    rw [if_neg (by omega), hentry]
    rfl
  rw [hunf]
  by_cases hst : StepsOk img.width img.height (0, 0) sol.reverse
  · obtain ⟨x', y', e1, e2, e3, e4⟩ := hsteps.1 hst
    rw [e1]
    simp only [Prog.ok_bind, e2]
    rw [mulW_ok (by omega), Prog.ok_bind, addW_ok (by omega), Prog.ok_bind]
    simp only [Img.puts_width, Img.puts_height]
    rw [if_neg (by omega), mulW_ok (by omega), Prog.ok_bind, addW_ok (by omega), Prog.ok_bind]
    refine ⟨?_, ?_⟩
    · rintro ⟨_, hy⟩
      rw [if_neg (by omega), putLoop_eq (fun _ => x' * 10 + 5) (fun k => y' * 10 + k + 5) ?_ ?_]
      · refine ⟨?_, ?_⟩
        · simp only [routePixels, redPuts_append, Img.puts_append, hen, e2]
          simp only [Prog.ok_bind, Prog.pure_eq]
          congr 3
          simp only [redPuts, List.map_map]
          rw [List.range_eq_range', show (5 + 1 - 1) = 5 from rfl,
            show List.range' 1 5 = (List.range' 0 5).map (fun k => k + 1) from rfl, List.map_map]
          apply List.map_congr_left
          intro k _
          simp only [Function.comp, Put.mk.injEq, and_true]
          constructor <;> omega
        · intro q hq
          simp only [routePixels, List.mem_append, List.mem_map, List.mem_range, e2] at hq
          rcases hq with (⟨k, hk, rfl⟩ | hq) | ⟨k, hk, rfl⟩
          · simp only [InImage]; omega
          · exact hst.1 q hq
          · simp only [InImage]; omega
      · intro k _ hk
        simp only [Prog.ok_bind]
        rw [addW_ok (by omega), Prog.ok_bind, addW_ok (by omega), Prog.ok_bind, addW_ok (by omega)]
        rfl
      · intro k _ hk; simp only [Img.puts_width, Img.puts_height]; omega
    · intro hn
      have : ¬ (10 * (y' : Int) + 16 ≤ img.height) := fun h => hn ⟨hst, h⟩
      rw [if_pos (by omega)]
      rfl
  · refine ⟨fun h => absurd h.1 hst, fun _ => ?_⟩
    rw [hsteps.2 hst]
    rfl

end Maze
