import Verif.Proofs.Maze.PrintAll
import Verif.Proofs.Maze.PrintSolution

/-! Helper lemmas: `print_maze_solution` on images of any size. -/
namespace Maze
open Spec

theorem overrun_cons {W H x y : Nat} (hx : x * 10 + 6 ≤ W) (hy : y * 10 + 6 ≤ H) (d : MazeDirection)
    (ds : List MazeDirection) :
    Overrun W H (x, y) (d :: ds) ↔ ((d = .Right ∧ x = 429496728) ∨ (d = .Down ∧ y = 429496728)) ∨
      (Acc W H x y d ∧ Overrun W H ((x : Int) + (vec d).1, (y : Int) + (vec d).2) ds) := by
  rw [acc_iff hx hy]
  constructor
  · rintro ⟨pre, d', post, e, h1, h2, h3⟩
    cases pre with
    | nil =>
      simp only [List.nil_append, List.cons.injEq] at e
      obtain ⟨rfl, rfl⟩ := e
      simp only [endPos, List.foldl_nil] at h3
      exact .inl (h3.imp (fun h => ⟨h.1, by omega⟩) (fun h => ⟨h.1, by omega⟩))
    | cons a pre =>
      simp only [List.cons_append, List.cons.injEq] at e
      obtain ⟨rfl, rfl⟩ := e
      simp only [segments, BackToEdge, List.forall_mem_append] at h1 h2
      right
      refine ⟨⟨h1.1, by tauto, by tauto⟩, pre, d', post, rfl, h1.2, by tauto, ?_⟩
      simpa only [endPos, List.foldl_cons] using h3
  · rintro (h | ⟨⟨h1, h2, h3⟩, pre, d', post, rfl, h4, h5, h6⟩)
    · refine ⟨[], d, ds, rfl, by simp [segments], by simp [BackToEdge], ?_⟩
      simp only [endPos, List.foldl_nil]
      exact h.imp (fun h => ⟨h.1, by omega⟩) (fun h => ⟨h.1, by omega⟩)
    · refine ⟨d :: pre, d', post, rfl, ?_, ?_, ?_⟩
      · simp only [segments, List.forall_mem_append]; exact ⟨h1, h4⟩
      · simp only [BackToEdge]; tauto
      · simpa only [endPos, List.foldl_cons] using h6

theorem solutionStep_far (oc : Bool) {s : PState} {W H : Nat} (hW : s.img.width = W) (hH : s.img.height = H)
    (bW : W < 2 ^ 32) (bH : H < 2 ^ 32) (hx : s.x * 10 + 6 ≤ W) (hy : s.y * 10 + 6 ≤ H)
    (d : MazeDirection) (hf : (d = .Right ∧ s.x = 429496728) ∨ (d = .Down ∧ s.y = 429496728)) :
    solutionStep oc s d = .panic := by
  obtain ⟨img, x, y⟩ := s
  simp only at hW hH hx hy hf
  subst hW hH
  rcases hf with ⟨rfl, rfl⟩ | ⟨rfl, rfl⟩
  · simp only [solutionStep]
    rw [mulW_ok (by omega), Prog.ok_bind]
    cases oc
    · rw [addW_wrap, Prog.ok_bind, if_neg (by omega), mulW_ok (by omega), Prog.ok_bind, addW_ok (by omega),
        Prog.ok_bind, if_neg (by omega)]
      rw [putLoop_put (fun k => 429496728 * 10 + k + 5) (fun _ => y * 10 + 5)
        (fun k _ hk => by
          simp only [Prog.ok_bind]
          rw [addW_ok (by omega), Prog.ok_bind, addW_ok (by omega), Prog.ok_bind, addW_ok (by omega)]
          rfl)]
      rw [forIn'_put_panic]
      · rfl
      · refine ⟨_, List.mem_map.2 ⟨10, List.mem_range'_1.2 (by omega), rfl⟩, ?_⟩
        simp only; omega
    · rw [addW, if_neg (by omega)]; rfl
  · simp only [solutionStep]
    rw [mulW_ok (by omega), Prog.ok_bind, addW_ok (by omega), Prog.ok_bind, if_neg (by omega), mulW_ok (by omega),
      Prog.ok_bind]
    cases oc
    · rw [addW_wrap, Prog.ok_bind, if_neg (by omega)]
      rw [putLoop_put (fun _ => x * 10 + 5) (fun k => 429496728 * 10 + k + 5)
        (fun k _ hk => by
          simp only [Prog.ok_bind]
          rw [addW_ok (by omega), Prog.ok_bind, addW_ok (by omega), Prog.ok_bind, addW_ok (by omega)]
          rfl)]
      rw [forIn'_put_panic]
      · rfl
      · refine ⟨_, List.mem_map.2 ⟨10, List.mem_range'_1.2 (by omega), rfl⟩, ?_⟩
        simp only; omega
    · rw [addW, if_neg (by omega)]; rfl

theorem solutionSteps_all (oc : Bool) {W H : Nat} (bW : W < 2 ^ 32) (bH : H < 2 ^ 32)
    (ds : List MazeDirection) : ∀ {s : PState}, s.img.width = W → s.img.height = H →
      s.x * 10 + 6 ≤ W → s.y * 10 + 6 ≤ H →
      (StepsOk W H (s.x, s.y) ds → ∃ x' y' : Nat,
        solutionSteps oc s ds = .ok (.ok ⟨s.img.puts (redPuts (segments (s.x, s.y) ds)), x', y'⟩) ∧
        endPos (s.x, s.y) ds = ((x' : Int), (y' : Int)) ∧ x' * 10 + 6 ≤ W ∧ y' * 10 + 6 ≤ H) ∧
      (Overrun W H (s.x, s.y) ds → solutionSteps oc s ds = .panic) ∧
      (¬ Overrun W H (s.x, s.y) ds → ¬ StepsOk W H (s.x, s.y) ds →
        solutionSteps oc s ds = .ok (.error .InvalidSolution)) := by
  induction ds with
  | nil =>
    intro s hW hH hx hy
    refine ⟨fun _ => ⟨s.x, s.y, rfl, rfl, hx, hy⟩, ?_, fun _ hn => ?_⟩
    · rintro ⟨pre, d, post, e, _⟩; simp at e
    exact absurd ⟨by simp [segments], by simp [BackToEdge]⟩ hn
  | cons d ds ih =>
    intro s hW hH hx hy
    rw [stepsOk_cons hx hy, overrun_cons hx hy]
    by_cases ha : Acc W H s.x s.y d
    · have hnf : ¬ ((d = .Right ∧ s.x = 429496728) ∨ (d = .Down ∧ s.y = 429496728)) := by
        rintro (⟨rfl, hh⟩ | ⟨rfl, hh⟩) <;> simp only [Acc] at ha <;> omega
      have hstep := solutionStep_ok oc hW hH bW bH hx hy d ha
      obtain ⟨hx', hy'⟩ := nextPos_in hx hy ha
      have hc := nextPos_cast ha
      have ih' := ih (s := ⟨s.img.puts (redPuts (segment (s.x, s.y) d)),
        (nextPos s.x s.y d).1, (nextPos s.x s.y d).2⟩) (by simpa using hW) (by simpa using hH) hx' hy'
      simp only at ih'
      rw [← hc] at ih'
      have hunf : solutionSteps oc s (d :: ds) = solutionSteps oc ⟨s.img.puts (redPuts (segment (s.x, s.y) d)),
        (nextPos s.x s.y d).1, (nextPos s.x s.y d).2⟩ ds := by
        simp only [solutionSteps, hstep, Prog.ok_bind]
      rw [hunf]
      refine ⟨?_, ?_, ?_⟩
      · rintro ⟨_, h2⟩
        obtain ⟨x', y', e1, e2, e3⟩ := ih'.1 h2
        refine ⟨x', y', ?_, e2, e3⟩
        rw [e1]
        simp only [segments, redPuts_append, Img.puts_append]
      · rintro (h | ⟨_, h⟩)
        · exact absurd h hnf
        · exact ih'.2.1 h
      · intro ho hn
        exact ih'.2.2 (fun h => ho (.inr ⟨ha, h⟩)) (fun h => hn ⟨ha, h⟩)
    · refine ⟨fun h => absurd h.1 ha, ?_, fun ho _ => ?_⟩
      · rintro (h | ⟨h, _⟩)
        · simp [solutionSteps, solutionStep_far oc hW hH bW bH hx hy d h]
        · exact absurd h ha
      · have hstep := solutionStep_err oc hW hH bW bH hx hy d
          (fun h => by
            have : s.x ≠ 429496728 := fun h' => ho (.inl (.inl ⟨h, h'⟩))
            omega)
          (fun h => by
            have : s.y ≠ 429496728 := fun h' => ho (.inl (.inr ⟨h, h'⟩))
            omega) ha
        simp [solutionSteps, hstep]

/-- Full description of `print_maze_solution` on an image of at least 6 by 6 pixels. -/
theorem printMazeSolution_all (oc : Bool) {img : Img} (bW : img.width < 2 ^ 32)
    (bH : img.height < 2 ^ 32) (hW : 6 ≤ img.width) (hH : 6 ≤ img.height) (sol : List MazeDirection) :
    let S := StepsOk img.width img.height (0, 0) sol.reverse
    let e := (endPos (0, 0) sol.reverse).2
    (Overrun img.width img.height (0, 0) sol.reverse → printMazeSolution oc img sol = .panic) ∧
    (¬ Overrun img.width img.height (0, 0) sol.reverse → ¬ S →
      printMazeSolution oc img sol = .ok (.error .InvalidSolution)) ∧
    (S → e ≠ 429496728 → ¬ 10 * e + 16 ≤ img.height → printMazeSolution oc img sol = .ok (.error .InvalidSolution)) ∧
    (S → e = 429496728 → (oc = true ∨ img.height < 4294967291) → printMazeSolution oc img sol = .panic) ∧
    (S → (10 * e + 16 ≤ img.height ∨ (e = 429496728 ∧ oc = false ∧ 4294967291 ≤ img.height)) →
      printMazeSolution oc img sol = .ok (.ok (img.puts (redPuts (routePixels sol.reverse)))) ∧
      ∀ q ∈ routePixels sol.reverse, InImage img.width img.height q) := by
  intro S e
  have hentry : putLoop img 0 5 redPixel (fun k => do
      let px ← addW oc 32 0 5
      let py ← addW oc 32 0 k
      return (px, py)) =
      .ok (img.puts (redPuts ((List.range 6).map (fun (k : Nat) => ((5 : Int), (k : Int)))))) := by
    rw [putLoop_eq (fun _ => 5) (fun k => k) ?_ ?_]
    · congr 2
    · intro k _ hk
      rw [addW_ok (by omega), Prog.ok_bind, addW_ok (by omega)]
      simp
    · intro k _ hk; constructor <;> omega
  generalize hen : redPuts ((List.range 6).map (fun (k : Nat) => ((5 : Int), (k : Int)))) = en at hentry
  have hsteps := solutionSteps_all oc bW bH sol.reverse (s := ⟨img.puts en, 0, 0⟩) (by simp) (by simp)
    (by simpa using hW) (by simpa using hH)
  simp only [Int.ofNat_zero] at hsteps
  have hunf : printMazeSolution oc img sol = (do
      match ← solutionSteps oc ⟨img.puts en, 0, 0⟩ sol.reverse with
      | .error e => return .error e
      | .ok s =>
        let a ← addW oc 32 (← mulW oc 32 s.x 10) 6
        if s.img.width < a then return .error .InvalidSolution
        let b ← addW oc 32 (← mulW oc 32 s.y 10) 16
        if s.img.height < b then return .error .InvalidSolution
        let img ← putLoop s.img 1 5 redPixel fun k => do
          let px ← addW oc 32 (← mulW oc 32 s.x 10) 5
          let py ← addW oc 32 (← addW oc 32 (← mulW oc 32 s.y 10) k) 5
          return (px, py)
        return .ok img) := by
    unfold printMazeSolution
    rw [if_neg (by omega), hentry]
    rfl
  rw [hunf]
  refine ⟨fun ho => ?_, fun ho hs => ?_, ?_⟩
  · rw [hsteps.2.1 ho]; rfl
  · rw [hsteps.2.2 ho hs]; rfl
  suffices main : S →
      (e ≠ 429496728 → ¬ 10 * e + 16 ≤ img.height → _ = Prog.ok (Except.error MazeError.InvalidSolution)) ∧
      (e = 429496728 → (oc = true ∨ img.height < 4294967291) → _ = Prog.panic) ∧
      ((10 * e + 16 ≤ img.height ∨ (e = 429496728 ∧ oc = false ∧ 4294967291 ≤ img.height)) →
        _ = Prog.ok (Except.ok (img.puts (redPuts (routePixels sol.reverse)))) ∧
        ∀ q ∈ routePixels sol.reverse, InImage img.width img.height q) from
    ⟨fun h => (main h).1, fun h => (main h).2.1, fun h => (main h).2.2⟩
  intro hst
  obtain ⟨x', y', e1, e2, e3, e4⟩ := hsteps.1 hst
  have ey : e = (y' : Int) := by simp only [e, e2]
  rw [e1]
  simp only [Prog.ok_bind]
  rw [mulW_ok (by omega), Prog.ok_bind, addW_ok (by omega), Prog.ok_bind]
  simp only [Img.puts_width, Img.puts_height]
  rw [if_neg (by omega), mulW_ok (by omega), Prog.ok_bind]
  have loop : putLoop ((img.puts en).puts (redPuts (segments (0, 0) sol.reverse))) 1 5 redPixel (fun k => do
      let px ← addW oc 32 (← Prog.ok (x' * 10)) 5
      let py ← addW oc 32 (← addW oc 32 (← Prog.ok (y' * 10)) k) 5
      pure (px, py)) = _root_.forIn' ((List.range' 1 (5 + 1 - 1)).map fun k => (⟨x' * 10 + 5, y' * 10 + k + 5, redPixel⟩ : Put))
        ((img.puts en).puts (redPuts (segments (0, 0) sol.reverse))) Img.put := by
    rw [putLoop_put (fun _ => x' * 10 + 5) (fun k => y' * 10 + k + 5)]
    intro k _ hk
    simp only [Prog.ok_bind]
    rw [addW_ok (by omega), Prog.ok_bind, addW_ok (by omega), Prog.ok_bind, addW_ok (by omega)]
    rfl
  have good : y' * 10 + 11 ≤ img.height →
      (_root_.forIn' ((List.range' 1 (5 + 1 - 1)).map fun k => (⟨x' * 10 + 5, y' * 10 + k + 5, redPixel⟩ : Put))
        ((img.puts en).puts (redPuts (segments (0, 0) sol.reverse))) Img.put =
        .ok (img.puts (redPuts (routePixels sol.reverse)))) ∧
      ∀ q ∈ routePixels sol.reverse, InImage img.width img.height q := by
    intro hy
    constructor
    · rw [forIn'_put]
      · simp only [routePixels, redPuts_append, Img.puts_append, hen, e2]
        congr 2
        simp only [redPuts, List.map_map]
        rw [List.range_eq_range', show (5 + 1 - 1) = 5 from rfl,
          show List.range' 1 5 = (List.range' 0 5).map (fun k => k + 1) from rfl, List.map_map]
        apply List.map_congr_left
        intro k _
        simp only [Function.comp, Put.mk.injEq, and_true]
        constructor <;> omega
      · intro p hp
        simp only [List.mem_map, List.mem_range'_1] at hp
        obtain ⟨k, hk, rfl⟩ := hp
        simp only [Img.puts_width, Img.puts_height]; omega
    · intro q hq
      simp only [routePixels, List.mem_append, List.mem_map, List.mem_range, e2] at hq
      rcases hq with (⟨k, hk, rfl⟩ | hq) | ⟨k, hk, rfl⟩
      · simp only [InImage]; omega
      · exact hst.1 q hq
      · simp only [InImage]; omega
  refine ⟨fun hne hn => ?_, fun he hc => ?_, fun hc => ?_⟩
  · rw [addW_ok (by omega), Prog.ok_bind, if_pos (by omega)]
    rfl
  · have hy : y' = 429496728 := by omega
    subst hy
    cases oc
    · rw [addW_wrap, Prog.ok_bind, if_neg (by omega)]
      rw [loop, forIn'_put_panic]
      · rfl
      · refine ⟨_, List.mem_map.2 ⟨5, List.mem_range'_1.2 (by omega), rfl⟩, ?_⟩
        simp only [Img.puts_width, Img.puts_height]
        simp only [Bool.false_eq_true, false_or] at hc
        omega
    · rw [addW, if_neg (by omega)]; rfl
  · by_cases hy : y' = 429496728
    · subst hy
      have h2 : oc = false ∧ 4294967291 ≤ img.height := by
        rcases hc with hc | hc
        · omega
        · exact hc.2
      obtain ⟨rfl, h2⟩ := h2
      rw [addW_wrap, Prog.ok_bind, if_neg (by omega), loop, (good (by omega)).1]
      exact ⟨rfl, (good (by omega)).2⟩
    · have h2 : y' * 10 + 16 ≤ img.height := by
        rcases hc with hc | hc
        · omega
        · omega
      rw [addW_ok (by omega), Prog.ok_bind, if_neg (by omega), loop, (good (by omega)).1]
      exact ⟨rfl, (good (by omega)).2⟩

end Maze
