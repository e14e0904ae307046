import Verif.Proofs.Maze.Final

/-!
Property theorems for `choose_random`, `recursive_backtrack`, `create_maze`, `print_maze` and
`print_maze_solution` (C24-C36, C54-C56).

`rnd` is the sequence of random draws; every theorem holds for every `rnd` and with overflow checks on or off
(`oc`). `w * h * 24 < 2 ^ 63` is the allocation limit of `Vec<Vec<MazeDirection>>` in `recursive_backtrack`.
-/
namespace Maze.Props
open Maze Maze.Spec

variable {w h : Nat}

/-! ### C24: perfect mazes -/

/-- C24. For all positive dimensions and all draws the passages form a tree on the `w * h` cells: between any
two cells there is exactly one simple route. -/
theorem C24_perfect (oc : Bool) (rnd : Nat → Nat) (alg : MazeAlgorithm) (hw : 1 ≤ w) (hh : 1 ≤ h)
    (hn : w * h * 24 < 2 ^ 63) :
    ∃ g sol, createMaze oc rnd w h alg = .ok (g, sol) ∧ g.length = w * h ∧ (graph w h g).IsTree ∧
      ∀ a b, ∃! p : (graph w h g).Walk a b, p.IsPath := by
  obtain ⟨g, sol, e, h1, hR⟩ := createMaze_result oc rnd hw hh hn alg
  exact ⟨g, sol, h1, hR.len, hR.tree, hR.tree.existsUnique_path⟩

/-- The hypotheses of C24 are met by a 300 x 200 maze with arbitrary draws. -/
example (rnd : Nat → Nat) : ∃ g sol, createMaze true rnd 300 200 .RecursiveBacktrack = .ok (g, sol) ∧
    (graph 300 200 g).IsTree := by
  obtain ⟨g, sol, h1, _, h2, _⟩ := C24_perfect (w := 300) (h := 200) true rnd .RecursiveBacktrack
    (by omega) (by omega) (by omega)
  exact ⟨g, sol, h1, h2⟩

/-- The graph of the specification is not trivially a tree: a 2 x 2 grid with all walls standing is not
connected, and one with all inner walls missing has a cycle. -/
example : ¬ (graph 2 2 (List.replicate 4 ⟨true, true⟩)).IsTree := by
  intro hT
  have hc := hT.connected.preconnected 0 1
  have : graph 2 2 (List.replicate 4 ⟨true, true⟩) = ⊥ := graph_new 2 2 4
  rw [this, SimpleGraph.reachable_bot] at hc
  exact absurd hc (by decide)

/-! ### C25: outer walls -/

/-- C25. The grid has `w * h` cells, every rightmost cell has its right wall, and exactly one bottom cell has
no bottom wall. -/
theorem C25_outer_walls (oc : Bool) (rnd : Nat → Nat) (alg : MazeAlgorithm) (hw : 1 ≤ w) (hh : 1 ≤ h)
    (hn : w * h * 24 < 2 ^ 63) :
    ∃ g sol, createMaze oc rnd w h alg = .ok (g, sol) ∧ g.length = w * h ∧
      (∀ c < w * h, c % w = w - 1 → ∃ n, g[c]? = some n ∧ n.right = true) ∧
      (∃! e, e < w * h ∧ e / w = h - 1 ∧ ∃ n, g[e]? = some n ∧ n.down = false) := by
  obtain ⟨g, sol, e, h1, hR⟩ := createMaze_result oc rnd hw hh hn alg
  have hdown : ∀ c, c < w * h → (downOpen g c = true ↔ ∃ n, g[c]? = some n ∧ n.down = false) := by
    intro c hc
    have hc' : c < g.length := hR.len ▸ hc
    rw [downOpen_getElem hc']
    simp [hc']
  refine ⟨g, sol, h1, hR.len, ?_, e, ⟨hR.he, hR.bottom, ?_⟩, ?_⟩
  · intro c hc hm
    have hc' : c < g.length := hR.len ▸ hc
    refine ⟨g[c], List.getElem?_eq_getElem hc', ?_⟩
    by_contra hr
    have := hR.borderR c (by rw [rightOpen_getElem hc']; simpa using hr)
    omega
  · exact (hdown e hR.he).mp ((hR.exits e hR.he hR.bottom).mpr rfl)
  · rintro y ⟨hy1, hy2, hy3⟩
    exact (hR.exits y hy1 hy2).mp ((hdown y hy1).mpr hy3)

example (rnd : Nat → Nat) : ∃ g sol, createMaze false rnd 4 7 .RecursiveBacktrack = .ok (g, sol) ∧
    g.length = 28 := by
  obtain ⟨g, sol, h1, h2, _⟩ := C25_outer_walls (w := 4) (h := 7) false rnd .RecursiveBacktrack
    (by omega) (by omega) (by omega)
  exact ⟨g, sol, h1, h2⟩

/-! ### C26: the solution leads to the exit -/

/-- The claim of C26 about one result: the walk along the reversed directions from cell 0 meets no wall, stays
in the grid and ends in a bottom cell without bottom wall. -/
def LeadsToExit (w h : Nat) (g : List MazeNode) (sol : List MazeDirection) : Prop :=
  ∃ cells e, walk w h g 0 sol.reverse = some cells ∧ cells.getLast? = some e ∧ e < w * h ∧ e / w = h - 1 ∧
    downOpen g e = true

/-- C26 for mazes of width at least 2. Missing: width 1, where the claim is false (`C26_false`). -/
theorem C26_partial (oc : Bool) (rnd : Nat → Nat) (alg : MazeAlgorithm) (hw : 2 ≤ w) (hh : 1 ≤ h)
    (hn : w * h * 24 < 2 ^ 63) :
    ∃ g sol, createMaze oc rnd w h alg = .ok (g, sol) ∧ LeadsToExit w h g sol := by
  obtain ⟨g, sol, e, h1, hR⟩ := createMaze_result oc rnd (by omega) hh hn alg
  obtain ⟨cells, c1, c2, _⟩ := hR.wide hw
  exact ⟨g, sol, h1, cells, e, c1, c2, hR.he, hR.bottom, (hR.exits e hR.he hR.bottom).mpr rfl⟩

example (rnd : Nat → Nat) : ∃ g sol, createMaze true rnd 2 5 .RecursiveBacktrack = .ok (g, sol) ∧
    LeadsToExit 2 5 g sol :=
  C26_partial true rnd .RecursiveBacktrack (by omega) (by omega) (by omega)

theorem narrow_fails {g : List MazeNode} {sol : List MazeDirection} {e : Nat} (hR : Result 1 h g sol e)
    (hh : 2 ≤ h) : walk 1 h g 0 sol.reverse = none := by
  rw [hR.narrow rfl]
  obtain ⟨k, rfl⟩ : ∃ k, h = k + 2 := ⟨h - 2, by omega⟩
  rw [List.reverse_replicate, show k + 2 - 1 = k + 1 from rfl, List.replicate_succ]
  simp [walk, move, nbr]

/-- C26 is false for every maze of width 1 and height at least 2: the first direction walks into the outer
wall. -/
theorem C26_false (oc : Bool) (rnd : Nat → Nat) (alg : MazeAlgorithm) (hh : 2 ≤ h)
    (hn : 1 * h * 24 < 2 ^ 63) :
    ∃ g sol, createMaze oc rnd 1 h alg = .ok (g, sol) ∧ ¬ LeadsToExit 1 h g sol ∧
      walk 1 h g 0 sol.reverse = none := by
  obtain ⟨g, sol, e, h1, hR⟩ := createMaze_result oc rnd (by omega) (show 0 < h by omega) hn alg
  have hf := narrow_fails hR hh
  refine ⟨g, sol, h1, ?_, hf⟩
  rintro ⟨cells, e', c1, _⟩
  rw [hf] at c1; cases c1

/-- C54. The directions lead to the exit exactly if the maze is at least two cells wide or has one row; in a
maze of width 1 they are `h - 1` times `Right`. -/
theorem C54_solution_iff (oc : Bool) (rnd : Nat → Nat) (alg : MazeAlgorithm) (hw : 1 ≤ w) (hh : 1 ≤ h)
    (hn : w * h * 24 < 2 ^ 63) :
    ∃ g sol, createMaze oc rnd w h alg = .ok (g, sol) ∧ (LeadsToExit w h g sol ↔ 2 ≤ w ∨ h = 1) ∧
      (w = 1 → sol = List.replicate (h - 1) .Right) := by
  obtain ⟨g, sol, e, h1, hR⟩ := createMaze_result oc rnd hw hh hn alg
  refine ⟨g, sol, h1, ⟨?_, ?_⟩, hR.narrow⟩
  · rintro ⟨cells, e', c1, _⟩
    by_contra hcon
    obtain rfl : w = 1 := by omega
    rw [narrow_fails hR (by omega)] at c1
    cases c1
  · intro hc
    by_cases h2 : 2 ≤ w
    · obtain ⟨cells, c1, c2, _⟩ := hR.wide h2
      exact ⟨cells, e, c1, c2, hR.he, hR.bottom, (hR.exits e hR.he hR.bottom).mpr rfl⟩
    · obtain rfl : w = 1 := by omega
      obtain rfl : h = 1 := by omega
      have := hR.narrow rfl
      subst this
      have he : e = 0 := by have := hR.he; omega
      subst he
      exact ⟨[0], 0, rfl, rfl, hR.he, hR.bottom, (hR.exits 0 hR.he hR.bottom).mpr rfl⟩

example (rnd : Nat → Nat) : (∃ g sol, createMaze true rnd 2 9 .RecursiveBacktrack = .ok (g, sol) ∧ LeadsToExit 2 9 g sol) ∧
    ∃ g sol, createMaze true rnd 1 3 .RecursiveBacktrack = .ok (g, sol) ∧ ¬ LeadsToExit 1 3 g sol ∧ sol = [.Right, .Right] := by
  obtain ⟨g, sol, h1, h2, _⟩ := C54_solution_iff (w := 2) (h := 9) true rnd .RecursiveBacktrack (by omega) (by omega) (by omega)
  obtain ⟨g', sol', h1', h2', h3'⟩ := C54_solution_iff (w := 1) (h := 3) true rnd .RecursiveBacktrack (by omega) (by omega)
    (by omega)
  exact ⟨⟨g, sol, h1, h2.mpr (by omega)⟩, g', sol', h1', fun h => absurd (h2'.mp h) (by omega), h3' rfl⟩

/-! ### C27: shortest route -/

/-- C27. For width at least 2 the walk visits no cell twice, and its length is the distance from the start to
the exit. -/
theorem C27_shortest (oc : Bool) (rnd : Nat → Nat) (alg : MazeAlgorithm) (hw : 2 ≤ w) (hh : 1 ≤ h)
    (hn : w * h * 24 < 2 ^ 63) :
    ∃ g sol cells e, createMaze oc rnd w h alg = .ok (g, sol) ∧ walk w h g 0 sol.reverse = some cells ∧
      cells.getLast? = some e ∧ downOpen g e = true ∧ cells.Nodup ∧
      ∃ (h0 : 0 < w * h) (he : e < w * h), e / w = h - 1 ∧
        sol.length = (graph w h g).dist ⟨0, h0⟩ ⟨e, he⟩ := by
  have h0 : 0 < w * h := Nat.mul_pos (by omega) (by omega)
  obtain ⟨g, sol, e, h1, hR⟩ := createMaze_result oc rnd (by omega) hh hn alg
  obtain ⟨cells, c1, c2, c3⟩ := hR.wide hw
  exact ⟨g, sol, cells, e, h1, c1, c2, (hR.exits e hR.he hR.bottom).mpr rfl, c3, h0, hR.he, hR.bottom,
    hR.slen h0⟩

example (rnd : Nat → Nat) : ∃ g sol, createMaze true rnd 10 10 .RecursiveBacktrack = .ok (g, sol) ∧
    ∃ cells, walk 10 10 g 0 sol.reverse = some cells ∧ cells.Nodup := by
  obtain ⟨g, sol, cells, e, h1, h2, _, _, h3, _⟩ := C27_shortest (w := 10) (h := 10) true rnd
    .RecursiveBacktrack (by omega) (by omega) (by omega)
  exact ⟨g, sol, h1, cells, h2, h3⟩

/-! ### C28: the exit is a farthest bottom cell -/

/-- C28. No bottom cell is farther from the start than the bottom cell whose bottom wall is missing. -/
theorem C28_exit_farthest (oc : Bool) (rnd : Nat → Nat) (alg : MazeAlgorithm) (hw : 1 ≤ w) (hh : 1 ≤ h)
    (hn : w * h * 24 < 2 ^ 63) (h0 : 0 < w * h) :
    ∃ g sol, createMaze oc rnd w h alg = .ok (g, sol) ∧
      ∀ e (he : e < w * h), e / w = h - 1 → downOpen g e = true →
        ∀ b (hb : b < w * h), b / w = h - 1 →
          (graph w h g).dist ⟨0, h0⟩ ⟨b, hb⟩ ≤ (graph w h g).dist ⟨0, h0⟩ ⟨e, he⟩ := by
  obtain ⟨g, sol, e, h1, hR⟩ := createMaze_result oc rnd hw hh hn alg
  refine ⟨g, sol, h1, ?_⟩
  intro e' he' hb' ho' b hb hbb
  obtain rfl := (hR.exits e' he' hb').mp ho'
  exact hR.far h0 b hb hbb

example (rnd : Nat → Nat) : ∃ g sol, createMaze true rnd 5 3 .RecursiveBacktrack = .ok (g, sol) ∧
    ∀ e (he : e < 15), e / 5 = 2 → downOpen g e = true → ∀ b (hb : b < 15), b / 5 = 2 →
      (graph 5 3 g).dist ⟨0, by omega⟩ ⟨b, hb⟩ ≤ (graph 5 3 g).dist ⟨0, by omega⟩ ⟨e, he⟩ :=
  C28_exit_farthest (w := 5) (h := 3) true rnd .RecursiveBacktrack (by omega) (by omega) (by omega) (by omega)

/-! ### C29: termination -/

/-- C29. `create_maze` returns for all positive dimensions within the allocation limit, and panics if a
dimension is zero. -/
theorem C29_terminates (oc : Bool) (rnd : Nat → Nat) (alg : MazeAlgorithm) :
    (1 ≤ w → 1 ≤ h → w * h * 24 < 2 ^ 63 → ∃ r, createMaze oc rnd w h alg = .ok r) ∧
    (w = 0 ∨ h = 0 → createMaze oc rnd w h alg = .panic) := by
  refine ⟨fun hw hh hn => ?_, fun hz => ?_⟩
  · obtain ⟨g, sol, e, h1, _⟩ := createMaze_result oc rnd hw hh hn alg
    exact ⟨_, h1⟩
  · cases alg
    have : recursiveBacktrack oc rnd w h = .panic := recursiveBacktrack_zero oc rnd (by
      rcases hz with rfl | rfl <;> simp)
    simp [createMaze, this]

/-- Beyond the allocation limit (but without overflow of `width * height`, or with overflow checks on)
`create_maze` panics. -/
theorem C29_too_big (oc : Bool) (rnd : Nat → Nat) (alg : MazeAlgorithm) (hb : 2 ^ 63 ≤ w * h * 24)
    (hov : w * h < 2 ^ 64 ∨ oc = true) : createMaze oc rnd w h alg = .panic := by
  cases alg
  have : recursiveBacktrack oc rnd w h = .panic := by
    unfold recursiveBacktrack
    by_cases hlt : w * h < 2 ^ 64
    · rw [mulW_ok hlt]
      simp only [Prog.ok_bind, vecRepeat, DisjointSet.withSize, show ¬ w * h * 24 < 2 ^ 63 by omega, if_false]
      split <;> simp only [Prog.ok_bind, Prog.panic_bind]
      split <;> simp only [Prog.ok_bind, Prog.panic_bind]
    · have : oc = true := by tauto
      subst this
      have : mulW true 64 w h = .panic := by simp only [mulW, if_neg hlt, if_true]
      rw [this]; rfl
  simp [createMaze, this]

example (rnd : Nat → Nat) : (∃ r, createMaze true rnd 1000 1000 .RecursiveBacktrack = .ok r) ∧
    createMaze true rnd 0 5 .RecursiveBacktrack = .panic ∧
    createMaze false rnd (2 ^ 31) (2 ^ 31) .RecursiveBacktrack = .panic :=
  ⟨(C29_terminates true rnd _).1 (by omega) (by omega) (by omega), (C29_terminates true rnd _).2 (.inl rfl),
    C29_too_big false rnd _ (by omega) (.inl (by omega))⟩

/-! ### C30: choose_random -/

/-- C30. `choose_random` returns `None` exactly on the empty vector (leaving it empty); otherwise it returns an
element `x` such that `x` together with the remaining vector is a permutation of the original. -/
theorem C30_choose_random {α : Type} (draw : Nat) (v : List α) :
    ∃ o v', chooseRandom draw v = .ok (o, v') ∧ (o = none ↔ v = []) ∧ (v = [] → v' = []) ∧
      ∀ x, o = some x → (x :: v').Perm v := by
  by_cases hv : v = []
  · subst hv
    exact ⟨none, [], rfl, by simp, by simp, by simp⟩
  · obtain ⟨hi, v', h1, h2⟩ := chooseRandom_spec draw hv
    refine ⟨_, v', h1, by simp [hv], fun h => absurd h hv, ?_⟩
    intro x hx
    obtain rfl := Option.some.inj hx
    exact h2

/-- C30, second part: every position can be the one chosen. -/
theorem C30_every_element {α : Type} (v : List α) (i : Nat) (hi : i < v.length) :
    ∃ draw v', chooseRandom draw v = .ok (some v[i], v') := by
  have hv : v ≠ [] := by rintro rfl; simp at hi
  obtain ⟨hi', v', h1, _⟩ := chooseRandom_spec i hv
  refine ⟨i, v', ?_⟩
  rw [h1]
  simp only [Nat.mod_eq_of_lt hi]

example : chooseRandom 6 [10, 20, 30, 40] = .ok (some 30, [10, 20, 40]) := by decide
example : chooseRandom 5 [10, 20, 30, 40] = .ok (some 20, [10, 40, 30]) := by decide

/-! ### C31, C32: print_maze -/

/-- The dimensions for which `print_maze` neither overflows `u32` nor exceeds the allocation limit, and for
which cell numbers fit in `u32`. -/
structure PrintDims (w h : Nat) : Prop where
  width : w * 10 + 1 < 2 ^ 32
  height : h * 10 + 1 < 2 ^ 32
  cells : w * h ≤ 2 ^ 32
  alloc : 3 * (w * 10 + 1) * (h * 10 + 1) < 2 ^ 63

/-- C31. A grid of the right size is drawn as a `(10w+1) x (10h+1)` image whose black pixels are exactly the
borders and walls, and whose other pixels are white. -/
theorem C31_print_maze (oc : Bool) {g : List MazeNode} (hl : g.length = w * h) (hd : PrintDims w h) :
    ∃ img, printMaze oc w h g = .ok (.ok img) ∧ img.width = 10 * w + 1 ∧ img.height = 10 * h + 1 ∧
      ∀ x y, x < 10 * w + 1 → y < 10 * h + 1 →
        (WallPixel w g x y → img.px x y = ⟨0, 0, 0⟩) ∧ (¬ WallPixel w g x y → img.px x y = ⟨255, 255, 255⟩) :=
  printMaze_px oc hl hd.width hd.height hd.cells hd.alloc

/-- C31, second part: `InvalidDimensions` is returned exactly if the number of cells differs from
`width * height`; no other error is possible. -/
theorem C31_invalid_dimensions (oc : Bool) (g : List MazeNode) :
    (printMaze oc w h g = .ok (.error .InvalidDimensions) ↔ g.length ≠ w * h) ∧
    ∀ e, printMaze oc w h g = .ok (.error e) → e = .InvalidDimensions := by
  by_cases hl : w * h = g.length
  · have key : ∀ e, printMaze oc w h g ≠ .ok (.error e) := by
      intro e he
      unfold printMaze at he
      simp only [hl, ne_eq, not_true_eq_false, if_false, Prog.bind_eq_ok] at he
      obtain ⟨_, _, _, _, _, _, _, _, _, _, _, _, _, _, _, _, hf⟩ := he
      simp at hf
    exact ⟨⟨fun he => absurd he (key _), fun hne => absurd hl.symm hne⟩, fun e he => absurd he (key e)⟩
  · have : printMaze oc w h g = .ok (.error .InvalidDimensions) := by simp [printMaze, hl]
    refine ⟨⟨fun _ hne => hl hne.symm, fun _ => this⟩, fun e he => ?_⟩
    rw [this] at he
    simpa using he.symm

example : PrintDims 1000 1000 := by constructor <;> omega

/-- In the picture of a 2 x 1 maze whose first cell is open to the right, pixel (10, 5) is not a wall pixel
and (20, 5) is. -/
example : ¬ WallPixel 2 [⟨false, true⟩, ⟨true, true⟩] 10 5 ∧ WallPixel 2 [⟨false, true⟩, ⟨true, true⟩] 20 5 := by
  constructor
  · rintro (h | h | ⟨c, n, h, h'⟩)
    · omega
    · omega
    · match c, h with
      | 0, h => simp at h; subst h; simp at h'
      | 1, h => simp at h; subst h; simp at h'
  · exact .inr (.inr ⟨1, ⟨true, true⟩, rfl, .inl ⟨rfl, by omega, by omega, by omega⟩⟩)

theorem right_pixel {g : List MazeNode} {c : Nat} (hc : c < g.length) :
    WallPixel w g (10 * (c % w + 1)) (10 * (c / w) + 5) ↔ g[c].right = true := by
  constructor
  · rintro (h1 | ⟨h1, _⟩ | ⟨c', n, hg, ⟨hr, h1, h2, h3⟩ | ⟨_, h1, _⟩⟩)
    · omega
    · omega
    · have e1 : c' % w = c % w := by omega
      have e2 : c' / w = c / w := by omega
      have : c' = c := by rw [← Nat.div_add_mod c' w, ← Nat.div_add_mod c w, e1, e2]
      subst this
      rw [List.getElem?_eq_getElem hc] at hg
      obtain rfl := Option.some.inj hg
      exact hr
    · omega
  · intro hr
    exact .inr (.inr ⟨c, g[c], List.getElem?_eq_getElem hc, .inl ⟨hr, rfl, by omega, by omega⟩⟩)

theorem down_pixel {g : List MazeNode} {c : Nat} (hc : c < g.length) :
    WallPixel w g (10 * (c % w) + 5) (10 * (c / w + 1)) ↔ g[c].down = true := by
  constructor
  · rintro (h1 | ⟨h1, _⟩ | ⟨c', n, hg, ⟨_, h1, _⟩ | ⟨hr, h1, h2, h3⟩⟩)
    · omega
    · simp at h1
    · omega
    · have e1 : c' % w = c % w := by omega
      have e2 : c' / w = c / w := by omega
      have : c' = c := by rw [← Nat.div_add_mod c' w, ← Nat.div_add_mod c w, e1, e2]
      subst this
      rw [List.getElem?_eq_getElem hc] at hg
      obtain rfl := Option.some.inj hg
      exact hr
  · intro hr
    exact .inr (.inr ⟨c, g[c], List.getElem?_eq_getElem hc, .inr ⟨hr, rfl, by omega, by omega⟩⟩)

/-- C32. Two grids of the same dimensions whose pictures agree in every pixel are equal. -/
theorem C32_faithful (oc : Bool) {g g' : List MazeNode} {img img' : Img} (hd : PrintDims w h)
    (h1 : printMaze oc w h g = .ok (.ok img)) (h2 : printMaze oc w h g' = .ok (.ok img'))
    (heq : ∀ x y, x < 10 * w + 1 → y < 10 * h + 1 → img.px x y = img'.px x y) : g = g' := by
  have len : ∀ {g : List MazeNode} {img}, printMaze oc w h g = .ok (.ok img) → g.length = w * h := by
    intro g img hp
    by_contra hne
    rw [(C31_invalid_dimensions oc g).1.mpr hne] at hp
    simp at hp
  have l1 := len h1
  have l2 := len h2
  obtain ⟨i1, e1, _, _, p1⟩ := C31_print_maze oc l1 hd
  obtain ⟨i2, e2, _, _, p2⟩ := C31_print_maze oc l2 hd
  rw [h1] at e1; rw [h2] at e2
  simp only [Prog.ok.injEq, Except.ok.injEq] at e1 e2
  subst e1 e2
  have hbw : blackPixel ≠ whitePixel := by decide
  have key : ∀ x y, x < 10 * w + 1 → y < 10 * h + 1 → (WallPixel w g x y ↔ WallPixel w g' x y) := by
    intro x y hx hy
    have q1 := p1 x y hx hy
    have q2 := p2 x y hx hy
    have := heq x y hx hy
    constructor
    · intro hw1
      by_contra hw2
      rw [q1.1 hw1, q2.2 hw2] at this
      exact hbw this
    · intro hw2
      by_contra hw1
      rw [q1.2 hw1, q2.1 hw2] at this
      exact hbw this.symm
  apply List.ext_getElem (l1.trans l2.symm)
  intro c hc hc'
  have hcn : c < w * h := l1 ▸ hc
  have hw : 0 < w := by
    rcases Nat.eq_zero_or_pos w with h0 | h0
    · rw [h0] at hcn; simp at hcn
    · exact h0
  have hx : c % w < w := Nat.mod_lt _ hw
  have hy : c / w < h := by rw [Nat.div_lt_iff_lt_mul hw, Nat.mul_comm]; exact hcn
  have kr := key (10 * (c % w + 1)) (10 * (c / w) + 5) (by omega) (by omega)
  rw [right_pixel hc, right_pixel hc'] at kr
  have kd := key (10 * (c % w) + 5) (10 * (c / w + 1)) (by omega) (by omega)
  rw [down_pixel hc, down_pixel hc'] at kd
  have er := Bool.eq_iff_iff.mpr kr
  have ed := Bool.eq_iff_iff.mpr kd
  revert er ed
  cases g[c]; cases g'[c]
  intro h1 h2
  simp only at h1 h2
  rw [h1, h2]

/-- Both hypotheses of C32 can be met by different grids, whose pictures then differ. -/
example : ∃ img img', printMaze true 2 1 [⟨false, true⟩, ⟨true, true⟩] = .ok (.ok img) ∧
    printMaze true 2 1 [⟨true, true⟩, ⟨true, true⟩] = .ok (.ok img') ∧
    ¬ ∀ x y, x < 21 → y < 11 → img.px x y = img'.px x y := by
  have hd : PrintDims 2 1 := by constructor <;> omega
  obtain ⟨i1, e1, _⟩ := C31_print_maze true (g := [⟨false, true⟩, ⟨true, true⟩]) rfl hd
  obtain ⟨i2, e2, _⟩ := C31_print_maze true (g := [⟨true, true⟩, ⟨true, true⟩]) rfl hd
  refine ⟨i1, i2, e1, e2, fun heq => ?_⟩
  have := C32_faithful true hd e1 e2 heq
  simp at this

/-! ### C33, C35, C36: print_maze_solution -/

/-- C33. `print_maze_solution` returns (`Ok` or `Err`) for every image whose dimensions are at least 11 below
2^32 and every list of directions. The bound is the best possible (C106). -/
theorem C33_no_panic (oc : Bool) (img : Img) (sol : List MazeDirection)
    (bW : img.width + 11 ≤ 2 ^ 32) (bH : img.height + 11 ≤ 2 ^ 32) :
    ∃ r, printMazeSolution oc img sol = .ok r := by
  by_cases hs : img.width < 6 ∨ img.height < 6
  · exact ⟨.error .InvalidDimensions, by simp [printMazeSolution, hs]⟩
  · have hsp := printMazeSolution_spec oc bW bH (by omega) (by omega) sol
    by_cases hc : StepsOk img.width img.height (0, 0) sol.reverse ∧
        10 * (endPos (0, 0) sol.reverse).2 + 16 ≤ img.height
    · exact ⟨_, (hsp.1 hc).1⟩
    · exact ⟨_, hsp.2 hc⟩

example : ∃ r, printMazeSolution true ⟨101, 51, fun _ _ => whitePixel⟩ [.Left, .Up, .Right, .Down, .Down] = .ok r :=
  C33_no_panic true _ _ (by simp) (by simp)

/-- `InvalidDimensions` is returned exactly for images narrower or lower than 6 pixels. -/
theorem C33_invalid_dimensions (oc : Bool) (img : Img) (sol : List MazeDirection)
    (bW : img.width + 11 ≤ 2 ^ 32) (bH : img.height + 11 ≤ 2 ^ 32) :
    printMazeSolution oc img sol = .ok (.error .InvalidDimensions) ↔ img.width < 6 ∨ img.height < 6 := by
  constructor
  · intro he
    by_contra hs
    have hsp := printMazeSolution_spec oc bW bH (by omega) (by omega) sol
    by_cases hc : StepsOk img.width img.height (0, 0) sol.reverse ∧
        10 * (endPos (0, 0) sol.reverse).2 + 16 ≤ img.height
    · rw [(hsp.1 hc).1] at he; simp at he
    · rw [hsp.2 hc] at he; simp at he
  · intro hs; simp [printMazeSolution, hs]

example : printMazeSolution true ⟨5, 400, fun _ _ => ⟨255, 255, 255⟩⟩ [.Down] = .ok (.error .InvalidDimensions) ∧
    printMazeSolution true ⟨6, 6, fun _ _ => ⟨255, 255, 255⟩⟩ [.Down] ≠ .ok (.error .InvalidDimensions) := by
  rw [Ne, C33_invalid_dimensions _ _ _ (by decide) (by decide), C33_invalid_dimensions _ _ _ (by decide) (by decide)]
  decide

/-- The routes that `print_maze_solution` accepts. -/
def Accepted (W H : Nat) (ds : List MazeDirection) : Prop :=
  (∀ q ∈ routePixels ds, InImage W H q) ∧ ¬ BackToEdge (0, 0) ds ∧ 10 * (endPos (0, 0) ds).2 + 16 ≤ H

theorem accepted_iff (oc : Bool) {img : Img} (bW : img.width + 11 ≤ 2 ^ 32) (bH : img.height + 11 ≤ 2 ^ 32)
    (hW : 6 ≤ img.width) (hH : 6 ≤ img.height) (sol : List MazeDirection) :
    (StepsOk img.width img.height (0, 0) sol.reverse ∧ 10 * (endPos (0, 0) sol.reverse).2 + 16 ≤ img.height) ↔
      Accepted img.width img.height sol.reverse := by
  have hsp := printMazeSolution_spec oc bW bH hW hH sol
  constructor
  · intro hc; exact ⟨(hsp.1 hc).2, hc.1.2, hc.2⟩
  · rintro ⟨h1, h2, h3⟩
    refine ⟨⟨fun q hq => h1 q ?_, h2⟩, h3⟩
    simp only [routePixels, List.mem_append]
    exact .inl (.inr hq)

/-- C35. When the result is `Ok`, the image keeps its size, the pixels of the route are red and every other
pixel is unchanged. -/
theorem C35_paints_route (oc : Bool) (img img' : Img) (sol : List MazeDirection)
    (bW : img.width + 11 ≤ 2 ^ 32) (bH : img.height + 11 ≤ 2 ^ 32)
    (hok : printMazeSolution oc img sol = .ok (.ok img')) :
    img'.width = img.width ∧ img'.height = img.height ∧
    (∀ q ∈ routePixels sol.reverse, InImage img.width img.height q) ∧
    ∀ x y : Nat, (((x : Int), (y : Int)) ∈ routePixels sol.reverse → img'.px x y = ⟨255, 0, 0⟩) ∧
      (((x : Int), (y : Int)) ∉ routePixels sol.reverse → img'.px x y = img.px x y) := by
  have hs : ¬ (img.width < 6 ∨ img.height < 6) := by
    intro hs
    rw [(C33_invalid_dimensions oc img sol bW bH).mpr hs] at hok
    simp at hok
  have hsp := printMazeSolution_spec oc bW bH (by omega) (by omega) sol
  by_cases hc : StepsOk img.width img.height (0, 0) sol.reverse ∧
      10 * (endPos (0, 0) sol.reverse).2 + 16 ≤ img.height
  · obtain ⟨h1, h2⟩ := hsp.1 hc
    rw [h1] at hok
    simp only [Prog.ok.injEq, Except.ok.injEq] at hok
    subst hok
    refine ⟨by simp, by simp, h2, ?_⟩
    intro x y
    have hp := Img.puts_px_one (img := img) (ps := redPuts (routePixels sol.reverse)) (c := redPixel)
      (by intro p hp; simp only [redPuts, List.mem_map] at hp; obtain ⟨_, _, rfl⟩ := hp; rfl) x y
    clear h1
    have hmem : (∃ p ∈ redPuts (routePixels sol.reverse), p.x = x ∧ p.y = y) ↔
        ((x : Int), (y : Int)) ∈ routePixels sol.reverse := by
      constructor
      · rintro ⟨p, hm, rfl, rfl⟩
        simp only [redPuts, List.mem_map] at hm
        obtain ⟨q, hq, rfl⟩ := hm
        obtain ⟨i1, _, i3, _⟩ := h2 q hq
        simp only [Int.toNat_of_nonneg i1, Int.toNat_of_nonneg i3]
        exact hq
      · intro hq
        exact ⟨_, List.mem_map.mpr ⟨_, hq, rfl⟩, by simp, by simp⟩
    rw [hmem] at hp
    exact hp
  · rw [hsp.2 hc] at hok
    simp at hok

/-- C55. Exact acceptance: on an image of at least 6 x 6 pixels, the result is `Ok` exactly if every pixel of
the route lies in the image, no step goes left out of column 1 or up out of row 1, and the image continues at
least 16 rows below the top of the last cell; otherwise it is `Err(InvalidSolution)`. -/
theorem C55_acceptance (oc : Bool) (img : Img) (sol : List MazeDirection)
    (bW : img.width + 11 ≤ 2 ^ 32) (bH : img.height + 11 ≤ 2 ^ 32) (hW : 6 ≤ img.width) (hH : 6 ≤ img.height) :
    (Accepted img.width img.height sol.reverse → ∃ img', printMazeSolution oc img sol = .ok (.ok img')) ∧
    (¬ Accepted img.width img.height sol.reverse →
      printMazeSolution oc img sol = .ok (.error .InvalidSolution)) := by
  have hsp := printMazeSolution_spec oc bW bH hW hH sol
  rw [accepted_iff oc bW bH hW hH sol] at hsp
  exact ⟨fun hc => ⟨_, (hsp.1 hc).1⟩, hsp.2⟩

/-- C36, one direction: every route that leaves the image is rejected with `InvalidSolution`. Missing: the
converse, which is false (`C36_false_left`, `C36_false_end`). -/
theorem C36_partial (oc : Bool) (img : Img) (sol : List MazeDirection)
    (bW : img.width + 11 ≤ 2 ^ 32) (bH : img.height + 11 ≤ 2 ^ 32) (hW : 6 ≤ img.width) (hH : 6 ≤ img.height)
    (hout : ∃ q ∈ routePixels sol.reverse, ¬ InImage img.width img.height q) :
    printMazeSolution oc img sol = .ok (.error .InvalidSolution) := by
  refine (C55_acceptance oc img sol bW bH hW hH).2 ?_
  rintro ⟨h1, _⟩
  obtain ⟨q, hq, hn⟩ := hout
  exact hn (h1 q hq)

instance (W H : Nat) (q : Int × Int) : Decidable (InImage W H q) := by unfold InImage; infer_instance

/-- A blank 31 x 31 image (a 3 x 3 maze). -/
def blank (W H : Nat) : Img := ⟨W, H, fun _ _ => whitePixel⟩

example : printMazeSolution true (blank 31 31) [.Right, .Right, .Right] = .ok (.error .InvalidSolution) :=
  C36_partial true _ _ (by simp [blank]) (by simp [blank]) (by simp [blank]) (by simp [blank])
    (by decide)

/-- C36 is false: the route right, left stays inside a 31 x 31 image but is rejected. -/
theorem C36_false_left (oc : Bool) : (∀ q ∈ routePixels [.Right, .Left], InImage 31 31 q) ∧
    printMazeSolution oc (blank 31 31) [.Left, .Right] = .ok (.error .InvalidSolution) := by
  refine ⟨by decide, (C55_acceptance oc _ _ ?_ ?_ ?_ ?_).2 ?_⟩
  iterate 4 simp [blank]
  rintro ⟨_, h, _⟩
  exact h (.inr (.inr (.inl ⟨rfl, by decide⟩)))

/-- C36 is false: the route down, down, which ends in the last row of a 3 x 3 maze with its exit stub inside
the picture, is rejected. -/
theorem C36_false_end (oc : Bool) : (∀ q ∈ routePixels [.Down, .Down], InImage 31 31 q) ∧
    printMazeSolution oc (blank 31 31) [.Down, .Down] = .ok (.error .InvalidSolution) := by
  refine ⟨by decide, (C55_acceptance oc _ _ ?_ ?_ ?_ ?_).2 ?_⟩
  iterate 4 simp [blank]
  rintro ⟨_, _, h⟩
  revert h
  decide

/-- C35's hypothesis is met: right, right, down in a 31 x 31 image is accepted. -/
example : ∃ img', printMazeSolution true (blank 31 31) [.Down, .Right, .Right] = .ok (.ok img') ∧
    img'.px 25 10 = ⟨255, 0, 0⟩ ∧ img'.px 0 0 = ⟨255, 255, 255⟩ := by
  obtain ⟨img', h1⟩ := (C55_acceptance true (blank 31 31) [.Down, .Right, .Right] (by simp [blank])
    (by simp [blank]) (by simp [blank]) (by simp [blank])).1 ⟨by decide, by simp [BackToEdge, vec], by decide⟩
  obtain ⟨_, _, _, h2⟩ := C35_paints_route true _ _ _ (by simp [blank]) (by simp [blank]) h1
  exact ⟨img', h1, (h2 25 10).1 (by decide), (h2 0 0).2 (by decide)⟩

/-! ### C34: the pipeline -/

theorem pipeline_rejects (oc : Bool) {g : List MazeNode} {sol : List MazeDirection} {e : Nat} {img : Img}
    (hR : Result w h g sol e) (hw : 1 ≤ w) (hh : 1 ≤ h) (hW : img.width = 10 * w + 1)
    (hH : img.height = 10 * h + 1) (bW : img.width + 11 ≤ 2 ^ 32) (bH : img.height + 11 ≤ 2 ^ 32) :
    printMazeSolution oc img sol = .ok (.error .InvalidSolution) := by
  refine (C55_acceptance oc img sol bW bH (by omega) (by omega)).2 ?_
  rintro ⟨h1, _, h3⟩
  by_cases h2 : 2 ≤ w
  · obtain ⟨cells, c1, c2, _⟩ := hR.wide h2
    have h0 : 0 < w * h := Nat.mul_pos (by omega) (by omega)
    obtain ⟨_, p, _⟩ := walk_pos (by omega) sol.reverse h0 c1 c2
    simp only [Nat.zero_mod, Nat.zero_div, Int.ofNat_zero] at p
    rw [p, hR.bottom, hH] at h3
    simp only at h3
    omega
  · obtain rfl : w = 1 := by omega
    have hs := hR.narrow rfl
    subst hs
    by_cases h1' : h = 1
    · subst h1'
      simp [endPos] at h3
      omega
    · have : ((15 : Int), (5 : Int)) ∈ routePixels (List.replicate (h - 1) MazeDirection.Right).reverse := by
        obtain ⟨k, rfl⟩ : ∃ k, h = k + 2 := ⟨h - 2, by omega⟩
        rw [List.reverse_replicate, show k + 2 - 1 = k + 1 from rfl, List.replicate_succ]
        simp only [routePixels, segments, List.mem_append]
        exact .inl (.inr (.inl (by decide)))
      obtain ⟨_, h4, _⟩ := h1 _ this
      rw [hW] at h4
      simp at h4

/-- C56. For every maze `create_maze` makes, the picture drawn by `print_maze` together with the maze's own
solution is rejected with `InvalidSolution`. -/
theorem C56_pipeline_always_rejected (oc : Bool) (rnd : Nat → Nat) (alg : MazeAlgorithm) (hw : 1 ≤ w) (hh : 1 ≤ h)
    (hd : PrintDims w h) (bW : 10 * w + 17 ≤ 2 ^ 32) (bH : 10 * h + 17 ≤ 2 ^ 32) :
    ∃ g sol img, createMaze oc rnd w h alg = .ok (g, sol) ∧ printMaze oc w h g = .ok (.ok img) ∧
      printMazeSolution oc img sol = .ok (.error .InvalidSolution) := by
  have hn : w * h * 24 < 2 ^ 63 := by have := hd.cells; omega
  obtain ⟨g, sol, e, h1, hR⟩ := createMaze_result oc rnd hw hh hn alg
  obtain ⟨img, h2, hW, hH, _⟩ := C31_print_maze oc hR.len hd
  exact ⟨g, sol, img, h1, h2, pipeline_rejects oc hR hw hh hW hH (by omega) (by omega)⟩

example (rnd : Nat → Nat) : ∃ g sol img, createMaze true rnd 20 30 .RecursiveBacktrack = .ok (g, sol) ∧
    printMaze true 20 30 g = .ok (.ok img) ∧
    printMazeSolution true img sol = .ok (.error .InvalidSolution) :=
  C56_pipeline_always_rejected true rnd _ (by omega) (by omega) (by constructor <;> omega) (by omega) (by omega)

/-- C34 is false: it is not the case that a created maze can be printed together with its solution; a 3 x 3
maze cannot, whatever the draws. -/
theorem C34_false (oc : Bool) (rnd : Nat → Nat) (alg : MazeAlgorithm) :
    ¬ ∀ g sol img, createMaze oc rnd 3 3 alg = .ok (g, sol) → printMaze oc 3 3 g = .ok (.ok img) →
      ∃ img', printMazeSolution oc img sol = .ok (.ok img') := by
  intro hall
  obtain ⟨g, sol, img, h1, h2, h3⟩ := C56_pipeline_always_rejected (w := 3) (h := 3) oc rnd alg (by omega)
    (by omega) (by constructor <;> omega) (by omega) (by omega)
  obtain ⟨img', h4⟩ := hall g sol img h1 h2
  rw [h3] at h4
  simp at h4

/-- C34, the part that survives: on a picture that is as wide as the maze and at least five rows higher, the
solution of a maze of width at least 2 is accepted exactly if it never steps left out of column 1 or up out of
row 1; otherwise it is rejected. Missing: the picture `print_maze` really draws, for which C34 is false. -/
theorem C34_partial (oc : Bool) (rnd : Nat → Nat) (alg : MazeAlgorithm) (hw : 2 ≤ w) (hh : 1 ≤ h)
    (hn : w * h * 24 < 2 ^ 63) (img : Img) (hW : img.width = 10 * w + 1) (hH : 10 * h + 6 ≤ img.height)
    (bW : img.width + 11 ≤ 2 ^ 32) (bH : img.height + 11 ≤ 2 ^ 32) :
    ∃ g sol, createMaze oc rnd w h alg = .ok (g, sol) ∧
      ((∃ img', printMazeSolution oc img sol = .ok (.ok img')) ↔ ¬ BackToEdge (0, 0) sol.reverse) ∧
      (BackToEdge (0, 0) sol.reverse → printMazeSolution oc img sol = .ok (.error .InvalidSolution)) := by
  obtain ⟨g, sol, e, h1, hR⟩ := createMaze_result oc rnd (by omega) hh hn alg
  obtain ⟨cells, c1, c2, _⟩ := hR.wide hw
  have h0 : 0 < w * h := Nat.mul_pos (by omega) (by omega)
  obtain ⟨_, p, hseg⟩ := walk_pos (by omega) sol.reverse h0 c1 c2
  simp only [Nat.zero_mod, Nat.zero_div, Int.ofNat_zero] at p hseg
  have hacc := C55_acceptance oc img sol bW bH (by omega) (by omega)
  have hsteps := accepted_iff oc bW bH (by omega) (by omega) sol
  have hA : Accepted img.width img.height sol.reverse ↔ ¬ BackToEdge (0, 0) sol.reverse := by
    rw [← hsteps]
    constructor
    · exact fun hc => hc.1.2
    · intro hb
      refine ⟨⟨?_, hb⟩, ?_⟩
      · intro q hq
        have := hseg q hq
        simp only [InImage] at this ⊢
        omega
      · rw [p, hR.bottom]
        simp only
        omega
  rw [hA] at hacc
  refine ⟨g, sol, h1, ⟨?_, hacc.1⟩, fun hb => hacc.2 (fun hn => hn hb)⟩
  rintro ⟨img', hok⟩ hb
  rw [hacc.2 (fun hn => hn hb)] at hok
  simp at hok

example (rnd : Nat → Nat) : ∃ g sol, createMaze true rnd 3 3 .RecursiveBacktrack = .ok (g, sol) ∧
    ((∃ img', printMazeSolution true (blank 31 36) sol = .ok (.ok img')) ↔ ¬ BackToEdge (0, 0) sol.reverse) := by
  obtain ⟨g, sol, h1, h2, _⟩ := C34_partial (w := 3) (h := 3) true rnd .RecursiveBacktrack (by omega) (by omega)
    (by omega) (blank 31 36) rfl (by simp [blank]) (by simp [blank]) (by simp [blank])
  exact ⟨g, sol, h1, h2⟩

end Maze.Props
