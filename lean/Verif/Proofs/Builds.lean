import Verif.Spec.Steps
import Verif.Model.Maze
import Verif.Model.Sudoku
import Verif.Model.NonogramPrint

/-! The debug build (overflow checks) and the release build (wrapping) of the same code: the first panics or both have
the same outcome. `Tighter` is a congruence for everything the models are built of. -/

/-- `d` panics or is the same as `r`. -/
def Tighter {α : Type} (d r : Prog α) : Prop := d = .panic ∨ d = r

namespace Tighter
variable {α β σ : Type}

theorem refl (x : Prog α) : Tighter x x := .inr rfl

theorem panic (x : Prog α) : Tighter .panic x := .inl rfl

theorem bind {d r : Prog α} {f g : α → Prog β} (h : Tighter d r) (hf : ∀ a, Tighter (f a) (g a)) :
    Tighter (d >>= f) (r >>= g) := by
  rcases h with rfl | rfl
  · exact .inl rfl
  · cases d with
    | ok a => exact hf a
    | panic => exact .inl rfl
    | ub => exact .inr rfl
    | diverge => exact .inr rfl

theorem ite {c : Prop} [Decidable c] {d r d' r' : Prog α} (h : Tighter d r) (h' : Tighter d' r') :
    Tighter (if c then d else d') (if c then r else r') := by
  split
  · exact h
  · exact h'

theorem forIn' {f g : σ → α → Prog σ} (h : ∀ s a, Tighter (f s a) (g s a)) (l : List α) (s : σ) :
    Tighter (_root_.forIn' l s f) (_root_.forIn' l s g) := by
  induction l generalizing s with
  | nil => exact refl _
  | cons a l ih => exact bind (h s a) ih

theorem loop {f g : σ → Prog (σ ⊕ α)} (h : ∀ s, Tighter (f s) (g s)) (s : σ) :
    Tighter (_root_.loop f s) (_root_.loop g s) := by
  -- a run of the release build is, up to a panic, a run of the debug build
  have key : ∀ n s t, Runs g n s t → ∀ y, Tighter (_root_.loop f t) y → Tighter (_root_.loop f s) y := by
    intro n s t r
    induction r with
    | refl => exact fun y hy => hy
    | step hb _ ih =>
      rename_i n s s' t r
      intro y hy
      rcases h s with h' | h'
      · exact .inl (loop_panic h')
      · rw [loop_inl (h'.trans hb)]
        exact ih y hy
  by_cases hd : _root_.loop g s = .diverge
  · by_cases hp : _root_.loop f s = .diverge
    · exact .inr (hp.trans hd.symm)
    · obtain ⟨n, t, r, he⟩ := (loop_iff hp).1 rfl
      -- the debug build stops after `n` turns, so the release build would have stopped unless the stop is a panic
      have run : ∀ n s t, Runs f n s t → (∀ y, Ends (f t) y → y = .panic ∨ _root_.loop g t = y) →
          ∀ y, Ends (f t) y → y = .panic ∨ _root_.loop g s = y := by
        intro n s t r
        induction r with
        | refl => exact fun H => H
        | step hb _ ih =>
          rename_i n s s' t r
          intro H y hy
          rcases h s with h' | h'
          · rw [hb] at h'
            cases h'
          · rw [loop_inl (h'.symm.trans hb)]
            exact ih H y hy
      rcases run n s t r (by
        intro y hy
        rcases h t with h' | h'
        · rcases hy with ⟨a, ha, -⟩ | ⟨-, rfl⟩ | ⟨ha, -⟩
          · rw [h'] at ha; cases ha
          · exact .inl rfl
          · rw [h'] at ha; cases ha
        · rw [h'] at hy
          exact .inr (loop_ends hy)) _ he with h' | h'
      · exact .inl h'
      · exact .inr h'.symm
  · obtain ⟨n, t, r, he⟩ := (loop_iff hd).1 rfl
    refine key n s t r _ ?_
    rcases h t with h' | h'
    · exact .inl (loop_panic h')
    · rw [← h'] at he
      exact .inr (loop_ends he)

theorem addW (bits a b : Nat) : Tighter (_root_.addW true bits a b) (_root_.addW false bits a b) := by
  unfold _root_.addW
  split
  · exact refl _
  · exact .inl rfl

theorem mulW (bits a b : Nat) : Tighter (_root_.mulW true bits a b) (_root_.mulW false bits a b) := by
  unfold _root_.mulW
  split
  · exact refl _
  · exact .inl rfl

theorem subW (bits a b : Nat) : Tighter (_root_.subW true bits a b) (_root_.subW false bits a b) := by
  unfold _root_.subW
  split
  · exact refl _
  · exact .inl rfl

end Tighter

/-- Decompose both sides along their common structure. -/
syntax "tighter" ("[" term,* "]")? : tactic
macro_rules
  | `(tactic| tighter) => `(tactic| tighter [Tighter.refl])
  | `(tactic| tighter [$ts,*]) => `(tactic|
      repeat' first
        | with_reducible exact Tighter.refl _
        | with_reducible exact Tighter.addW _ _ _
        | with_reducible exact Tighter.mulW _ _ _
        | with_reducible exact Tighter.subW _ _ _
        | (first $[| with_reducible apply $ts]*)
        | with_reducible refine Tighter.ite ?_ ?_
        | with_reducible refine Tighter.bind ?_ fun _ => ?_
        | with_reducible refine Tighter.forIn' (fun _ _ => ?_) _ _
        | with_reducible refine Tighter.loop (fun _ => ?_) _
        | split)

namespace Maze

theorem visitDir_tighter (c w h : Nat) (s : VState) (d : MazeDirection) :
    Tighter (visitDir true c w h s d) (visitDir false c w h s d) := by
  cases d <;> unfold visitDir <;> tighter

theorem visitNext_tighter (rnd : Nat → Nat) (c w h : Nat) (s : VState) :
    Tighter (visitNext true rnd c w h s) (visitNext false rnd c w h s) := by
  unfold visitNext visitBody
  tighter [visitDir_tighter]

theorem recursiveBacktrack_tighter (rnd : Nat → Nat) (w h : Nat) :
    Tighter (recursiveBacktrack true rnd w h) (recursiveBacktrack false rnd w h) := by
  unfold recursiveBacktrack backtrackBody
  tighter [visitNext_tighter]

theorem stepDir_tighter (w a b : Nat) : Tighter (stepDir true w a b) (stepDir false w a b) := by
  unfold stepDir
  tighter

theorem expand_tighter (grid : List MazeNode) (w c : Nat) (s : BState) :
    Tighter (expand true grid w c s) (expand false grid w c s) := by
  unfold expand
  tighter

theorem bfsBody_tighter (w h : Nat) (grid : List MazeNode) (s : BState) :
    Tighter (bfsBody true w h grid s) (bfsBody false w h grid s) := by
  unfold bfsBody solutionBody
  tighter [expand_tighter, stepDir_tighter]

theorem createMaze_tighter (rnd : Nat → Nat) (w h : Nat) (a : MazeAlgorithm) :
    Tighter (createMaze true rnd w h a) (createMaze false rnd w h a) := by
  unfold createMaze
  cases a
  tighter [recursiveBacktrack_tighter, bfsBody_tighter]

theorem printMaze_tighter (w h : Nat) (grid : List MazeNode) :
    Tighter (printMaze true w h grid) (printMaze false w h grid) := by
  unfold printMaze printNode putLoop
  tighter

theorem solutionStep_tighter (s : PState) (d : MazeDirection) :
    Tighter (solutionStep true s d) (solutionStep false s d) := by
  cases d <;> unfold solutionStep putLoop <;> tighter

theorem solutionSteps_tighter (ds : List MazeDirection) (s : PState) :
    Tighter (solutionSteps true s ds) (solutionSteps false s ds) := by
  induction ds generalizing s with
  | nil => exact .refl _
  | cons d ds ih =>
    unfold solutionSteps
    refine .bind (solutionStep_tighter s d) fun r => ?_
    cases r with
    | error => exact .refl _
    | ok s => exact ih s

theorem printMazeSolution_tighter (img : Img) (ds : List MazeDirection) :
    Tighter (printMazeSolution true img ds) (printMazeSolution false img ds) := by
  unfold printMazeSolution putLoop
  tighter [solutionSteps_tighter]

end Maze

namespace Sudoku

theorem printSudoku_tighter (text : TextFn) (p : List UInt8) :
    Tighter (printSudoku true text p) (printSudoku false text p) := by
  unfold printSudoku printGrid printLines
  tighter

end Sudoku

namespace Nonogram

theorem parseFields_tighter (xs : List (List Char)) (n : Nat) :
    Tighter (parseFields true n xs) (parseFields false n xs) := by
  induction xs generalizing n with
  | nil => exact .refl _
  | cons x xs ih =>
    unfold parseFields
    cases parseUsize x with
    | none => exact .refl _
    | some v => exact .bind (.addW _ _ _) fun k => .bind (ih k) fun _ => .refl _

theorem parseRule_tighter (b : Nat) (r : List Char) : Tighter (parseRule true b r) (parseRule false b r) := by
  unfold parseRule
  tighter [parseFields_tighter]

theorem parseAll_tighter (b : Nat) (rs : List (List Char)) : Tighter (parseAll true b rs) (parseAll false b rs) := by
  induction rs with
  | nil => exact .refl _
  | cons r rs ih =>
    unfold parseAll
    refine .bind (parseRule_tighter b r) fun e => ?_
    cases e with
    | error => exact .refl _
    | ok => exact .bind ih fun _ => .refl _

theorem incI32_tighter (a : Nat) : Tighter (incI32 true a) (incI32 false a) := by
  unfold incI32
  by_cases h : a + 1 = 2 ^ 31
  · exact .inl (if_pos ⟨rfl, h⟩)
  · rw [if_neg (fun e => h e.2), if_neg (fun e => h e.2)]
    exact .refl _

theorem machine_tighter (m : RuleMachine) (l : List Square) :
    Tighter (m.rightLeft true l) (m.rightLeft false l) := by
  unfold RuleMachine.rightLeft lineBody
  tighter [incI32_tighter]

theorem lineStep_tighter (m : RuleMachine) (ps : List Nat) (s : List Square × Bool) :
    Tighter (lineStep true m ps s) (lineStep false m ps s) := by
  unfold lineStep
  tighter [machine_tighter]

theorem colLoop_tighter (w : Nat) (l : List (RuleMachine × Nat)) (s : List Square × Bool) :
    Tighter (colLoop true w l s) (colLoop false w l s) := by
  induction l generalizing s with
  | nil => exact .refl _
  | cons m l ih =>
    obtain ⟨m, i⟩ := m
    unfold colLoop
    refine .bind (.refl _) fun ps => .bind (lineStep_tighter m ps s) fun e => ?_
    cases e with
    | error => exact .refl _
    | ok s => exact ih s

theorem rowLoop_tighter (w : Nat) (l : List (RuleMachine × Nat)) (s : List Square × Bool) :
    Tighter (rowLoop true w l s) (rowLoop false w l s) := by
  induction l generalizing s with
  | nil => exact .refl _
  | cons m l ih =>
    obtain ⟨m, i⟩ := m
    unfold rowLoop
    refine .bind ?_ fun ps => .bind (lineStep_tighter m ps s) fun e => ?_
    · unfold rowPositions
      tighter
    · cases e with
      | error => exact .refl _
      | ok s => exact ih s

theorem passBody_tighter (w : Nat) (cols rows : List RuleMachine) (g : List Square) :
    Tighter (passBody true w cols rows g) (passBody false w cols rows g) := by
  unfold passBody
  tighter [colLoop_tighter, rowLoop_tighter]

theorem solveNonogram_tighter (col row : List (List Nat)) :
    Tighter (solveNonogram true col row) (solveNonogram false col row) := by
  unfold solveNonogram rightLeft
  tighter [passBody_tighter]

theorem printNonogram_tighter (text : TextFn) (w h : Nat) (col row : List (List Nat)) :
    Tighter (printNonogram true text w h col row) (printNonogram false text w h col row) := by
  unfold printNonogram ruleSide imageSide printColRule printColNumber printRowRule printVertical printHorizontal
  tighter

theorem i32_tighter (v : Int) : Tighter (i32 true v) (i32 false v) := by
  unfold i32
  split
  · exact .refl _
  · exact .inl rfl

theorem drawFilledRect_tighter (img : Img) (r : Rect) (c : Rgb) :
    Tighter (drawFilledRect true img r c) (drawFilledRect false img r c) := by
  unfold drawFilledRect Rect.intersect Rect.far
  tighter [i32_tighter]

theorem printNonogramSolution_tighter (w h : Nat) (img : Img) (grid : List Bool) :
    Tighter (printNonogramSolution true w h img grid) (printNonogramSolution false w h img grid) := by
  unfold printNonogramSolution printSquare ruleSide imageSide
  tighter [drawFilledRect_tighter]

end Nonogram
