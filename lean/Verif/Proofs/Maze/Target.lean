import Verif.Model.MazeTarget
import Verif.Spec.Steps
import Verif.Proofs.DL.Limit

/-! Helper lemmas for C133: `create_maze` for other widths of `usize`. -/
namespace Maze.Target
open Maze
open DancingLinks.Limit (bind_ok)

/-- When `x` returns, `y` returns the same, and the value has property `Q`. -/
def Imp {α : Type} (x y : Prog α) (Q : α → Prop) : Prop := ∀ a, x = .ok a → y = .ok a ∧ Q a

theorem Imp.bind {α β : Type} {x y : Prog α} {f g : α → Prog β} {Q : α → Prop} {R : β → Prop} (h : Imp x y Q)
    (hf : ∀ a, Q a → Imp (f a) (g a) R) : Imp (x >>= f) (y >>= g) R := by
  intro b e
  obtain ⟨a, ea, e⟩ := bind_ok e
  obtain ⟨ey, q⟩ := h a ea
  rw [ey, Prog.ok_bind]
  exact hf a q b e

theorem Imp.same {α : Type} {x : Prog α} {Q : α → Prop} (h : ∀ a, x = .ok a → Q a) : Imp x x Q := fun a e => ⟨e, h a e⟩
theorem Imp.ok {α : Type} {a : α} {Q : α → Prop} (h : Q a) : Imp (.ok a) (.ok a) Q := fun b e => by cases e; exact ⟨rfl, h⟩
theorem Imp.panic {α : Type} {y : Prog α} {Q : α → Prop} : Imp (.panic) y Q := fun b e => by cases e
theorem Imp.any {α : Type} (x : Prog α) : Imp x x (fun _ => True) := .same fun _ _ => trivial
theorem Imp.mono {α : Type} {x y : Prog α} {Q R : α → Prop} (h : Imp x y Q) (hq : ∀ a, Q a → R a) : Imp x y R :=
  fun a e => ⟨(h a e).1, hq a (h a e).2⟩
theorem Imp.of_eq {α : Type} {x y : Prog α} (h : y = x) : Imp x y (fun _ => True) := by rw [h]; exact .any x

theorem Imp.loop {σ α : Type} {body body' : σ → Prog (σ ⊕ α)} (I : σ → Prop) (Q : α → Prop)
    (step : ∀ s, I s → Imp (body s) (body' s) fun r => match r with | .inl s' => I s' | .inr a => Q a) (s : σ) (hs : I s) :
    Imp (_root_.loop body s) (_root_.loop body' s) Q := by
  intro a e0
  obtain ⟨n, t, r, e⟩ := loop_ok_iff.1 e0
  clear e0
  induction r with
  | refl s =>
    obtain ⟨e', q⟩ := step s hs _ e
    exact ⟨loop_inr e', q⟩
  | step h _ ih =>
    obtain ⟨e', q⟩ := step _ hs _ h
    rw [loop_inl e']
    exact ih q e

theorem imp_add {oc : Bool} {B a b : Nat} (h : a + b < 2 ^ B) (h64 : a + b < 2 ^ 64) :
    Imp (addW oc 64 a b) (addW oc B a b) (· = a + b) := by
  rw [addW_ok h, addW_ok h64]; exact .ok rfl
theorem imp_mul {oc : Bool} {B a b : Nat} (h : a * b < 2 ^ B) (h64 : a * b < 2 ^ 64) :
    Imp (mulW oc 64 a b) (mulW oc B a b) (· = a * b) := by
  rw [mulW_ok h, mulW_ok h64]; exact .ok rfl
theorem imp_sub {oc : Bool} {B a b : Nat} (h : b ≤ a) : Imp (subW oc 64 a b) (subW oc B a b) (· = a - b) := by
  rw [subW_ok h, subW_ok h]; exact .ok rfl

theorem imp_get {α : Type} (l : List α) (i : Nat) : Imp (getP l i) (getP l i) fun a => i < l.length ∧ a ∈ l := by
  refine .same fun a e => ?_
  by_cases h : i < l.length
  · rw [getP_ok h] at e; cases e; exact ⟨h, List.getElem_mem h⟩
  · rw [getP_panic (by omega)] at e; cases e

theorem imp_set {α : Type} (l : List α) (i : Nat) (x : α) :
    Imp (setP l i x) (setP l i x) fun l' => l'.length = l.length ∧ ∀ y ∈ l', y ∈ l ∨ y = x := by
  refine .same fun a e => ?_
  unfold setP at e
  split at e
  · cases e; exact ⟨by simp, fun y hy => List.mem_or_eq_of_mem_set hy⟩
  · cases e

variable {ws : Nat} {oc : Bool} {rnd : Nat → Nat} {w h : Nat}

/-- The dimensions a target with `ws` bytes per word can hold. -/
structure Fits (ws w h : Nat) : Prop where
  wpos : 1 ≤ w
  hpos : 1 ≤ h
  two : 2 * (w * h) < 2 ^ (8 * ws)
  two64 : 2 * (w * h) < 2 ^ 64

theorem visitDir_imp (F : Fits ws w h) {c : Nat} (hc : c < w * h) (s : VState) (d : MazeDirection) :
    Imp (visitDir oc c w h s d) (visitDirT ws oc c w h s d) (fun _ => True) := by
  obtain ⟨hw, hh, f1, f2⟩ := F
  have hwn : w ≤ w * h := Nat.le_mul_of_pos_right w hh
  have hlim : w * (h - 1) ≤ w * h := Nat.mul_le_mul_left w (Nat.sub_le _ _)
  have h0 : ¬ w = 0 := by omega
  cases d with
  | Right =>
    simp only [visitDir, visitDirT, if_neg h0]
    refine (imp_sub hw).bind fun _ _ => ?_
    split
    · exact .any _
    · exact (imp_add (by omega) (by omega)).bind fun _ _ => .any _
  | Down =>
    refine (imp_sub hh).bind ?_
    rintro _ rfl
    refine (imp_mul (by omega) (by omega)).bind fun _ _ => ?_
    split
    · exact .any _
    · exact (imp_add (by omega) (by omega)).bind fun _ _ => .any _
  | Left =>
    simp only [visitDir, visitDirT, if_neg h0]
    split
    · exact .any _
    · rename_i hm
      have : c ≠ 0 := fun e => hm (by simp [e])
      exact (imp_sub (by omega)).bind fun _ _ => .any _
  | Up =>
    simp only [visitDir, visitDirT]
    split
    · exact .any _
    · exact (imp_sub (by omega)).bind fun _ _ => .any _

theorem visitNext_imp (F : Fits ws w h) {c : Nat} (hc : c < w * h) (s : VState) :
    Imp (visitNext oc rnd c w h s) (visitNextT ws oc rnd c w h s) (fun _ => True) := by
  refine Imp.loop (fun _ => True) (fun _ => True) (fun s _ => ?_) s trivial
  have : Imp (visitBody oc rnd c w h s) (visitBodyT ws oc rnd c w h s) (fun _ => True) := by
    unfold visitBody visitBodyT
    split
    · exact .any _
    · refine (Imp.any _).bind ?_
      rintro ⟨d, v⟩ _
      exact (Imp.any _).bind fun d _ => visitDir_imp F hc _ d
  exact this.mono fun r _ => by cases r <;> trivial

theorem backtrack_imp (F : Fits ws w h) (s : RState) (hs : s.canVisit.length = w * h) :
    Imp (_root_.loop (backtrackBody oc rnd w h) s) (_root_.loop (backtrackBodyT ws oc rnd w h) s) (fun _ => True) := by
  refine Imp.loop (fun s => s.canVisit.length = w * h) (fun _ => True) (fun s hs => ?_) s hs
  unfold backtrackBody backtrackBodyT
  cases s.path with
  | nil => exact Imp.ok trivial
  | cons c rest =>
    refine (imp_get _ _).bind fun vis hv => ?_
    refine (visitNext_imp F (by rw [← hs]; exact hv.1) _).bind ?_
    rintro ⟨r, v⟩ _
    refine (imp_set _ _ _).bind fun cv hcv => ?_
    cases r with
    | some nx => exact .ok (hcv.1.trans hs)
    | none => exact .ok (hcv.1.trans hs)

theorem stepDir_imp (F : Fits ws w h) {c p : Nat} (hc : c < w * h) (hp : p < w * h) :
    Imp (stepDir oc w c p) (stepDirT ws oc w c p) (fun _ => True) := by
  obtain ⟨hw, hh, f1, f2⟩ := F
  have hwn : w ≤ w * h := Nat.le_mul_of_pos_right w hh
  refine (imp_add (by omega) (by omega)).bind ?_
  rintro _ rfl
  split
  · exact .any _
  · refine (imp_add (by omega) (by omega)).bind ?_
    rintro _ rfl
    split
    · exact .any _
    · by_cases h0 : 1 ≤ c
      · refine (imp_sub h0).bind fun _ _ => .any _
      · obtain rfl : c = 0 := by omega
        cases oc with
        | true => unfold subW; exact .panic
        | false =>
          have e1 : subW false 64 0 1 = .ok (2 ^ 64 - 1) := by decide
          have e2 : subW false (8 * ws) 0 1 = .ok (2 ^ (8 * ws) - 1) := by
            unfold subW
            have := Nat.two_pow_pos (8 * ws)
            simp only [Nat.add_zero, Bool.false_eq_true, if_false]
            rw [if_neg (by omega), Nat.mod_eq_of_lt (by omega)]
          rw [e1, e2, Prog.ok_bind, Prog.ok_bind, if_neg (by omega), if_neg (by omega)]
          exact .any _

/-- The parents in a search tree are cells. -/
def Tree (n : Nat) (l : List PathNode) : Prop := l.length = n ∧ ∀ p, PathNode.Path p ∈ l → p < n

theorem solution_imp (F : Fits ws w h) {pt : List PathNode} (hp : Tree (w * h) pt) (s : Nat × List MazeDirection) :
    Imp (_root_.loop (solutionBody oc w pt) s) (_root_.loop (solutionBodyT ws oc w pt) s) (fun _ => True) := by
  refine Imp.loop (fun _ => True) (fun _ => True) (fun s _ => ?_) s trivial
  refine (imp_get _ _).bind fun nd hn => ?_
  cases nd with
  | Path p =>
    exact (stepDir_imp F (by rw [← hp.1]; exact hn.1) (hp.2 p hn.2)).bind fun _ _ => .ok trivial
  | Start => exact .ok trivial
  | Unvisited => exact .ok trivial

/-- The state of the breadth-first search names cells only. -/
def Cells (n : Nat) (s : BState) : Prop := Tree n s.pathTree ∧ ∀ c ∈ s.traversal, c < n

theorem tryVisit_imp {n c to : Nat} (hc : c < n) {s : BState} (hs : Cells n s) (wall : Bool) :
    Imp (tryVisit s wall c to) (tryVisit s wall c to) (Cells n) := by
  unfold tryVisit
  cases wall with
  | true => exact .ok hs
  | false =>
    refine (imp_get _ _).bind fun nd hn => ?_
    cases nd with
    | Unvisited =>
      refine (imp_set _ _ _).bind fun pt hpt => .ok ⟨⟨hpt.1.trans hs.1.1, fun p hp => ?_⟩, fun q hq => ?_⟩
      · rcases hpt.2 _ hp with h | h
        · exact hs.1.2 p h
        · cases h; exact hc
      · rcases List.mem_append.1 hq with h | h
        · exact hs.2 q h
        · rw [List.mem_singleton.1 h, ← hs.1.1]; exact hn.1
    | Path p => exact .ok hs
    | Start => exact .ok hs

theorem expand_imp (F : Fits ws w h) {grid : List MazeNode} {c : Nat} (hc : c < w * h) {s : BState} (hs : Cells (w * h) s) :
    Imp (expand oc grid w c s) (expandT ws oc grid w c s) (Cells (w * h)) := by
  obtain ⟨hw, hh, f1, f2⟩ := F
  have hwn : w ≤ w * h := Nat.le_mul_of_pos_right w hh
  refine (imp_add (by omega) (by omega)).bind fun right _ => (imp_get _ _).bind fun nd _ =>
    (tryVisit_imp hc hs _).bind fun s1 hs1 => (imp_add (by omega) (by omega)).bind fun down _ =>
    (tryVisit_imp hc hs1 _).bind fun s2 hs2 => ?_
  refine Imp.bind (Q := Cells (w * h)) ?_ fun s3 hs3 => ?_
  · split
    · exact (imp_get _ _).bind fun nd _ => tryVisit_imp hc hs2 _
    · exact .ok hs2
  · split
    · exact (imp_get _ _).bind fun nd _ => tryVisit_imp hc hs3 _
    · exact .ok hs3

theorem bfs_imp (F : Fits ws w h) {grid : List MazeNode} (s : BState) (hs : Cells (w * h) s) :
    Imp (_root_.loop (bfsBody oc w h grid) s) (_root_.loop (bfsBodyT ws oc w h grid) s) (fun _ => True) := by
  refine Imp.loop (Cells (w * h)) (fun _ => True) (fun s hs => ?_) s hs
  unfold bfsBody bfsBodyT
  obtain ⟨pt, tr, found⟩ := s
  cases tr with
  | nil => exact .panic
  | cons c rest =>
    have hc : c < w * h := hs.2 c (by simp)
    have h0 : ¬ w = 0 := by have := F.wpos; omega
    simp only [if_neg h0]
    refine (imp_sub F.hpos).bind fun h1 _ => ?_
    have hs' : ∀ f, Cells (w * h) ⟨pt, rest, f⟩ := fun f => ⟨hs.1, fun q hq => hs.2 q (List.mem_cons_of_mem _ hq)⟩
    split
    · split
      · exact (imp_get _ _).bind fun nd _ => (imp_set _ _ _).bind fun grid' _ =>
          (solution_imp F hs.1 _).bind fun _ _ => .ok trivial
      · exact (expand_imp F hc (hs' _)).bind fun s' h' => .ok h'
    · exact (expand_imp F hc (hs' _)).bind fun s' h' => .ok h'

/-- Within the limits of both targets, `create_maze` returns what it returns on a 64-bit target. -/
theorem createMaze_imp (F : Fits ws w h) (hw : 1 ≤ ws) (hl : w * h * (3 * ws) < 2 ^ (8 * ws - 1)) (h64 : w * h * 24 < 2 ^ 63)
    (alg : MazeAlgorithm) : Imp (createMaze oc rnd w h alg) (createMazeT ws oc rnd w h alg) (fun _ => True) := by
  have lim : ∀ k, k ≤ 3 * ws → w * h * k < 2 ^ (8 * ws - 1) := fun k hk =>
    Nat.lt_of_le_of_lt (Nat.mul_le_mul_left _ hk) hl
  have lim64 : ∀ k, k ≤ 24 → w * h * k < 2 ^ 63 := fun k hk => Nat.lt_of_le_of_lt (Nat.mul_le_mul_left _ hk) h64
  have vec : ∀ {α : Type} (x : α) (k k' : Nat), k ≤ 24 → k' ≤ 3 * ws →
      Imp (vecRepeat k x (w * h)) (vecRepeatT ws k' x (w * h)) (· = List.replicate (w * h) x) := by
    intro α x k k' hk hk'
    unfold vecRepeat vecRepeatT
    rw [if_pos (lim64 k hk), if_pos (lim k' hk')]
    exact .ok rfl
  have f1 := F.two
  have f2 := F.two64
  cases alg
  refine Imp.bind (Q := fun _ => True) ?_ fun grid _ => ?_
  · refine (imp_mul (by omega) (by omega)).bind ?_
    rintro _ rfl
    refine (vec _ 2 2 (by omega) (by omega)).bind fun maze _ => (vec _ 16 (2 * ws) (by omega) (by omega)).bind fun conn _ =>
      (vec _ 24 (3 * ws) (by omega) (by omega)).bind ?_
    rintro _ rfl
    exact backtrack_imp F _ (by simp)
  · refine (imp_mul (by omega) (by omega)).bind ?_
    rintro _ rfl
    refine (vec _ 16 (2 * ws) (by omega) (by omega)).bind ?_
    rintro _ rfl
    refine (imp_set _ _ _).bind fun pt hpt => ?_
    refine bfs_imp F _ ⟨⟨by rw [hpt.1]; simp, fun p hp => ?_⟩, fun c hc => ?_⟩
    · rcases hpt.2 _ hp with h | h
      · exact nomatch List.eq_of_mem_replicate h
      · cases h
    · rw [List.mem_singleton.1 hc]; exact Nat.mul_pos F.wpos F.hpos

end Maze.Target
