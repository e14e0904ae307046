import Verif.Proofs.Maze.OverflowTarget
import Verif.Props.Maze

/-! C133: `create_maze` on targets with a 16-bit, 32-bit or 64-bit `usize`. -/
namespace Maze.Props
open Maze Maze.Spec

/-- The bytes of a `usize` on the targets Rust has. -/
def Word (ws : Nat) : Prop := ws = 2 ∨ ws = 4 ∨ ws = 8

/-- C133: when both dimensions are positive and `width * height` vectors of three words stay below half the address space,
`create_maze` returns, and it returns what it returns on a 64-bit target. -/
theorem C133_create_maze {ws : Nat} (hws : Word ws) (oc : Bool) (rnd : Nat → Nat) {w h : Nat} (hw : 1 ≤ w) (hh : 1 ≤ h)
    (hn : w * h * (3 * ws) < 2 ^ (8 * ws - 1)) (alg : MazeAlgorithm) :
    ∃ r, createMazeT ws oc rnd w h alg = .ok r ∧ createMaze oc rnd w h alg = .ok r := by
  have hb : 2 * (w * h) < 2 ^ (8 * ws) ∧ 2 * (w * h) < 2 ^ 64 ∧ w * h * 24 < 2 ^ 63 ∧ 1 ≤ ws := by
    rcases hws with rfl | rfl | rfl <;> norm_num at hn ⊢ <;> omega
  obtain ⟨r, e⟩ := (C29_terminates oc rnd alg).1 hw hh hb.2.2.1
  exact ⟨r, (Target.createMaze_imp ⟨hw, hh, hb.1, hb.2.1⟩ hb.2.2.2 hn hb.2.2.1 alg r e).1, e⟩

/-- C133: so it makes perfect mazes there. -/
theorem C133_perfect {ws : Nat} (hws : Word ws) (oc : Bool) (rnd : Nat → Nat) {w h : Nat} (hw : 1 ≤ w) (hh : 1 ≤ h)
    (hn : w * h * (3 * ws) < 2 ^ (8 * ws - 1)) (alg : MazeAlgorithm) :
    ∃ g sol, createMazeT ws oc rnd w h alg = .ok (g, sol) ∧ g.length = w * h ∧ (graph w h g).IsTree := by
  obtain ⟨r, e, e'⟩ := C133_create_maze hws oc rnd hw hh hn alg
  have hb : w * h * 24 < 2 ^ 63 := by rcases hws with rfl | rfl | rfl <;> norm_num at hn ⊢ <;> omega
  obtain ⟨g, sol, e2, hl, ht, _⟩ := C24_perfect oc rnd alg hw hh hb
  rw [e'] at e2
  cases e2
  exact ⟨g, sol, e, hl, ht⟩

theorem target_panics {ws : Nat} (oc : Bool) (rnd : Nat → Nat) {w h : Nat} (alg : MazeAlgorithm)
    (hz : (w = 0 ∨ h = 0) ∨ (2 ^ (8 * ws - 1) ≤ w * h * (3 * ws) ∧ (w * h < 2 ^ (8 * ws) ∨ oc = true))) :
    createMazeT ws oc rnd w h alg = .panic := by
  cases alg
  have : recursiveBacktrackT ws oc rnd w h = .panic := by
    unfold recursiveBacktrackT
    rcases hz with hz | ⟨hb, hov⟩
    · have hn : w * h = 0 := by rcases hz with rfl | rfl <;> simp
      rw [mulW_ok (by rw [hn]; exact Nat.two_pow_pos _), hn]
      simp only [Prog.ok_bind, vecRepeatT, Nat.zero_mul, Nat.two_pow_pos, if_true, List.replicate_zero]
      apply loop_panic
      rfl
    · by_cases hlt : w * h < 2 ^ (8 * ws)
      · rw [mulW_ok hlt]
        simp only [Prog.ok_bind, vecRepeatT, show ¬ w * h * (3 * ws) < 2 ^ (8 * ws - 1) by omega, if_false]
        split <;> simp only [Prog.ok_bind, Prog.panic_bind]
        split <;> simp only [Prog.ok_bind, Prog.panic_bind]
      · have : oc = true := by tauto
        subst this
        have : mulW true (8 * ws) w h = .panic := by simp only [mulW, if_neg hlt, if_true]
        rw [this]; rfl
  simp [createMazeT, this]

/-- C133: for all `usize` dimensions: in every other case it panics, in particular when `width * height` wraps around. -/
theorem C133_returns_iff {ws : Nat} (hws : Word ws) (oc : Bool) (rnd : Nat → Nat) {w h : Nat} (hh : h < 2 ^ (8 * ws))
    (alg : MazeAlgorithm) :
    ((∃ r, createMazeT ws oc rnd w h alg = .ok r) ↔ 1 ≤ w ∧ 1 ≤ h ∧ w * h * (3 * ws) < 2 ^ (8 * ws - 1)) ∧
    (¬ (1 ≤ w ∧ 1 ≤ h ∧ w * h * (3 * ws) < 2 ^ (8 * ws - 1)) → createMazeT ws oc rnd w h alg = .panic) := by
  have hpanic : ¬ (1 ≤ w ∧ 1 ≤ h ∧ w * h * (3 * ws) < 2 ^ (8 * ws - 1)) → createMazeT ws oc rnd w h alg = .panic := by
    intro hn
    by_cases hz : w = 0 ∨ h = 0
    · exact target_panics oc rnd alg (.inl hz)
    · have hbig : 2 ^ (8 * ws - 1) ≤ w * h * (3 * ws) := by
        by_contra hb
        exact hn ⟨by omega, by omega, by omega⟩
      by_cases hlt : w * h < 2 ^ (8 * ws)
      · exact target_panics oc rnd alg (.inr ⟨hbig, .inl hlt⟩)
      · cases oc with
        | true => exact target_panics true rnd alg (.inr ⟨hbig, .inr rfl⟩)
        | false => exact Target.createMaze_wraps rnd hh (by omega) alg
  refine ⟨⟨?_, fun hn => ?_⟩, hpanic⟩
  · rintro ⟨r, hr⟩
    by_contra hn
    rw [hpanic hn] at hr
    cases hr
  · obtain ⟨r, e, _⟩ := C133_create_maze hws oc rnd hn.1 hn.2.1 hn.2.2 alg
    exact ⟨r, e⟩

/-- On a 64-bit target it is `createMaze`. -/
theorem C133_64 : createMazeT 8 = createMaze := rfl

/-- 10000 by 10000 cells fit a 32-bit target, 20000 by 20000 do not, though they would fit a 64-bit one, nor do 65537 by
65536, whose product wraps around to 65536; 50 by 50 fit a 16-bit target. -/
example (oc : Bool) (rnd : Nat → Nat) (alg : MazeAlgorithm) :
    (∃ r, createMazeT 4 oc rnd 10000 10000 alg = .ok r ∧ createMaze oc rnd 10000 10000 alg = .ok r) ∧
    createMazeT 4 oc rnd 20000 20000 alg = .panic ∧ createMazeT 4 oc rnd 65537 65536 alg = .panic ∧ (∃ r, createMaze oc rnd 20000 20000 alg = .ok r) ∧
    ∃ r, createMazeT 2 oc rnd 50 50 alg = .ok r ∧ createMaze oc rnd 50 50 alg = .ok r :=
  ⟨C133_create_maze (.inr (.inl rfl)) oc rnd (by decide) (by decide) (by decide) alg,
   (C133_returns_iff (.inr (.inl rfl)) oc rnd (by decide) alg).2 (by decide),
   (C133_returns_iff (.inr (.inl rfl)) oc rnd (by decide) alg).2 (by decide),
   (C29_terminates oc rnd alg).1 (by decide) (by decide) (by decide),
   C133_create_maze (.inl rfl) oc rnd (by decide) (by decide) (by decide) alg⟩

end Maze.Props
