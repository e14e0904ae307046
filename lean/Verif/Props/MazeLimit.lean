import Verif.Props.Maze
import Verif.Proofs.Maze.Overflow

/-! C81: for which dimensions `create_maze` returns. -/
namespace Maze.Props

/-- C81. For all `usize` dimensions, whatever the draws and the overflow checks: `create_maze` returns a maze
exactly when both dimensions are positive and `width * height` (the true product) vectors of 24 bytes are within
the allocation limit; in all other cases it panics, in particular when `width * height` wraps around. -/
theorem C81_returns_iff (oc : Bool) (rnd : Nat → Nat) {w h : Nat} (hw : w < 2 ^ 64) (hh : h < 2 ^ 64)
    (alg : MazeAlgorithm) :
    ((∃ r, createMaze oc rnd w h alg = .ok r) ↔ 1 ≤ w ∧ 1 ≤ h ∧ w * h * 24 < 2 ^ 63) ∧
    (¬ (1 ≤ w ∧ 1 ≤ h ∧ w * h * 24 < 2 ^ 63) → createMaze oc rnd w h alg = .panic) := by
  have hpanic : ¬ (1 ≤ w ∧ 1 ≤ h ∧ w * h * 24 < 2 ^ 63) → createMaze oc rnd w h alg = .panic := by
    intro hn
    by_cases hz : w = 0 ∨ h = 0
    · exact (C29_terminates oc rnd alg).2 hz
    · have hbig : 2 ^ 63 ≤ w * h * 24 := by
        by_cases hb : w * h * 24 < 2 ^ 63
        · exact absurd ⟨by omega, by omega, hb⟩ hn
        · omega
      by_cases hlt : w * h < 2 ^ 64
      · exact C29_too_big oc rnd alg hbig (.inl hlt)
      · cases oc with
        | true => exact C29_too_big true rnd alg hbig (.inr rfl)
        | false => exact createMaze_wraps rnd hh (by omega) alg
  refine ⟨⟨?_, fun h => (C29_terminates oc rnd alg).1 h.1 h.2.1 h.2.2⟩, hpanic⟩
  rintro ⟨r, hr⟩
  by_cases hn : 1 ≤ w ∧ 1 ≤ h ∧ w * h * 24 < 2 ^ 63
  · exact hn
  · rw [hpanic hn] at hr
    cases hr

/-- Concrete cases: `(2^32 + 1) * 2^32` wraps around to the harmless-looking `2^32`, `(2^32 + 1) * (2^32 - 1)` stays
just below, and 600 million by 600 million is too big; 600 by 600 is fine. -/
example (rnd : Nat → Nat) (alg : MazeAlgorithm) :
    createMaze false rnd (2 ^ 32 + 1) (2 ^ 32) alg = .panic ∧
    createMaze false rnd (2 ^ 63 + 1) 2 alg = .panic ∧
    createMaze true rnd (2 ^ 32 + 1) (2 ^ 32 - 1) alg = .panic ∧
    (∃ r, createMaze true rnd 600 600 alg = .ok r) :=
  ⟨(C81_returns_iff false rnd (by omega) (by omega) alg).2 (by omega),
   (C81_returns_iff false rnd (by omega) (by omega) alg).2 (by omega),
   (C81_returns_iff true rnd (by omega) (by omega) alg).2 (by omega),
   (C81_returns_iff true rnd (by omega) (by omega) alg).1.2 (by omega)⟩

end Maze.Props
