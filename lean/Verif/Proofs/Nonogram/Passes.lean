import Verif.Proofs.Nonogram.Stable
import Verif.Spec.Steps

/-! Helper lemmas: the number of passes of the propagation. -/
namespace Nonogram
open Spec

/-- The propagation stops; each of the turns before the last one settles a square. -/
theorem pass_runs (oc : Bool) {col row : List (List Nat)} (hf : Fits col row) {cs rs : List RuleMachine}
    (hc : List.Forall₂ IsMachine col cs) (hr : List.Forall₂ IsMachine row rs) :
    ∀ (k : Nat) (g : List Square), blanks g = k → g.length = col.length * row.length →
      ∃ n t a, Runs (passBody oc col.length cs rs) n g t ∧ passBody oc col.length cs rs t = .ok (.inr a) ∧
        n + blanks t ≤ blanks g := by
  intro k
  induction k using Nat.strongRecOn with
  | ind k ih =>
    intro g hk hg
    rcases passBody_spec oc hf hc hr hg with ⟨_, hb⟩ | ⟨g', hrun, hb⟩
    · exact ⟨0, g, _, .refl g, hb, by omega⟩
    · by_cases hgg : g' = g
      · rw [if_pos hgg] at hb
        exact ⟨0, g, _, .refl g, hb, by omega⟩
      · rw [if_neg hgg] at hb
        have hle := Run.le (allJobs_good hf) hg hrun
        have hlt := (blanks_le hle).2 (fun e => hgg e.symm)
        obtain ⟨n, t, a, r, ht, hn⟩ := ih (blanks g') (by omega) g' rfl (hle.1.trans hg)
        exact ⟨n + 1, t, a, .step hb r, ht, by omega⟩

end Nonogram
