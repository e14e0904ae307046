import Verif.Proofs.DL.Endless
import Verif.Props.RepSound

/-! C82: with repeated rows `solve` can call itself forever. -/
namespace DancingLinks.Props
open DancingLinks DancingLinks.Spec

/-- Four constraints; one of them names row 0 twice. -/
def endlessM : List (List Nat) := [[4, 2], [4, 3], [0, 3, 2, 0], [4, 1]]

/-- The memories of the first nested calls of `solve_helper`, the last two of which are the same. -/
def nestF (A : Arith) (n : Nat) (M : List (List Nat)) : Prog Bool := do
  let (m, h) ← Matrix.new Heap.empty M
  let h ← Endless.child2F A n m.root h []
  let h ← Endless.childF A n m.root h
  let h ← Endless.childF A n m.root h
  let h' ← Endless.childF A n m.root h
  return decide (∀ p < h.next, h'.mem p = h.mem p)

theorem endless {A : Arith} {n : Nat} {M : List (List Nat)} (e : nestF A n M = .ok true) : solveNewG A M = .diverge := by
  obtain ⟨h0, rows, HR, V, RW, e0, B, _⟩ := new_bldR M
  have real : ∀ {h h'}, Endless.childF A n 1 h = .ok h' → Endless.child A 1 h = .ok h' := fun {h h'} e =>
    ((Endless.childF_le A n 1 h).eq (by rw [e]; nofun)).trans e
  unfold nestF at e
  rw [e0, Prog.ok_bind] at e
  obtain ⟨h1, e1, e⟩ := Limit.bind_ok e
  obtain ⟨h2, e2, e⟩ := Limit.bind_ok e
  obtain ⟨h3, e3, e⟩ := Limit.bind_ok e
  obtain ⟨h4, e4, e⟩ := Limit.bind_ok e
  have same : ∀ p < h3.next, h4.mem p = h3.mem p := by simpa using e
  have real1 := (Endless.child2F_le A n 1 h0 []).eq (by rw [e1]; nofun) |>.trans e1
  obtain ⟨f0, d0⟩ := Endless.child2_spec real1
  have f : Endless.Fr h0 h3 := (f0.trans (Endless.child_fr (real e2))).trans (Endless.child_fr (real e3))
  have c : ∀ p, h3.next ≤ p → h3.mem p = .unalloc := fun p hp => by
    have hd := B.dead p (.inr (by rw [← f.1]; exact hp))
    rw [f.2.2 p (fun n e => by rw [hd] at e; cases e), hd]
  have e5 := real e4
  rw [(Endless.child_fr e5).eq same c] at e5
  have d3 := Endless.diverge_of_loop e5
  have d2 := Endless.diverge_of_child (real e3) d3
  have d1 := Endless.diverge_of_child (real e2) d2
  unfold solveNewG Matrix.solveG
  rw [e0, Prog.ok_bind]
  simp only
  rw [d0 d1]
  rfl

/-- C82: on `{4,2}, {4,3}, {0,3,2,0}, {4,1}` `solve` does not return in either build: the fourth nested call of
`solve_helper` calls `solve_helper` with the very memory it was called with, and so on for ever. Rows 4 and 0 are an
exact cover. -/
theorem C82_endless (oc : Bool) : solveNewG (.build oc) endlessM = .diverge ∧ solveNewG .model endlessM = .diverge ∧
    ExactCover endlessM [4, 0] := by
  refine ⟨?_, endless (n := 20) (by decide +kernel), ?_⟩
  · cases oc
    · exact endless (n := 20) (by decide +kernel)
    · exact endless (n := 20) (by decide +kernel)
  · refine ⟨by decide, ?_, by decide⟩
    intro r hr
    simp only [List.mem_cons, List.not_mem_nil, or_false] at hr
    rcases hr with rfl | rfl
    · exact ⟨[4, 2], by decide, by decide⟩
    · exact ⟨[0, 3, 2, 0], by decide, by decide⟩

end DancingLinks.Props
