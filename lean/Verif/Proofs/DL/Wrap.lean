import Verif.Model.DancingWrap
import Verif.Proofs.DL.Fuel
import Verif.Proofs.DL.Alloc

/-! Helper lemmas: the parametrised functions of `Model/DancingWrap.lean` at `Arith.model` are those of
`Model/DancingLinks.lean`. -/
namespace DancingLinks
open DancingLinks.Alloc (helperStep rowsStep helper_step rows_step)

/-- `solve_helper`, with `g` for its loop. -/
def helperStepG (A : Arith) (root : Nat) (g : Nat → Iter → Heap → List Nat → Prog (Bool × Heap × List Nat)) (h : Heap)
    (ps : List Nat) : Prog (Bool × Heap × List Nat) := do
  if ← isEmpty h root then
    return (true, h, ps)
  let constraint ← chooseColumn h root
  let h ← coverColumnG A h constraint
  let it ← iterSkip1 .down h constraint
  g constraint it h ps

/-- One turn of the loop of `solve_helper`, with `f` for the recursive call and `g` for the rest of the loop. -/
def rowsStepG (A : Arith) (f : Heap → List Nat → Prog (Bool × Heap × List Nat))
    (g : Nat → Iter → Heap → List Nat → Prog (Bool × Heap × List Nat)) (constraint : Nat) (it : Iter) (h : Heap)
    (ps : List Nat) : Prog (Bool × Heap × List Nat) := do
  let (x, it) ← it.next .down h
  match x with
  | none =>
    let h ← uncoverColumnG A h constraint
    return (false, h, ps)
  | some row =>
    let n ← h.read row
    let ps := ps ++ [n.row]
    let h ← forSkip1 .right h row (coverColumnG A)
    let (found, h, ps) ← f h ps
    if found then
      let h ← forSkip1 .right h row freeChain
      let h ← freeChain h constraint
      return (true, h, ps)
    let h ← forSkip1 .left h row (uncoverColumnG A)
    let ps := ps.dropLast
    g constraint it h ps

theorem helper_stepG (A : Arith) (root : Nat) (h : Heap) (ps : List Nat) :
    solveHelperG A root h ps = helperStepG A root (solveRowsG A root) h ps := by rw [solveHelperG]; rfl

theorem rows_stepG (A : Arith) (root c : Nat) (it : Iter) (h : Heap) (ps : List Nat) :
    solveRowsG A root c it h ps = rowsStepG A (solveHelperG A root) (solveRowsG A root) c it h ps := by
  rw [solveRowsG]; rfl

/-- Induction over a finished run of `solve_helper` and its loop. -/
theorem helperG_induct (A : Arith) (root : Nat) (H : Heap → List Nat → Bool × Heap × List Nat → Prop)
    (R : Nat → Iter → Heap → List Nat → Bool × Heap × List Nat → Prop)
    (hH : ∀ g : Nat → Iter → Heap → List Nat → Prog (Bool × Heap × List Nat),
      (∀ c it h ps x, g c it h ps = .ok x → R c it h ps x) →
      ∀ h ps x, helperStepG A root g h ps = .ok x → H h ps x)
    (hR : ∀ (f : Heap → List Nat → Prog (Bool × Heap × List Nat))
      (g : Nat → Iter → Heap → List Nat → Prog (Bool × Heap × List Nat)),
      (∀ h ps x, f h ps = .ok x → H h ps x) → (∀ c it h ps x, g c it h ps = .ok x → R c it h ps x) →
      ∀ c it h ps x, rowsStepG A f g c it h ps = .ok x → R c it h ps x) :
    ∀ h ps x, solveHelperG A root h ps = .ok x → H h ps x := by
  refine (solveHelperG.mutual_fixpoint_induct (A := A) (root := root)
    (motive_1 := fun f => ∀ h ps x, f h ps = .ok x → H h ps x)
    (motive_2 := fun g => ∀ c it h ps x, g c it h ps = .ok x → R c it h ps x) ?_ ?_ ?_ ?_).1
  · refine Lean.Order.admissible_pi_apply (α := Heap) (β := fun _ => List Nat → Prog (Bool × Heap × List Nat))
      (fun h f => ∀ ps x, f ps = .ok x → H h ps x) fun h => ?_
    refine Lean.Order.admissible_pi_apply (α := List Nat) (β := fun _ => Prog (Bool × Heap × List Nat))
      (fun ps r => ∀ x, r = .ok x → H h ps x) fun ps => ?_
    exact Lean.Order.admissible_flatOrder (b := (Prog.diverge : Prog (Bool × Heap × List Nat))) _ (fun _ h => by cases h)
  · refine Lean.Order.admissible_pi_apply (α := Nat)
      (β := fun _ => Iter → Heap → List Nat → Prog (Bool × Heap × List Nat))
      (fun c f => ∀ it h ps x, f it h ps = .ok x → R c it h ps x) fun c => ?_
    refine Lean.Order.admissible_pi_apply (α := Iter) (β := fun _ => Heap → List Nat → Prog (Bool × Heap × List Nat))
      (fun it f => ∀ h ps x, f h ps = .ok x → R c it h ps x) fun it => ?_
    refine Lean.Order.admissible_pi_apply (α := Heap) (β := fun _ => List Nat → Prog (Bool × Heap × List Nat))
      (fun h f => ∀ ps x, f ps = .ok x → R c it h ps x) fun h => ?_
    refine Lean.Order.admissible_pi_apply (α := List Nat) (β := fun _ => Prog (Bool × Heap × List Nat))
      (fun ps r => ∀ x, r = .ok x → R c it h ps x) fun ps => ?_
    exact Lean.Order.admissible_flatOrder (b := (Prog.diverge : Prog (Bool × Heap × List Nat))) _ (fun _ h => by cases h)
  · intro g hg
    exact hH g hg
  · intro f g hf hg
    exact hR f g hf hg

theorem coverCellG_model : coverCellG .model = coverCell := by
  funext h q
  unfold coverCellG coverCell Arith.model
  refine congrArg _ (funext fun h => congrArg _ (funext fun n => congrArg _ (funext fun hd => ?_)))
  by_cases e : hd.row = 0
  · simp [e]
  · simp [e]

theorem uncoverCellG_model : uncoverCellG .model = uncoverCell := rfl

theorem coverColumnG_model : coverColumnG .model = coverColumn := by
  funext h q; unfold coverColumnG coverColumn; rw [coverCellG_model]

theorem uncoverColumnG_model : uncoverColumnG .model = uncoverColumn := by
  funext h q; unfold uncoverColumnG uncoverColumn; rw [uncoverCellG_model]

theorem addSolutionG_model : addSolutionG .model = addSolution := by
  funext m h r; unfold addSolutionG addSolution; rw [coverColumnG_model]

theorem helperStepG_model (root : Nat) : helperStepG .model root = helperStep root := by
  funext g h ps; unfold helperStepG helperStep; rw [coverColumnG_model]

theorem rowsStepG_model : rowsStepG .model = rowsStep := by
  funext f g c it h ps; unfold rowsStepG rowsStep; rw [coverColumnG_model, uncoverColumnG_model]; rfl

theorem helperStep_le {root : Nat} {g g' : Nat → Iter → Heap → List Nat → Prog (Bool × Heap × List Nat)}
    (hg : ∀ c it h ps, Le (g c it h ps) (g' c it h ps)) (h : Heap) (ps : List Nat) :
    Le (helperStep root g h ps) (helperStep root g' h ps) := by
  refine (Le.refl _).bind fun b => ?_
  cases b with
  | true => exact .refl _
  | false => exact (Le.refl _).bind fun c => (Le.refl _).bind fun h => (Le.refl _).bind fun it => hg _ _ _ _

theorem rowsStep_le {f f' : Heap → List Nat → Prog (Bool × Heap × List Nat)} (hf : ∀ h ps, Le (f h ps) (f' h ps))
    {g g' : Nat → Iter → Heap → List Nat → Prog (Bool × Heap × List Nat)}
    (hg : ∀ c it h ps, Le (g c it h ps) (g' c it h ps)) (c : Nat) (it : Iter) (h : Heap) (ps : List Nat) :
    Le (rowsStep f g c it h ps) (rowsStep f' g' c it h ps) := by
  refine (Le.refl _).bind ?_
  rintro ⟨x, it⟩
  cases x with
  | none => exact .refl _
  | some p =>
    refine (Le.refl _).bind fun n => (Le.refl _).bind fun h => (hf _ _).bind ?_
    rintro ⟨b, h, ps⟩
    cases b with
    | true => exact .refl _
    | false => exact (Le.refl _).bind fun h => hg _ _ _ _

theorem solveHelperG_le (root : Nat) : ∀ h ps, Le (solveHelperG .model root h ps) (solveHelper root h ps) := by
  refine (solveHelperG.mutual_fixpoint_induct (A := .model) (root := root)
    (motive_1 := fun f => ∀ h ps, Le (f h ps) (solveHelper root h ps))
    (motive_2 := fun g => ∀ c it h ps, Le (g c it h ps) (solveRows root c it h ps)) ?_ ?_ ?_ ?_).1
  · refine Lean.Order.admissible_pi_apply (α := Heap) (β := fun _ => List Nat → Prog (Bool × Heap × List Nat))
      (fun h f => ∀ ps, Le (f ps) (solveHelper root h ps)) fun h => ?_
    refine Lean.Order.admissible_pi_apply (α := List Nat) (β := fun _ => Prog (Bool × Heap × List Nat))
      (fun ps r => Le r (solveHelper root h ps)) fun ps => ?_
    exact Lean.Order.admissible_flatOrder (b := (Prog.diverge : Prog (Bool × Heap × List Nat))) _ .bot
  · refine Lean.Order.admissible_pi_apply (α := Nat)
      (β := fun _ => Iter → Heap → List Nat → Prog (Bool × Heap × List Nat))
      (fun c f => ∀ it h ps, Le (f it h ps) (solveRows root c it h ps)) fun c => ?_
    refine Lean.Order.admissible_pi_apply (α := Iter) (β := fun _ => Heap → List Nat → Prog (Bool × Heap × List Nat))
      (fun it f => ∀ h ps, Le (f h ps) (solveRows root c it h ps)) fun it => ?_
    refine Lean.Order.admissible_pi_apply (α := Heap) (β := fun _ => List Nat → Prog (Bool × Heap × List Nat))
      (fun h f => ∀ ps, Le (f ps) (solveRows root c it h ps)) fun h => ?_
    refine Lean.Order.admissible_pi_apply (α := List Nat) (β := fun _ => Prog (Bool × Heap × List Nat))
      (fun ps r => Le r (solveRows root c it h ps)) fun ps => ?_
    exact Lean.Order.admissible_flatOrder (b := (Prog.diverge : Prog (Bool × Heap × List Nat))) _ .bot
  · intro g hg h ps
    rw [helper_step]
    change Le (helperStepG .model root g h ps) _
    rw [helperStepG_model]
    exact helperStep_le hg h ps
  · intro f g hf hg c it h ps
    rw [rows_step]
    change Le (rowsStepG .model f g c it h ps) _
    rw [rowsStepG_model]
    exact rowsStep_le hf hg c it h ps

theorem solveHelper_leG (root : Nat) : ∀ h ps, Le (solveHelper root h ps) (solveHelperG .model root h ps) := by
  refine (solveHelper.mutual_fixpoint_induct (root := root)
    (motive_1 := fun f => ∀ h ps, Le (f h ps) (solveHelperG .model root h ps))
    (motive_2 := fun g => ∀ c it h ps, Le (g c it h ps) (solveRowsG .model root c it h ps)) ?_ ?_ ?_ ?_).1
  · refine Lean.Order.admissible_pi_apply (α := Heap) (β := fun _ => List Nat → Prog (Bool × Heap × List Nat))
      (fun h f => ∀ ps, Le (f ps) (solveHelperG .model root h ps)) fun h => ?_
    refine Lean.Order.admissible_pi_apply (α := List Nat) (β := fun _ => Prog (Bool × Heap × List Nat))
      (fun ps r => Le r (solveHelperG .model root h ps)) fun ps => ?_
    exact Lean.Order.admissible_flatOrder (b := (Prog.diverge : Prog (Bool × Heap × List Nat))) _ .bot
  · refine Lean.Order.admissible_pi_apply (α := Nat)
      (β := fun _ => Iter → Heap → List Nat → Prog (Bool × Heap × List Nat))
      (fun c f => ∀ it h ps, Le (f it h ps) (solveRowsG .model root c it h ps)) fun c => ?_
    refine Lean.Order.admissible_pi_apply (α := Iter) (β := fun _ => Heap → List Nat → Prog (Bool × Heap × List Nat))
      (fun it f => ∀ h ps, Le (f h ps) (solveRowsG .model root c it h ps)) fun it => ?_
    refine Lean.Order.admissible_pi_apply (α := Heap) (β := fun _ => List Nat → Prog (Bool × Heap × List Nat))
      (fun h f => ∀ ps, Le (f ps) (solveRowsG .model root c it h ps)) fun h => ?_
    refine Lean.Order.admissible_pi_apply (α := List Nat) (β := fun _ => Prog (Bool × Heap × List Nat))
      (fun ps r => Le r (solveRowsG .model root c it h ps)) fun ps => ?_
    exact Lean.Order.admissible_flatOrder (b := (Prog.diverge : Prog (Bool × Heap × List Nat))) _ .bot
  · intro g hg h ps
    rw [helper_stepG, helperStepG_model]
    exact helperStep_le hg h ps
  · intro f g hf hg c it h ps
    rw [rows_stepG, rowsStepG_model]
    exact rowsStep_le hf hg c it h ps

theorem solveHelperG_model (root : Nat) (h : Heap) (ps : List Nat) :
    solveHelperG .model root h ps = solveHelper root h ps := by
  rcases solveHelperG_le root h ps with e | e
  · rcases solveHelper_leG root h ps with e' | e'
    · rw [e, e']
    · exact e'.symm
  · exact e

theorem solveG_model (m : Matrix) (h : Heap) : m.solveG .model h = m.solve h := by
  unfold Matrix.solveG Matrix.solve; rw [solveHelperG_model]

end DancingLinks
