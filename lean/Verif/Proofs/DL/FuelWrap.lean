import Verif.Model.DancingWrap
import Verif.Proofs.DL.Fuel

/-! Evaluation of the functions of `Model/DancingWrap.lean` on concrete matrices, as in `Proofs/DL/Fuel.lean`. -/
namespace DancingLinks

def coverColumnGF (A : Arith) (n : Nat) (h : Heap) (node : Nat) : Prog Heap := do
  let node ← toHeader h node
  let h ← coverHorizontal h node
  forSkip1F n .down h node fun h row => forSkip1F n .right h row (coverCellG A)

theorem coverColumnGF_le (A : Arith) (n : Nat) (h : Heap) (node : Nat) : Le (coverColumnGF A n h node) (coverColumnG A h node) :=
  (Le.refl _).bind fun _ => (Le.refl _).bind fun _ =>
    forSkip1F_le (fun _ _ => forSkip1F_le (fun _ _ => .refl _) _ _ _ _) _ _ _ _

def uncoverColumnGF (A : Arith) (n : Nat) (h : Heap) (node : Nat) : Prog Heap := do
  let node ← toHeader h node
  let h ← forSkip1F n .up h node fun h row => forSkip1F n .left h row (uncoverCellG A)
  uncoverHorizontal h node

theorem uncoverColumnGF_le (A : Arith) (n : Nat) (h : Heap) (node : Nat) : Le (uncoverColumnGF A n h node) (uncoverColumnG A h node) :=
  (Le.refl _).bind fun _ =>
    (forSkip1F_le (fun _ _ => forSkip1F_le (fun _ _ => .refl _) _ _ _ _) _ _ _ _).bind fun _ => .refl _

/-- The rows of `solve_rows` with a given answer to the recursive calls. -/
def solveRowsGF (A : Arith) (n : Nat) (rec : Heap → List Nat → Prog (Bool × Heap × List Nat)) (constraint : Nat) :
    Nat → Iter → Heap → List Nat → Prog (Bool × Heap × List Nat)
  | 0, _, _, _ => .diverge
  | k + 1, it, h, ps => do
    let (x, it) ← it.next .down h
    match x with
    | none =>
      let h ← uncoverColumnGF A n h constraint
      return (false, h, ps)
    | some row =>
      let nd ← h.read row
      let ps := ps ++ [nd.row]
      let h ← forSkip1F n .right h row (coverColumnGF A n)
      let (found, h, ps) ← rec h ps
      if found then
        let h ← forSkip1F n .right h row (freeChainF n)
        let h ← freeChainF n h constraint
        return (true, h, ps)
      let h ← forSkip1F n .left h row (uncoverColumnGF A n)
      let ps := ps.dropLast
      solveRowsGF A n rec constraint k it h ps

theorem solveRowsGF_le {A : Arith} {n root : Nat} {rec : Heap → List Nat → Prog (Bool × Heap × List Nat)}
    (hrec : ∀ h ps, Le (rec h ps) (solveHelperG A root h ps)) (constraint k : Nat) (it : Iter) (h : Heap) (ps : List Nat) :
    Le (solveRowsGF A n rec constraint k it h ps) (solveRowsG A root constraint it h ps) := by
  induction k generalizing it h ps with
  | zero => exact .bot
  | succ k ih =>
    rw [solveRowsG, solveRowsGF]
    refine (Le.refl _).bind ?_
    rintro ⟨x, it⟩
    cases x with
    | none => exact (uncoverColumnGF_le _ _ _ _).bind fun _ => .refl _
    | some row =>
      refine (Le.refl _).bind fun nd => (forSkip1F_le (coverColumnGF_le A n) _ _ _ _).bind fun h => (hrec _ _).bind ?_
      rintro ⟨found, h, ps⟩
      cases found with
      | true =>
        exact (forSkip1F_le (freeChainF_le n) _ _ _ _).bind fun _ => (freeChainF_le _ _ _).bind fun _ => .refl _
      | false => exact (forSkip1F_le (uncoverColumnGF_le A n) _ _ _ _).bind fun _ => ih _ _ _

def solveHelperGF (A : Arith) (n root : Nat) : Nat → Heap → List Nat → Prog (Bool × Heap × List Nat)
  | 0, _, _ => .diverge
  | k + 1, h, ps => do
    if ← isEmpty h root then
      return (true, h, ps)
    let constraint ← chooseColumnF n h root
    let h ← coverColumnGF A n h constraint
    let it ← iterSkip1 .down h constraint
    solveRowsGF A n (solveHelperGF A n root k) constraint n it h ps

theorem solveHelperGF_le (A : Arith) (n root k : Nat) (h : Heap) (ps : List Nat) :
    Le (solveHelperGF A n root k h ps) (solveHelperG A root h ps) := by
  induction k generalizing h ps with
  | zero => exact .bot
  | succ k ih =>
    rw [solveHelperG, solveHelperGF]
    refine (Le.refl _).bind fun e => ?_
    cases e with
    | true => exact .refl _
    | false =>
      exact (chooseColumnF_le _ _ _).bind fun _ => (coverColumnGF_le _ _ _ _).bind fun _ => (Le.refl _).bind fun _ =>
        solveRowsGF_le ih _ _ _ _ _

def solveGF (A : Arith) (n : Nat) (m : Matrix) (h : Heap) : Prog (Except DLError (List Nat) × Heap) := do
  let (found, h, ps) ← solveHelperGF A n m.root n h m.partialSolution
  let h ← dropF n m h
  if found then return (.ok ps, h)
  else return (.error .noSolution, h)

theorem solveGF_le (A : Arith) (n : Nat) (m : Matrix) (h : Heap) : Le (solveGF A n m h) (m.solveG A h) := by
  unfold solveGF Matrix.solveG
  refine (solveHelperGF_le _ _ _ _ _ _).bind ?_
  rintro ⟨found, h, ps⟩
  exact (dropF_le _ _ _).bind fun _ => .refl _

end DancingLinks
