import Verif.Model.DancingLinks

/-!
Evaluation of the dancing links model on concrete matrices. The loops of the model are fixpoints, which the kernel
does not compute; the functions here make at most `n` turns in each of them (and answer `diverge` beyond), and an
answer they do give is the model's.
-/
namespace DancingLinks

/-- `a` is `b`, or no answer. -/
def Le {α : Type} (a b : Prog α) : Prop := a = .diverge ∨ a = b

theorem Le.refl {α : Type} (a : Prog α) : Le a a := .inr rfl
theorem Le.bot {α : Type} {b : Prog α} : Le .diverge b := .inl rfl

theorem Le.bind {α β : Type} {a b : Prog α} {f g : α → Prog β} (h : Le a b) (hf : ∀ x, Le (f x) (g x)) :
    Le (a >>= f) (b >>= g) := by
  rcases h with rfl | rfl
  · exact .inl rfl
  · cases a with
    | ok x => exact hf x
    | panic => exact .refl _
    | ub => exact .refl _
    | diverge => exact .refl _

theorem Le.eq {α : Type} {a b : Prog α} (h : Le a b) (ha : a ≠ .diverge) : b = a := (h.resolve_left ha).symm

def forIterF {σ : Type} (hp : σ → Heap) (d : Dir) (body : σ → Nat → Prog σ) : Nat → Iter → σ → Prog σ
  | 0, _, _ => .diverge
  | n + 1, it, s => do
    let (x, it) ← it.next d (hp s)
    match x with
    | none => return s
    | some p =>
      let s ← body s p
      forIterF hp d body n it s

theorem forIterF_le {σ : Type} {hp : σ → Heap} {d : Dir} {body body' : σ → Nat → Prog σ}
    (hb : ∀ s p, Le (body s p) (body' s p)) (n : Nat) (it : Iter) (s : σ) :
    Le (forIterF hp d body n it s) (forIter hp d it s body') := by
  induction n generalizing it s with
  | zero => exact .bot
  | succ n ih =>
    rw [forIter, forIterF]
    refine (Le.refl _).bind ?_
    rintro ⟨x, it⟩
    cases x with
    | none => exact .refl _
    | some p => exact (hb s p).bind fun s => ih it s

def forAllF (n : Nat) (d : Dir) (h : Heap) (node : Nat) (body : Heap → Nat → Prog Heap) : Prog Heap :=
  forIterF id d body n (iter node) h

def forSkip1F (n : Nat) (d : Dir) (h : Heap) (node : Nat) (body : Heap → Nat → Prog Heap) : Prog Heap := do
  let it ← iterSkip1 d h node
  forIterF id d body n it h

theorem forAllF_le {body body' : Heap → Nat → Prog Heap} (hb : ∀ s p, Le (body s p) (body' s p)) (n : Nat) (d : Dir)
    (h : Heap) (node : Nat) : Le (forAllF n d h node body) (forAll d h node body') := forIterF_le hb n _ _

theorem forSkip1F_le {body body' : Heap → Nat → Prog Heap} (hb : ∀ s p, Le (body s p) (body' s p)) (n : Nat) (d : Dir)
    (h : Heap) (node : Nat) : Le (forSkip1F n d h node body) (forSkip1 d h node body') :=
  (Le.refl _).bind fun _ => forIterF_le hb n _ _

def coverColumnF (n : Nat) (h : Heap) (node : Nat) : Prog Heap := do
  let node ← toHeader h node
  let h ← coverHorizontal h node
  forSkip1F n .down h node fun h row => forSkip1F n .right h row coverCell

theorem coverColumnF_le (n : Nat) (h : Heap) (node : Nat) : Le (coverColumnF n h node) (coverColumn h node) :=
  (Le.refl _).bind fun _ => (Le.refl _).bind fun _ =>
    forSkip1F_le (fun _ _ => forSkip1F_le (fun _ _ => .refl _) _ _ _ _) _ _ _ _

def uncoverColumnF (n : Nat) (h : Heap) (node : Nat) : Prog Heap := do
  let node ← toHeader h node
  let h ← forSkip1F n .up h node fun h row => forSkip1F n .left h row uncoverCell
  uncoverHorizontal h node

theorem uncoverColumnF_le (n : Nat) (h : Heap) (node : Nat) : Le (uncoverColumnF n h node) (uncoverColumn h node) :=
  (Le.refl _).bind fun _ =>
    (forSkip1F_le (fun _ _ => forSkip1F_le (fun _ _ => .refl _) _ _ _ _) _ _ _ _).bind fun _ => .refl _

def freeChainF (n : Nat) (h : Heap) (node : Nat) : Prog Heap := do
  let node ← toHeader h node
  let h ← forSkip1F n .down h node fun h row => do
    let h ← forSkip1F n .right h row fun h col => h.dealloc col
    h.dealloc row
  h.dealloc node

theorem freeChainF_le (n : Nat) (h : Heap) (node : Nat) : Le (freeChainF n h node) (freeChain h node) :=
  (Le.refl _).bind fun _ => (forSkip1F_le (fun _ _ =>
    (forSkip1F_le (fun _ _ => .refl _) _ _ _ _).bind fun _ => .refl _) _ _ _ _).bind fun _ => .refl _

def addSolutionF (n : Nat) (m : Matrix) (h : Heap) (row : Nat) : Prog (Except DLError Unit × Matrix × Heap) := do
  if row ≥ m.rows.length then
    return (.error .indexError, m, h)
  let m := { m with partialSolution := m.partialSolution ++ [row] }
  let row ← getP m.rows row
  if row = 0 then
    return (.error .invalidRow, m, h)
  let nd ← h.read row
  let it ← iterSkip1 .down h nd.header
  let s ← forIterF Prod.fst .down nullRow n it (h, m.rows)
  let m := { m with rows := s.2 }
  let h ← forAllF n .right h row (coverColumnF n)
  let h ← forSkip1F n .right h row (freeChainF n)
  let h ← freeChainF n h row
  return (.ok (), m, h)

theorem addSolutionF_le (n : Nat) (m : Matrix) (h : Heap) (row : Nat) :
    Le (addSolutionF n m h row) (addSolution m h row) := by
  unfold addSolutionF addSolution
  by_cases hr : row ≥ m.rows.length
  · simp only [if_pos hr]; exact .refl _
  · simp only [if_neg hr]
    refine (Le.refl _).bind fun row => ?_
    by_cases h0 : row = 0
    · simp only [if_pos h0]; exact .refl _
    · simp only [if_neg h0]
      exact (Le.refl _).bind fun _ => (Le.refl _).bind fun _ => (forIterF_le (fun _ _ => .refl _) _ _ _).bind fun _ =>
        (forAllF_le (coverColumnF_le n) _ _ _ _).bind fun _ => (forSkip1F_le (freeChainF_le n) _ _ _ _).bind fun _ =>
        (freeChainF_le _ _ _).bind fun _ => .refl _

def chooseColumnF (n : Nat) (h : Heap) (root : Nat) : Prog Nat := do
  let it ← iterSkip1 .right h root
  let s ← forIterF Prod.fst .right pickMin n it (h, none)
  expectP s.2

theorem chooseColumnF_le (n : Nat) (h : Heap) (root : Nat) : Le (chooseColumnF n h root) (chooseColumn h root) :=
  (Le.refl _).bind fun _ => (forIterF_le (fun _ _ => .refl _) _ _ _).bind fun _ => .refl _

/-- The rows of `solve_rows` with a given answer to the recursive calls. -/
def solveRowsF (n : Nat) (rec : Heap → List Nat → Prog (Bool × Heap × List Nat)) (constraint : Nat) :
    Nat → Iter → Heap → List Nat → Prog (Bool × Heap × List Nat)
  | 0, _, _, _ => .diverge
  | k + 1, it, h, ps => do
    let (x, it) ← it.next .down h
    match x with
    | none =>
      let h ← uncoverColumnF n h constraint
      return (false, h, ps)
    | some row =>
      let nd ← h.read row
      let ps := ps ++ [nd.row]
      let h ← forSkip1F n .right h row (coverColumnF n)
      let (found, h, ps) ← rec h ps
      if found then
        let h ← forSkip1F n .right h row (freeChainF n)
        let h ← freeChainF n h constraint
        return (true, h, ps)
      let h ← forSkip1F n .left h row (uncoverColumnF n)
      let ps := ps.dropLast
      solveRowsF n rec constraint k it h ps

theorem solveRowsF_le {n root : Nat} {rec : Heap → List Nat → Prog (Bool × Heap × List Nat)}
    (hrec : ∀ h ps, Le (rec h ps) (solveHelper root h ps)) (constraint k : Nat) (it : Iter) (h : Heap) (ps : List Nat) :
    Le (solveRowsF n rec constraint k it h ps) (solveRows root constraint it h ps) := by
  induction k generalizing it h ps with
  | zero => exact .bot
  | succ k ih =>
    rw [solveRows, solveRowsF]
    refine (Le.refl _).bind ?_
    rintro ⟨x, it⟩
    cases x with
    | none => exact (uncoverColumnF_le _ _ _).bind fun _ => .refl _
    | some row =>
      refine (Le.refl _).bind fun nd => (forSkip1F_le (coverColumnF_le n) _ _ _ _).bind fun h => (hrec _ _).bind ?_
      rintro ⟨found, h, ps⟩
      cases found with
      | true =>
        exact (forSkip1F_le (freeChainF_le n) _ _ _ _).bind fun _ => (freeChainF_le _ _ _).bind fun _ => .refl _
      | false => exact (forSkip1F_le (uncoverColumnF_le n) _ _ _ _).bind fun _ => ih _ _ _

def solveHelperF (n root : Nat) : Nat → Heap → List Nat → Prog (Bool × Heap × List Nat)
  | 0, _, _ => .diverge
  | k + 1, h, ps => do
    if ← isEmpty h root then
      return (true, h, ps)
    let constraint ← chooseColumnF n h root
    let h ← coverColumnF n h constraint
    let it ← iterSkip1 .down h constraint
    solveRowsF n (solveHelperF n root k) constraint n it h ps

theorem solveHelperF_le (n root k : Nat) (h : Heap) (ps : List Nat) :
    Le (solveHelperF n root k h ps) (solveHelper root h ps) := by
  induction k generalizing h ps with
  | zero => exact .bot
  | succ k ih =>
    rw [solveHelper, solveHelperF]
    refine (Le.refl _).bind fun e => ?_
    cases e with
    | true => exact .refl _
    | false =>
      exact (chooseColumnF_le _ _ _).bind fun _ => (coverColumnF_le _ _ _).bind fun _ => (Le.refl _).bind fun _ =>
        solveRowsF_le ih _ _ _ _ _

def dropF (n : Nat) (m : Matrix) (h : Heap) : Prog Heap :=
  forAllF n .right h m.root fun h header => forAllF n .down h header fun h node => h.dealloc node

theorem dropF_le (n : Nat) (m : Matrix) (h : Heap) : Le (dropF n m h) (m.drop h) :=
  forAllF_le (fun _ _ => forAllF_le (fun _ _ => .refl _) _ _ _ _) _ _ _ _

def solveF (n : Nat) (m : Matrix) (h : Heap) : Prog (Except DLError (List Nat) × Heap) := do
  let (found, h, ps) ← solveHelperF n m.root n h m.partialSolution
  let h ← dropF n m h
  if found then return (.ok ps, h)
  else return (.error .noSolution, h)

theorem solveF_le (n : Nat) (m : Matrix) (h : Heap) : Le (solveF n m h) (m.solve h) := by
  unfold solveF Matrix.solve
  refine (solveHelperF_le _ _ _ _ _).bind ?_
  rintro ⟨found, h, ps⟩
  exact (dropF_le _ _ _).bind fun _ => .refl _

end DancingLinks
