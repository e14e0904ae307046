import Verif.Proofs.DL.FuelWrap
import Verif.Proofs.DL.WrapEq

/-! Helper lemmas for C82: a search that calls itself with the memory it was called with. -/
namespace DancingLinks.Endless
open DancingLinks
open DancingLinks.Limit (bind_ok)
open DancingLinks.Rep (read_inv write_inv setLeft_inv setRight_inv setUp_inv setDown_inv setRow_inv)

/-- What `solve_helper` does to the memory before its first recursive call. -/
def child (A : Arith) (root : Nat) (h : Heap) : Prog Heap := do
  if ← isEmpty h root then .panic
  else do
    let c ← chooseColumn h root
    let h ← coverColumnG A h c
    let it ← iterSkip1 .down h c
    let (x, _) ← it.next .down h
    match x with
    | none => .panic
    | some row => do
      let _ ← h.read row
      forSkip1 .right h row (coverColumnG A)

def childF (A : Arith) (n root : Nat) (h : Heap) : Prog Heap := do
  if ← isEmpty h root then .panic
  else do
    let c ← chooseColumnF n h root
    let h ← coverColumnGF A n h c
    let it ← iterSkip1 .down h c
    let (x, _) ← it.next .down h
    match x with
    | none => .panic
    | some row => do
      let _ ← h.read row
      forSkip1F n .right h row (coverColumnGF A n)

theorem childF_le (A : Arith) (n root : Nat) (h : Heap) : Le (childF A n root h) (child A root h) := by
  refine (Le.refl _).bind fun e => ?_
  cases e with
  | true => exact .refl _
  | false =>
    refine (chooseColumnF_le _ _ _).bind fun _ => (coverColumnGF_le _ _ _ _).bind fun _ => (Le.refl _).bind fun _ =>
      (Le.refl _).bind ?_
    rintro ⟨x, it⟩
    cases x with
    | none => exact .refl _
    | some row => exact (Le.refl _).bind fun _ => forSkip1F_le (coverColumnGF_le A n) _ _ _ _

/-- The parts of a first recursive call. -/
theorem child_inv {A : Arith} {root : Nat} {h h' : Heap} (e : child A root h = .ok h') :
    isEmpty h root = .ok false ∧ ∃ c h1 it row it' nd, chooseColumn h root = .ok c ∧ coverColumnG A h c = .ok h1 ∧
      iterSkip1 .down h1 c = .ok it ∧ it.next .down h1 = .ok (some row, it') ∧ h1.read row = .ok nd ∧
      forSkip1 .right h1 row (coverColumnG A) = .ok h' := by
  unfold child at e
  obtain ⟨b, e0, e⟩ := bind_ok e
  cases b with
  | true => cases e
  | false =>
    simp only [Bool.false_eq_true, if_false] at e
    obtain ⟨c, e1, e⟩ := bind_ok e
    obtain ⟨h1, e2, e⟩ := bind_ok e
    obtain ⟨it, e3, e⟩ := bind_ok e
    obtain ⟨⟨x, it'⟩, e4, e⟩ := bind_ok e
    cases x with
    | none => cases e
    | some row =>
      obtain ⟨nd, e5, e⟩ := bind_ok e
      exact ⟨e0, c, h1, it, row, it', nd, e1, e2, e3, e4, e5, e⟩

theorem rows_diverge {A : Arith} {f : Heap → List Nat → Prog (Bool × Heap × List Nat)}
    {g : Nat → Iter → Heap → List Nat → Prog (Bool × Heap × List Nat)} {c row : Nat} {it it' : Iter} {h1 h' : Heap} {nd : Node}
    (e4 : it.next .down h1 = .ok (some row, it')) (e5 : h1.read row = .ok nd)
    (e6 : forSkip1 .right h1 row (coverColumnG A) = .ok h') (hf : ∀ ps, f h' ps = .diverge) (ps : List Nat) :
    rowsStepG A f g c it h1 ps = .diverge := by
  unfold rowsStepG
  rw [e4]
  simp only [Prog.ok_bind]
  rw [e5]
  simp only [Prog.ok_bind]
  rw [e6]
  simp only [Prog.ok_bind]
  rw [hf]
  rfl

/-- If the first recursive call does not end, the call does not end. -/
theorem diverge_of_child {A : Arith} {root : Nat} {h h' : Heap} (e : child A root h = .ok h')
    (hd : ∀ ps, solveHelperG A root h' ps = .diverge) (ps : List Nat) : solveHelperG A root h ps = .diverge := by
  obtain ⟨e0, c, h1, it, row, it', nd, e1, e2, e3, e4, e5, e6⟩ := child_inv e
  rw [helper_stepG]
  unfold helperStepG
  rw [e0]
  simp only [Prog.ok_bind, Bool.false_eq_true, if_false]
  rw [e1]
  simp only [Prog.ok_bind]
  rw [e2]
  simp only [Prog.ok_bind]
  rw [e3]
  simp only [Prog.ok_bind]
  rw [rows_stepG]
  exact rows_diverge e4 e5 e6 hd ps

/-- A call whose first recursive call meets the same memory does not end. -/
theorem diverge_of_loop {A : Arith} {root : Nat} {h : Heap} (e : child A root h = .ok h) (ps : List Nat) :
    solveHelperG A root h ps = .diverge := by
  obtain ⟨e0, c, h1, it, row, it', nd, e1, e2, e3, e4, e5, e6⟩ := child_inv e
  refine (solveHelperG.mutual_fixpoint_induct (A := A) (root := root) (motive_1 := fun f => ∀ ps, f h ps = .diverge)
    (motive_2 := fun g => ∀ ps, g c it h1 ps = .diverge) ?_ ?_ ?_ ?_).1 ps
  · refine Lean.Order.admissible_apply (α := Heap) (β := fun _ => List Nat → Prog (Bool × Heap × List Nat))
      (fun h f => ∀ ps, f ps = .diverge) h ?_
    refine Lean.Order.admissible_pi_apply (α := List Nat) (β := fun _ => Prog (Bool × Heap × List Nat))
      (fun ps r => r = .diverge) fun ps => ?_
    exact Lean.Order.admissible_flatOrder (b := (Prog.diverge : Prog (Bool × Heap × List Nat))) _ rfl
  · refine Lean.Order.admissible_apply (α := Nat)
      (β := fun _ => Iter → Heap → List Nat → Prog (Bool × Heap × List Nat)) (fun _ f => ∀ ps, f it h1 ps = .diverge) c ?_
    refine Lean.Order.admissible_apply (α := Iter) (β := fun _ => Heap → List Nat → Prog (Bool × Heap × List Nat))
      (fun _ f => ∀ ps, f h1 ps = .diverge) it ?_
    refine Lean.Order.admissible_apply (α := Heap) (β := fun _ => List Nat → Prog (Bool × Heap × List Nat))
      (fun h f => ∀ ps, f ps = .diverge) h1 ?_
    refine Lean.Order.admissible_pi_apply (α := List Nat) (β := fun _ => Prog (Bool × Heap × List Nat))
      (fun ps r => r = .diverge) fun ps => ?_
    exact Lean.Order.admissible_flatOrder (b := (Prog.diverge : Prog (Bool × Heap × List Nat))) _ rfl
  · intro g hg ps
    change helperStepG A root g h ps = .diverge
    unfold helperStepG
    rw [e0]
    simp only [Prog.ok_bind, Bool.false_eq_true, if_false]
    rw [e1]
    simp only [Prog.ok_bind]
    rw [e2]
    simp only [Prog.ok_bind]
    rw [e3]
    simp only [Prog.ok_bind]
    exact hg ps
  · intro f g hf hg ps
    exact rows_diverge (g := g) (f := f) e4 e5 e6 hf ps

/-! ### Cells that are not live stay as they are -/

/-- `h'` differs from `h` in live cells only. -/
def Fr (h h' : Heap) : Prop := h'.next = h.next ∧ (∀ p n', h'.mem p = .live n' → ∃ n, h.mem p = .live n) ∧
  ∀ p, (∀ n, h.mem p ≠ .live n) → h'.mem p = h.mem p

theorem Fr.refl (h : Heap) : Fr h h := ⟨rfl, fun _ n e => ⟨n, e⟩, fun _ _ => rfl⟩

theorem Fr.trans {h h1 h2 : Heap} (a : Fr h h1) (b : Fr h1 h2) : Fr h h2 :=
  ⟨b.1.trans a.1, fun p n' e => (b.2.1 p n' e).elim fun n e => a.2.1 p n e, fun p hp =>
    (b.2.2 p fun n e => (a.2.1 p n e).elim hp).trans (a.2.2 p hp)⟩

theorem Fr.put {h : Heap} {p : Nat} {n n' : Node} (e : h.mem p = .live n) : Fr h (h.put p (.live n')) := by
  refine ⟨rfl, fun q m hm => ?_, fun q hq => ?_⟩
  · rw [put_mem] at hm
    split at hm
    · rename_i hq; subst hq; exact ⟨n, e⟩
    · exact ⟨m, hm⟩
  · rw [put_mem]
    split
    · rename_i h'; subst h'; exact absurd e (hq n)
    · rfl

theorem setLeft_fr {h h' : Heap} {p v : Nat} (e : h.setLeft p v = .ok h') : Fr h h' := by
  obtain ⟨n, hm, rfl⟩ := setLeft_inv e; exact .put hm
theorem setRight_fr {h h' : Heap} {p v : Nat} (e : h.setRight p v = .ok h') : Fr h h' := by
  obtain ⟨n, hm, rfl⟩ := setRight_inv e; exact .put hm
theorem setUp_fr {h h' : Heap} {p v : Nat} (e : h.setUp p v = .ok h') : Fr h h' := by
  obtain ⟨n, hm, rfl⟩ := setUp_inv e; exact .put hm
theorem setDown_fr {h h' : Heap} {p v : Nat} (e : h.setDown p v = .ok h') : Fr h h' := by
  obtain ⟨n, hm, rfl⟩ := setDown_inv e; exact .put hm

theorem coverCellG_fr {A : Arith} {h h' : Heap} {q : Nat} (e : coverCellG A h q = .ok h') : Fr h h' := by
  obtain ⟨h1, e1, e⟩ := bind_ok e
  obtain ⟨n, _, e⟩ := bind_ok e
  obtain ⟨hd, _, e⟩ := bind_ok e
  obtain ⟨v, _, e⟩ := bind_ok e
  obtain ⟨n2, hm, rfl⟩ := setRow_inv e
  obtain ⟨m, _, e1⟩ := bind_ok e1
  obtain ⟨h2, e2, e1⟩ := bind_ok e1
  exact ((setDown_fr e2).trans (setUp_fr e1)).trans (.put hm)

theorem forSkip1_fr {d : Dir} {body : Heap → Nat → Prog Heap} (hb : ∀ s p s', body s p = .ok s' → Fr s s') {h h' : Heap}
    {p : Nat} (e : forSkip1 d h p body = .ok h') : Fr h h' := by
  obtain ⟨it, _, e⟩ := bind_ok e
  exact Rep.forIter_inv (hp := id) (o := it.original) (P := fun _ => True) (I := fun t => Fr h t)
    (fun t p t' hI _ e => hI.trans (hb t p t' e)) (fun _ _ _ _ _ _ => .inr trivial) it h h' (.refl _) rfl (.inr trivial) e

theorem coverColumnG_fr {A : Arith} {h h' : Heap} {p : Nat} (e : coverColumnG A h p = .ok h') : Fr h h' := by
  obtain ⟨x, _, e⟩ := bind_ok e
  obtain ⟨h1, e1, e⟩ := bind_ok e
  obtain ⟨n, _, e1⟩ := bind_ok e1
  obtain ⟨h2, e2, e1⟩ := bind_ok e1
  exact ((setRight_fr e2).trans (setLeft_fr e1)).trans
    (forSkip1_fr (fun s p s' e => forSkip1_fr (fun s p s' e => coverCellG_fr e) e) e)

theorem child_fr {A : Arith} {root : Nat} {h h' : Heap} (e : child A root h = .ok h') : Fr h h' := by
  obtain ⟨_, c, h1, it, row, it', nd, _, e2, _, _, _, e6⟩ := child_inv e
  exact (coverColumnG_fr e2).trans (forSkip1_fr (fun s p s' e => coverColumnG_fr e) e6)

theorem uncoverCellG_fr {A : Arith} {h h' : Heap} {q : Nat} (e : uncoverCellG A h q = .ok h') : Fr h h' := by
  obtain ⟨n, _, e⟩ := bind_ok e
  obtain ⟨hd, _, e⟩ := bind_ok e
  obtain ⟨v, _, e⟩ := bind_ok e
  obtain ⟨h1, e1, e⟩ := bind_ok e
  obtain ⟨n2, hm, rfl⟩ := setRow_inv e1
  obtain ⟨m, _, e⟩ := bind_ok e
  obtain ⟨h2, e2, e⟩ := bind_ok e
  exact (Fr.put hm).trans ((setDown_fr e2).trans (setUp_fr e))

theorem uncoverColumnG_fr {A : Arith} {h h' : Heap} {p : Nat} (e : uncoverColumnG A h p = .ok h') : Fr h h' := by
  obtain ⟨x, _, e⟩ := bind_ok e
  obtain ⟨h1, e1, e⟩ := bind_ok e
  obtain ⟨n, _, e⟩ := bind_ok e
  obtain ⟨h2, e2, e⟩ := bind_ok e
  exact (forSkip1_fr (fun s p s' e => forSkip1_fr (fun s p s' e => uncoverCellG_fr e) e) e1).trans
    ((setRight_fr e2).trans (setLeft_fr e))

/-- A search that finds nothing frees nothing. -/
theorem helper_fr {A : Arith} {root : Nat} : ∀ h ps x, solveHelperG A root h ps = .ok x → x.1 = false → Fr h x.2.1 := by
  refine helperG_induct A root (fun h ps x => x.1 = false → Fr h x.2.1) (fun c it h ps x => x.1 = false → Fr h x.2.1) ?_ ?_
  · intro g hg h ps x e0 hx
    obtain ⟨b, _, e⟩ := bind_ok e0
    clear e0
    cases b with
    | true => cases e; cases hx
    | false =>
      obtain ⟨c, e1, e⟩ := bind_ok e
      obtain ⟨h1, e2, e⟩ := bind_ok e
      obtain ⟨it, e3, e⟩ := bind_ok e
      exact (coverColumnG_fr e2).trans (hg _ _ _ _ _ e hx)
  · intro f g hf hg c it h ps x e0 hx
    obtain ⟨⟨y, it'⟩, e1, e⟩ := bind_ok e0
    clear e0
    cases y with
    | none =>
      obtain ⟨h1, e2, e⟩ := bind_ok e
      cases e
      exact uncoverColumnG_fr e2
    | some row =>
      obtain ⟨n', e2, e⟩ := bind_ok e
      obtain ⟨h2, e3, e⟩ := bind_ok e
      obtain ⟨⟨b, h3, ps3⟩, e4, e⟩ := bind_ok e
      have f1 := forSkip1_fr (fun s p s' e => coverColumnG_fr e) e3
      cases b with
      | true =>
        obtain ⟨h4, e5, e⟩ := bind_ok e
        obtain ⟨h5, e6, e⟩ := bind_ok e
        cases e; cases hx
      | false =>
        obtain ⟨h4, e5, e⟩ := bind_ok e
        exact ((f1.trans (hf _ _ _ e4 rfl)).trans (forSkip1_fr (fun s p s' e => uncoverColumnG_fr e) e5)).trans
          (hg _ _ _ _ _ e hx)

/-- What `solve_helper` does to the memory before the recursive call for its second row, when the call for the first finds
nothing. -/
def child2 (A : Arith) (root : Nat) (h : Heap) (ps : List Nat) : Prog Heap := do
  if ← isEmpty h root then .panic
  else do
    let c ← chooseColumn h root
    let h ← coverColumnG A h c
    let it ← iterSkip1 .down h c
    let (x, it) ← it.next .down h
    match x with
    | none => .panic
    | some row => do
      let nd ← h.read row
      let h ← forSkip1 .right h row (coverColumnG A)
      let (found, h, _) ← solveHelperG A root h (ps ++ [nd.row])
      if found then .panic
      else do
        let h ← forSkip1 .left h row (uncoverColumnG A)
        let (x, _) ← it.next .down h
        match x with
        | none => .panic
        | some row => do
          let _ ← h.read row
          forSkip1 .right h row (coverColumnG A)

def child2F (A : Arith) (n root : Nat) (h : Heap) (ps : List Nat) : Prog Heap := do
  if ← isEmpty h root then .panic
  else do
    let c ← chooseColumnF n h root
    let h ← coverColumnGF A n h c
    let it ← iterSkip1 .down h c
    let (x, it) ← it.next .down h
    match x with
    | none => .panic
    | some row => do
      let nd ← h.read row
      let h ← forSkip1F n .right h row (coverColumnGF A n)
      let (found, h, _) ← solveHelperGF A n root n h (ps ++ [nd.row])
      if found then .panic
      else do
        let h ← forSkip1F n .left h row (uncoverColumnGF A n)
        let (x, _) ← it.next .down h
        match x with
        | none => .panic
        | some row => do
          let _ ← h.read row
          forSkip1F n .right h row (coverColumnGF A n)

theorem child2F_le (A : Arith) (n root : Nat) (h : Heap) (ps : List Nat) : Le (child2F A n root h ps) (child2 A root h ps) := by
  refine (Le.refl _).bind fun e => ?_
  cases e with
  | true => exact .refl _
  | false =>
    refine (chooseColumnF_le _ _ _).bind fun _ => (coverColumnGF_le _ _ _ _).bind fun _ => (Le.refl _).bind fun _ =>
      (Le.refl _).bind ?_
    rintro ⟨x, it⟩
    cases x with
    | none => exact .refl _
    | some row =>
      refine (Le.refl _).bind fun _ => (forSkip1F_le (coverColumnGF_le A n) _ _ _ _).bind fun _ =>
        (solveHelperGF_le A n root n _ _).bind ?_
      rintro ⟨found, h, ps⟩
      cases found with
      | true => exact .refl _
      | false =>
        refine (forSkip1F_le (uncoverColumnGF_le A n) _ _ _ _).bind fun _ => (Le.refl _).bind ?_
        rintro ⟨x, it⟩
        cases x with
        | none => exact .refl _
        | some row => exact (Le.refl _).bind fun _ => forSkip1F_le (coverColumnGF_le A n) _ _ _ _

/-- If the call for the first row finds nothing and the call for the second does not end, the call does not end. -/
theorem child2_spec {A : Arith} {root : Nat} {h h' : Heap} {ps : List Nat} (e0 : child2 A root h ps = .ok h') :
    Fr h h' ∧ ((∀ ps, solveHelperG A root h' ps = .diverge) → solveHelperG A root h ps = .diverge) := by
  unfold child2 at e0
  obtain ⟨b, e1, e⟩ := bind_ok e0
  clear e0
  cases b with
  | true => cases e
  | false =>
    simp only [Bool.false_eq_true, if_false] at e
    obtain ⟨c, e2, e⟩ := bind_ok e
    obtain ⟨h1, e3, e⟩ := bind_ok e
    obtain ⟨it, e4, e⟩ := bind_ok e
    obtain ⟨⟨x, it1⟩, e5, e⟩ := bind_ok e
    cases x with
    | none => cases e
    | some row =>
      obtain ⟨nd, e6, e⟩ := bind_ok e
      obtain ⟨h2, e7, e⟩ := bind_ok e
      obtain ⟨⟨b, h3, ps3⟩, e8, e⟩ := bind_ok e
      cases b with
      | true => cases e
      | false =>
        simp only [Bool.false_eq_true, if_false] at e
        obtain ⟨h4, e9, e⟩ := bind_ok e
        obtain ⟨⟨x, it2⟩, e10, e⟩ := bind_ok e
        cases x with
        | none => cases e
        | some row2 =>
          obtain ⟨nd2, e11, e12⟩ := bind_ok e
          clear e
          refine ⟨((((coverColumnG_fr e3).trans (forSkip1_fr (fun s p s' e => coverColumnG_fr e) e7)).trans
            (helper_fr _ _ _ e8 rfl)).trans (forSkip1_fr (fun s p s' e => uncoverColumnG_fr e) e9)).trans
            (forSkip1_fr (fun s p s' e => coverColumnG_fr e) e12), fun hd => ?_⟩
          have r2 := fun ps => (rows_stepG A root c it1 h4 ps).trans
            (rows_diverge (g := solveRowsG A root) e10 e11 e12 hd ps)
          rw [helper_stepG]
          unfold helperStepG
          rw [e1]
          simp only [Prog.ok_bind, Bool.false_eq_true, if_false]
          rw [e2]
          simp only [Prog.ok_bind]
          rw [e3]
          simp only [Prog.ok_bind]
          rw [e4]
          simp only [Prog.ok_bind]
          rw [rows_stepG]
          unfold rowsStepG
          rw [e5]
          simp only [Prog.ok_bind]
          rw [e6]
          simp only [Prog.ok_bind]
          rw [e7]
          simp only [Prog.ok_bind]
          rw [e8]
          simp only [Prog.ok_bind, Bool.false_eq_true, if_false]
          rw [e9]
          simp only [Prog.ok_bind]
          exact r2 _

/-- Memories that agree where either can be live are equal. -/
theorem Fr.eq {h h' : Heap} (a : Fr h h') (b : ∀ p < h.next, h'.mem p = h.mem p) (c : ∀ p, h.next ≤ p → h.mem p = .unalloc) :
    h' = h := by
  have : h'.mem = h.mem := by
    funext p
    by_cases hp : p < h.next
    · exact b p hp
    · exact a.2.2 p fun n e => by rw [c p (by omega)] at e; cases e
  cases h; cases h'; simp only [Heap.mk.injEq]; exact ⟨by simpa using this, by simpa using a.1⟩

end DancingLinks.Endless
