import Verif.Proofs.DL.RepSound
import Verif.Proofs.DL.WorkRows
import Verif.Proofs.DL.Final
import Verif.Spec.DancingWrap

/-! Helper lemmas for C131: without repeated rows the counters stay in their range, whatever the arithmetic does outside. -/
namespace DancingLinks.WrapEq
open DancingLinks DancingLinks.Spec
open DancingLinks.Limit (bind_ok)
open DancingLinks.Alloc (helperStep rowsStep helper_step rows_step)
open DancingLinks.Rep (read_inv write_inv setLeft_inv setRight_inv setUp_inv setDown_inv setRow_inv)

/-- `A` computes like the integers as long as the results are in `[0, N)`. -/
structure Agrees (A : Arith) (N : Nat) : Prop where
  dec : ∀ x, 0 < x → A.dec x = .ok (x - 1)
  inc : ∀ x, x + 1 < N → A.inc x = .ok (x + 1)

theorem build_agrees (oc : Bool) (bits : Nat) : Agrees (.build oc bits) (2 ^ bits) := by
  refine ⟨fun x hx => ?_, fun x hx => ?_⟩
  · exact subW_ok hx
  · exact addW_ok hx

/-! ### Covering -/

/-- `y` is `x`, unless `x` panics or does not end. -/
def Same {α : Type} (x y : Prog α) : Prop := x = .panic ∨ x = .diverge ∨ y = x

theorem Same.refl {α : Type} (x : Prog α) : Same x x := .inr (.inr rfl)

theorem Same.bind {α β : Type} {x y : Prog α} {f g : α → Prog β} (h : Same x y) (hf : ∀ a, Same (f a) (g a)) :
    Same (x >>= f) (y >>= g) := by
  rcases h with rfl | rfl | rfl
  · exact .inl rfl
  · exact .inr (.inl rfl)
  · cases y with
    | ok a => exact hf a
    | panic => exact .refl _
    | ub => exact .refl _
    | diverge => exact .refl _

theorem Same.ok {α : Type} {x y : Prog α} {a : α} (h : Same x y) (e : x = .ok a) : y = .ok a := by
  rcases h with h | h | h
  · rw [e] at h; cases h
  · rw [e] at h; cases h
  · rw [h, e]

theorem forIter_same {σ : Type} {hp : σ → Heap} {d : Dir} {body body' : σ → Nat → Prog σ}
    (hb : ∀ s p, Same (body s p) (body' s p)) : ∀ it s, Same (forIter hp d it s body) (forIter hp d it s body') := by
  apply forIter.fixpoint_induct (hp := hp) (d := d) (body := body)
    (motive := fun g => ∀ it s, Same (g it s) (forIter hp d it s body'))
  · refine Lean.Order.admissible_pi_apply (α := Iter) (β := fun _ => σ → Prog σ)
      (fun it g => ∀ s, Same (g s) (forIter hp d it s body')) fun it => ?_
    refine Lean.Order.admissible_pi_apply (α := σ) (β := fun _ => Prog σ)
      (fun s r => Same r (forIter hp d it s body')) fun s => ?_
    exact Lean.Order.admissible_flatOrder (b := (Prog.diverge : Prog σ)) _ (.inr (.inl rfl))
  · intro g hg it s
    rw [forIter]
    refine (Same.refl _).bind ?_
    rintro ⟨x, it⟩
    cases x with
    | none => exact .refl _
    | some p => exact (hb s p).bind fun s => hg it s

theorem forSkip1_same {d : Dir} {body body' : Heap → Nat → Prog Heap} (hb : ∀ s p, Same (body s p) (body' s p)) (h : Heap)
    (p : Nat) : Same (forSkip1 d h p body) (forSkip1 d h p body') := (Same.refl _).bind fun it => forIter_same hb it h

variable {A : Arith} {N : Nat}

theorem coverCell_same (a : Agrees A N) (h : Heap) (q : Nat) : Same (coverCell h q) (coverCellG A h q) := by
  refine (Same.refl _).bind fun h => (Same.refl _).bind fun n => (Same.refl _).bind fun hd => ?_
  by_cases e : hd.row = 0
  · left; simp [e]
  · simp only [e, if_false]
    rw [a.dec _ (by omega)]
    exact .refl _

theorem coverColumn_same (a : Agrees A N) (h : Heap) (p : Nat) : Same (coverColumn h p) (coverColumnG A h p) :=
  (Same.refl _).bind fun _ => (Same.refl _).bind fun h =>
    forSkip1_same (fun h r => forSkip1_same (fun h q => coverCell_same a h q) h r) h _

theorem addSolution_same (a : Agrees A N) (m : Matrix) (h : Heap) (r : Nat) :
    Same (addSolution m h r) (addSolutionG A m h r) := by
  unfold addSolution addSolutionG
  split
  · exact .refl _
  · refine (Same.refl _).bind fun q => ?_
    by_cases e : q = 0
    · simp only [e, if_true]; exact .refl _
    · simp only [e, if_false]
      exact (Same.refl _).bind fun _ => (Same.refl _).bind fun _ => (Same.refl _).bind fun _ =>
        (forIter_same (fun h p => coverColumn_same a h p) _ _).bind fun _ => .refl _

/-! ### Counters going down and up -/

/-- Every node of `h'` is a node of `h`, with a row field that is not larger. -/
def Dn (h h' : Heap) : Prop := ∀ q n', h'.mem q = .live n' → ∃ n, h.mem q = .live n ∧ n'.row ≤ n.row

/-- Every node of `h` is a node of `h'`, with a row field that is not smaller. -/
def Up (h h' : Heap) : Prop := ∀ q n, h.mem q = .live n → ∃ n', h'.mem q = .live n' ∧ n.row ≤ n'.row

def Bd (N : Nat) (h : Heap) : Prop := ∀ q n, h.mem q = .live n → n.row < N

theorem Dn.refl (h : Heap) : Dn h h := fun _ n e => ⟨n, e, Nat.le_refl _⟩
theorem Up.refl (h : Heap) : Up h h := fun _ n e => ⟨n, e, Nat.le_refl _⟩
theorem Dn.trans {h h1 h2 : Heap} (a : Dn h h1) (b : Dn h1 h2) : Dn h h2 := fun q n e => by
  obtain ⟨n1, e1, l1⟩ := b q n e
  obtain ⟨n2, e2, l2⟩ := a q n1 e1
  exact ⟨n2, e2, by omega⟩
theorem Up.trans {h h1 h2 : Heap} (a : Up h h1) (b : Up h1 h2) : Up h h2 := fun q n e => by
  obtain ⟨n1, e1, l1⟩ := a q n e
  obtain ⟨n2, e2, l2⟩ := b q n1 e1
  exact ⟨n2, e2, by omega⟩
theorem Bd.dn {h h' : Heap} (b : Bd N h) (d : Dn h h') : Bd N h' := fun q n e => by
  obtain ⟨n1, e1, l1⟩ := d q n e
  have := b q n1 e1
  omega
theorem Bd.up {h h' : Heap} (b : Bd N h') (d : Up h h') : Bd N h := fun q n e => by
  obtain ⟨n1, e1, l1⟩ := d q n e
  have := b q n1 e1
  omega

theorem put_dn {h : Heap} {p : Nat} {n n' : Node} (e : h.mem p = .live n) (l : n'.row ≤ n.row) :
    Dn h (h.put p (.live n')) := by
  intro q m hm
  rw [put_mem] at hm
  split at hm
  · rename_i hq; subst hq; cases hm; exact ⟨n, e, l⟩
  · exact ⟨m, hm, Nat.le_refl _⟩

theorem put_up {h : Heap} {p : Nat} {n n' : Node} (e : h.mem p = .live n) (l : n.row ≤ n'.row) :
    Up h (h.put p (.live n')) := by
  intro q m hm
  by_cases hq : q = p
  · subst hq
    rw [e] at hm; cases hm
    exact ⟨n', by simp, l⟩
  · exact ⟨m, by rw [put_mem, if_neg hq]; exact hm, Nat.le_refl _⟩

theorem setLeft_both {h h' : Heap} {p v : Nat} (e : h.setLeft p v = .ok h') : Dn h h' ∧ Up h h' := by
  obtain ⟨n, hm, rfl⟩ := setLeft_inv e
  exact ⟨put_dn hm (Nat.le_refl _), put_up hm (Nat.le_refl _)⟩
theorem setRight_both {h h' : Heap} {p v : Nat} (e : h.setRight p v = .ok h') : Dn h h' ∧ Up h h' := by
  obtain ⟨n, hm, rfl⟩ := setRight_inv e
  exact ⟨put_dn hm (Nat.le_refl _), put_up hm (Nat.le_refl _)⟩
theorem setUp_both {h h' : Heap} {p v : Nat} (e : h.setUp p v = .ok h') : Dn h h' ∧ Up h h' := by
  obtain ⟨n, hm, rfl⟩ := setUp_inv e
  exact ⟨put_dn hm (Nat.le_refl _), put_up hm (Nat.le_refl _)⟩
theorem setDown_both {h h' : Heap} {p v : Nat} (e : h.setDown p v = .ok h') : Dn h h' ∧ Up h h' := by
  obtain ⟨n, hm, rfl⟩ := setDown_inv e
  exact ⟨put_dn hm (Nat.le_refl _), put_up hm (Nat.le_refl _)⟩

theorem coverHorizontal_dn {h h' : Heap} {p : Nat} (e : coverHorizontal h p = .ok h') : Dn h h' := by
  obtain ⟨n, _, e⟩ := bind_ok e
  obtain ⟨h1, e1, e⟩ := bind_ok e
  exact (setRight_both e1).1.trans (setLeft_both e).1
theorem coverVertical_dn {h h' : Heap} {p : Nat} (e : coverVertical h p = .ok h') : Dn h h' := by
  obtain ⟨n, _, e⟩ := bind_ok e
  obtain ⟨h1, e1, e⟩ := bind_ok e
  exact (setDown_both e1).1.trans (setUp_both e).1
theorem uncoverHorizontal_up {h h' : Heap} {p : Nat} (e : uncoverHorizontal h p = .ok h') : Up h h' := by
  obtain ⟨n, _, e⟩ := bind_ok e
  obtain ⟨h1, e1, e⟩ := bind_ok e
  exact (setRight_both e1).2.trans (setLeft_both e).2
theorem uncoverVertical_up {h h' : Heap} {p : Nat} (e : uncoverVertical h p = .ok h') : Up h h' := by
  obtain ⟨n, _, e⟩ := bind_ok e
  obtain ⟨h1, e1, e⟩ := bind_ok e
  exact (setDown_both e1).2.trans (setUp_both e).2

theorem coverCell_dn {h h' : Heap} {q : Nat} (e : coverCell h q = .ok h') : Dn h h' := by
  obtain ⟨h1, e1, e⟩ := bind_ok e
  obtain ⟨n, _, e⟩ := bind_ok e
  obtain ⟨hd, e2, e⟩ := bind_ok e
  split at e
  · cases e
  · obtain ⟨n2, hm, rfl⟩ := setRow_inv e
    have e3 := read_inv e2
    rw [e3] at hm; cases hm
    exact (coverVertical_dn e1).trans (put_dn e3 (by simp))

theorem forIter_dn {σ : Type} {hp : σ → Heap} {d : Dir} {body : σ → Nat → Prog σ}
    (hb : ∀ s p s', body s p = .ok s' → Dn (hp s) (hp s')) {it : Iter} {s s' : σ} (e : forIter hp d it s body = .ok s') :
    Dn (hp s) (hp s') :=
  Rep.forIter_inv (o := it.original) (P := fun _ => True) (I := fun t => Dn (hp s) (hp t))
    (fun t p t' hI _ e => hI.trans (hb t p t' e)) (fun _ _ _ _ _ _ => .inr trivial) it s s' (.refl _) rfl (.inr trivial) e

theorem forSkip1_dn {d : Dir} {body : Heap → Nat → Prog Heap} (hb : ∀ s p s', body s p = .ok s' → Dn s s') {h h' : Heap}
    {p : Nat} (e : forSkip1 d h p body = .ok h') : Dn h h' := by
  obtain ⟨it, _, e⟩ := bind_ok e
  exact forIter_dn (hp := id) hb e

theorem coverColumn_dn {h h' : Heap} {p : Nat} (e : coverColumn h p = .ok h') : Dn h h' := by
  obtain ⟨x, _, e⟩ := bind_ok e
  obtain ⟨h1, e1, e⟩ := bind_ok e
  exact (coverHorizontal_dn e1).trans (forSkip1_dn (fun s p s' e => forSkip1_dn (fun s p s' e => coverCell_dn e) e) e)

theorem dealloc_dn {h h' : Heap} {p : Nat} (e : h.dealloc p = .ok h') : Dn h h' := by
  have key : h' = h.put p .freed → Dn h h' := by
    rintro rfl q n hm
    rw [put_mem] at hm
    split at hm
    · cases hm
    · exact ⟨n, hm, Nat.le_refl _⟩
  unfold Heap.dealloc at e
  split at e
  · cases e; exact key rfl
  · cases e; exact key rfl
  · cases e

theorem freeChain_dn {h h' : Heap} {p : Nat} (e : freeChain h p = .ok h') : Dn h h' := by
  obtain ⟨x, _, e⟩ := bind_ok e
  obtain ⟨h1, e1, e⟩ := bind_ok e
  refine (forSkip1_dn (fun s p s' e => ?_) e1).trans (dealloc_dn e)
  obtain ⟨h2, e2, e⟩ := bind_ok e
  exact (forSkip1_dn (fun s p s' e => dealloc_dn e) e2).trans (dealloc_dn e)

theorem addSolution_dn {m m' : Matrix} {h h' : Heap} {r : Nat} {res : Except DLError Unit}
    (e : addSolution m h r = .ok (res, m', h')) : Dn h h' := by
  unfold addSolution at e
  split at e
  · cases e; exact .refl _
  · obtain ⟨q, _, e⟩ := bind_ok e
    split at e
    · cases e; exact .refl _
    · obtain ⟨n, _, e⟩ := bind_ok e
      obtain ⟨it, _, e⟩ := bind_ok e
      obtain ⟨s, _, e⟩ := bind_ok e
      obtain ⟨h1, e1, e⟩ := bind_ok e
      obtain ⟨h2, e2, e⟩ := bind_ok e
      obtain ⟨h3, e3, e⟩ := bind_ok e
      cases e
      exact (forIter_dn (hp := id) (fun s p s' e => coverColumn_dn e) e1).trans
        ((forSkip1_dn (fun s p s' e => freeChain_dn e) e2).trans (freeChain_dn e3))

/-! ### Uncovering -/

/-- `y` ends like `x` if the memory `x` ends with is within the bound; and `x` only raises counters. -/
def Rise (N : Nat) (h : Heap) (x y : Prog Heap) : Prop := ∀ h', x = .ok h' → Up h h' ∧ (Bd N h' → y = .ok h')

theorem forIter_rise {d : Dir} {body body' : Heap → Nat → Prog Heap} (hb : ∀ s p, Rise N s (body s p) (body' s p)) :
    ∀ it s, Rise N s (forIter id d it s body) (forIter id d it s body') := by
  apply forIter.fixpoint_induct (hp := id) (d := d) (body := body)
    (motive := fun g => ∀ it s, Rise N s (g it s) (forIter id d it s body'))
  · refine Lean.Order.admissible_pi_apply (α := Iter) (β := fun _ => Heap → Prog Heap)
      (fun it g => ∀ s, Rise N s (g s) (forIter id d it s body')) fun it => ?_
    refine Lean.Order.admissible_pi_apply (α := Heap) (β := fun _ => Prog Heap)
      (fun s r => Rise N s r (forIter id d it s body')) fun s => ?_
    exact Lean.Order.admissible_flatOrder (b := (Prog.diverge : Prog Heap)) _ (fun _ h => by cases h)
  · intro g hg it s h' e0
    obtain ⟨⟨x, it'⟩, e1, e⟩ := bind_ok e0
    clear e0
    rw [forIter]
    cases x with
    | none =>
      cases e
      exact ⟨.refl _, fun _ => by rw [e1]; rfl⟩
    | some p =>
      obtain ⟨s1, e2, e⟩ := bind_ok e
      obtain ⟨u1, b1⟩ := hb s p s1 e2
      obtain ⟨u2, b2⟩ := hg it' s1 h' e
      refine ⟨u1.trans u2, fun b => ?_⟩
      rw [e1, Prog.ok_bind]
      simp only
      rw [b1 (b.up u2), Prog.ok_bind, b2 b]

theorem forSkip1_rise {d : Dir} {body body' : Heap → Nat → Prog Heap} (hb : ∀ s p, Rise N s (body s p) (body' s p))
    (h : Heap) (p : Nat) : Rise N h (forSkip1 d h p body) (forSkip1 d h p body') := by
  intro h' e
  obtain ⟨it, e1, e⟩ := bind_ok e
  obtain ⟨u, b⟩ := forIter_rise hb it h h' e
  exact ⟨u, fun hb => by rw [forSkip1, e1, Prog.ok_bind, b hb]⟩

theorem uncoverCell_rise (a : Agrees A N) (h : Heap) (q : Nat) : Rise N h (uncoverCell h q) (uncoverCellG A h q) := by
  intro h' e
  obtain ⟨n, e1, e⟩ := bind_ok e
  obtain ⟨hd, e2, e⟩ := bind_ok e
  obtain ⟨h1, e3, e⟩ := bind_ok e
  have e3' := e3
  obtain ⟨n2, hm, rfl⟩ := setRow_inv e3
  have e4 := read_inv e2
  rw [e4] at hm; cases hm
  have u2 := uncoverVertical_up e
  refine ⟨(put_up e4 (by simp)).trans u2, fun b => ?_⟩
  have b1 := (b.up u2) n.header { hd with row := hd.row + 1 } (by simp)
  simp only at b1
  unfold uncoverCellG
  rw [e1, Prog.ok_bind, e2, Prog.ok_bind, a.inc _ b1, Prog.ok_bind, e3', Prog.ok_bind, e]

theorem uncoverColumn_rise (a : Agrees A N) (h : Heap) (p : Nat) : Rise N h (uncoverColumn h p) (uncoverColumnG A h p) := by
  intro h' e
  obtain ⟨x, e1, e⟩ := bind_ok e
  obtain ⟨h1, e2, e⟩ := bind_ok e
  obtain ⟨u1, b1⟩ := forSkip1_rise (fun h r => forSkip1_rise (fun h q => uncoverCell_rise a h q) h r) h x h1 e2
  have u2 := uncoverHorizontal_up e
  refine ⟨u1.trans u2, fun b => ?_⟩
  unfold uncoverColumnG
  rw [e1, Prog.ok_bind, b1 (b.up u2), Prog.ok_bind, e]

/-! ### The search -/

theorem rows_none {root c : Nat} {it it' : Iter} {h h' : Heap} (ps : List Nat) (en : it.next .down h = .ok (none, it'))
    (eu : uncoverColumn h c = .ok h') (eg : uncoverColumnG A h c = .ok h') :
    solveRowsG A root c it h ps = solveRows root c it h ps := by
  rw [rows_stepG, rows_step]
  unfold rowsStepG rowsStep
  rw [en]
  simp only [Prog.ok_bind]
  rw [eu, eg]

theorem rows_some {root c q : Nat} {it it' : Iter} {h h1 : Heap} {n : Node} (ps : List Nat)
    (en : it.next .down h = .ok (some q, it')) (er : h.read q = .ok n) (ec : forSkip1 .right h q coverColumn = .ok h1)
    (eg : forSkip1 .right h q (coverColumnG A) = .ok h1)
    (eh : solveHelperG A root h1 (ps ++ [n.row]) = solveHelper root h1 (ps ++ [n.row]))
    (out : (∃ x, solveHelper root h1 (ps ++ [n.row]) = .ok (true, x)) ∨
      solveHelper root h1 (ps ++ [n.row]) = .ok (false, h1, ps ++ [n.row]))
    (eu : forSkip1 .left h1 q uncoverColumn = .ok h) (ev : forSkip1 .left h1 q (uncoverColumnG A) = .ok h)
    (rest : solveRowsG A root c it' h ps = solveRows root c it' h ps) :
    solveRowsG A root c it h ps = solveRows root c it h ps := by
  rw [rows_stepG, rows_step]
  unfold rowsStepG rowsStep
  rw [en]
  simp only [Prog.ok_bind]
  rw [er]
  simp only [Prog.ok_bind]
  rw [ec, eg]
  simp only [Prog.ok_bind]
  rw [eh]
  rcases out with ⟨⟨x, y⟩, e⟩ | e
  · rw [e]
    simp only [Prog.ok_bind, if_true]
  · rw [e]
    simp only [Prog.ok_bind, Bool.false_eq_true, if_false]
    rw [eu, ev]
    simp only [Prog.ok_bind, List.dropLast_concat]
    exact rest

theorem helper_some {root c : Nat} {it : Iter} {h h1 : Heap} (ps : List Nat) (e0 : isEmpty h root = .ok false)
    (e1 : chooseColumn h root = .ok c) (e2 : coverColumn h c = .ok h1) (e3 : coverColumnG A h c = .ok h1)
    (e4 : iterSkip1 .down h1 c = .ok it) (rest : solveRowsG A root c it h1 ps = solveRows root c it h1 ps) :
    solveHelperG A root h ps = solveHelper root h ps := by
  rw [helper_stepG, helper_step]
  unfold helperStepG helperStep
  rw [e0]
  simp only [Prog.ok_bind, Bool.false_eq_true, if_false]
  rw [e1]
  simp only [Prog.ok_bind]
  rw [e2, e3]
  simp only [Prog.ok_bind]
  rw [e4]
  simp only [Prog.ok_bind]
  exact rest

theorem helper_none {root : Nat} {h : Heap} (ps : List Nat) (e0 : isEmpty h root = .ok true) :
    solveHelperG A root h ps = solveHelper root h ps := by
  rw [helper_stepG, helper_step]
  unfold helperStepG helperStep
  rw [e0]
  simp only [Prog.ok_bind, if_true]

variable {L : Lay} {t : TS}

theorem solveRows_eq (a : Agrees A N) (G : L.Good) (o : t.Ok L) (b : Bd N t.h) {c : Nat} (hc : c ∈ t.HR)
    (ih : ∀ t' : TS, t'.Ok L → Bd N t'.h → t'.HR.length < t.HR.length → ∀ ps,
      solveHelperG A L.root t'.h ps = solveHelper L.root t'.h ps)
    (ps : List Nat) : ∀ post pre, t.V c = pre ++ post →
      solveRowsG A L.root c (iterAt c post) (t.cover L c).h ps = solveRows L.root c (iterAt c post) (t.cover L c).h ps := by
  have F := o.frame G hc
  have M := o.mid G hc
  have o1 := o.cover G hc
  have hcov : coverColumn t.h c = .ok (t.cover L c).h := by
    rw [coverColumn_eq (toHeader_hdr (o.core.liveH c hc) (o.core.hdr0 c hc)), o.cover_exec G hc]
  have b1 : Bd N (t.cover L c).h := b.dn (coverColumn_dn hcov)
  intro post
  induction post with
  | nil =>
    intro pre _
    have hun : uncoverColumn (t.cover L c).h c = .ok t.h := by
      rw [uncoverColumn_eq (toHeader_hdr M.live (by rw [F.header]; exact o.core.hdr0 c hc)), o.uncover_exec G hc]
    exact rows_none ps (next_nil _ _ _) hun ((uncoverColumn_rise a _ _ _ hun).2 b)
  | cons q post ihp =>
    intro pre hV
    have hq : q ∈ t.V c := by rw [hV]; simp
    have Nq := o.core.isN c hc q hq
    have Rq := o.rowIn G hc hq
    have nd := G.cols_nodup Nq
    have ecol : (q :: L.oth q).map L.colOf = c :: (L.oth q).map L.colOf := by
      rw [List.map_cons, o.core.col c hc q hq]
    have P1 := covers_spec G [c] t o (by simp) (by simpa using hc)
    have R1 : RowIn L (t.cover L c) q := Rq.seq P1
    have hs1 : ∀ x ∈ L.oth q, L.colOf x ∈ (t.cover L c).HR := by
      intro x hx
      refine (List.mem_erase_of_ne ?_).2 (o.closed hc hq (by simp [hx])).1
      have := G.col_ne Nq hx
      rwa [o.core.col c hc q hq] at this
    have P := covers_spec G ((q :: L.oth q).map L.colOf) t o nd (by
      intro d hd; simp only [List.mem_map] at hd
      obtain ⟨x, hx, rfl⟩ := hd; exact (o.closed hc hq hx).1)
    have et : (t.cover L c).covers L ((L.oth q).map L.colOf) = t.covers L ((q :: L.oth q).map L.colOf) := by
      rw [ecol]; rfl
    have hlt : (t.covers L ((q :: L.oth q).map L.colOf)).HR.length < t.HR.length := by
      have := P.len; simp only [List.map_cons, List.length_cons] at this ⊢; omega
    have hcpost : c ∉ post := by
      have := (List.nodup_cons.1 (o.core.vnodup hc)).1
      rw [hV] at this; simp at this; tauto
    have hfor := coverRow_exec G o1 R1 hs1
    have hforG : forSkip1 .right (t.cover L c).h q (coverColumnG A) = .ok ((t.cover L c).covers L ((L.oth q).map L.colOf)).h :=
      (forSkip1_same (fun h p => coverColumn_same a h p) _ _).ok hfor
    have b2 : Bd N ((t.cover L c).covers L ((L.oth q).map L.colOf)).h :=
      b1.dn (forSkip1_dn (fun s p s' e => coverColumn_dn e) hfor)
    have hunf := uncoverRow_exec G o1 R1 hs1
    have hunG := (forSkip1_rise (fun h p => uncoverColumn_rise a h p) _ _ _ hunf).2 b1
    have hnext : (iterAt c (q :: post)).next .down (t.cover L c).h = .ok (some q, iterAt c post) :=
      next_cons (R1.live q (by simp)) (G.nz q Nq) (by
        have := M.ring; rw [hV] at this; exact this.next) hcpost
    have o2 : ((t.cover L c).covers L ((L.oth q).map L.colOf)).Ok L := by rw [et]; exact P.ok
    refine rows_some ps hnext (read_ok (R1.live q (by simp))) hfor hforG (ih _ o2 b2 (by rw [et]; exact hlt) _) ?_ hunf hunG
      (ihp (pre ++ [q]) (by simp [hV]))
    rcases solveHelper_spec G _ _ o2 rfl (ps ++ [((t.cover L c).h.node q).row]) with ⟨S, h', e, _⟩ | ⟨e, _⟩
    · exact .inl ⟨_, e⟩
    · exact .inr e

theorem solveHelper_eq (a : Agrees A N) (G : L.Good) : ∀ (n : Nat) (t : TS), t.Ok L → Bd N t.h → t.HR.length = n → ∀ ps,
    solveHelperG A L.root t.h ps = solveHelper L.root t.h ps := by
  intro n
  induction n using Nat.strongRecOn with
  | ind n ih =>
    intro t o b hn ps
    by_cases hE : t.HR = []
    · exact helper_none ps (by rw [isEmpty_spec o]; simp [hE])
    · obtain ⟨c, e, hc, fs⟩ := chooseColumn_spec o hE
      have hcov : coverColumn t.h c = .ok (t.cover L c).h := by
        rw [coverColumn_eq (toHeader_hdr (o.core.liveH c hc) (o.core.hdr0 c hc)), o.cover_exec G hc]
      have M := o.mid G hc
      exact helper_some ps (by rw [isEmpty_spec o]; simp [hE]) e hcov ((coverColumn_same a _ _).ok hcov)
        (iterSkip1_ok M.live (o.core.c_ne_zero hc) (List.nodup_cons.1 (o.core.vnodup hc)).1 M.ring.first)
        (solveRows_eq a G o b hc (fun t' o' b' hlt ps => ih _ (hn ▸ hlt) t' o' b' rfl ps) ps (t.V c) [] rfl)

/-! ### The bound after `new` -/

theorem alloc_bd {h : Heap} (b : Bd N h) : Bd N h.alloc.2 := by
  intro q n hm
  simp only [Heap.alloc] at hm
  split at hm
  · cases hm
  · exact b q n hm

theorem write_bd {h h' : Heap} {p : Nat} {n : Node} (b : Bd N h) (hn : n.row < N) (e : h.write p n = .ok h') : Bd N h' := by
  rw [write_inv e]
  intro q m hm
  rw [put_mem] at hm
  split at hm
  · cases hm; exact hn
  · exact b q m hm

theorem last_bd {k h' : Heap} {n : Node} {a p : Nat} (b : Bd N k) (hn : n.row < N)
    (e : (k.write a n >>= fun k' => pure (a, k')) = .ok (p, h')) : Bd N h' := by
  obtain ⟨h3, e3, e⟩ := bind_ok e
  obtain ⟨_, rfl⟩ := Prod.mk.inj (Prog.ok.inj e)
  exact write_bd b hn e3

theorem new_bd {h h' : Heap} {hd rp cp row p : Nat} (b : Bd N h) (hk : row < N)
    (e : Node.new h hd rp cp row = .ok (p, h')) : Bd N h' := by
  unfold Node.new at e
  simp only at e
  have b0 := alloc_bd b
  split at e
  · obtain ⟨_, _, e⟩ := bind_ok e
    obtain ⟨_, _, e⟩ := bind_ok e
    obtain ⟨k1, ea, e⟩ := bind_ok e
    obtain ⟨k2, eb, e⟩ := bind_ok e
    obtain ⟨⟨_, _⟩, e', e⟩ := bind_ok e
    obtain ⟨rfl, rfl⟩ := Prod.mk.inj (Prog.ok.inj e')
    have b1 := (b0.dn (setLeft_both ea).1).dn (setRight_both eb).1
    simp only at e
    split at e
    · obtain ⟨_, _, e⟩ := bind_ok e
      obtain ⟨_, _, e⟩ := bind_ok e
      obtain ⟨c, ec, e⟩ := bind_ok e
      obtain ⟨d, ed, e⟩ := bind_ok e
      obtain ⟨⟨_, _⟩, e', e⟩ := bind_ok e
      obtain ⟨rfl, rfl⟩ := Prod.mk.inj (Prog.ok.inj e')
      exact last_bd ((b1.dn (setUp_both ec).1).dn (setDown_both ed).1) (by exact hk) e
    · obtain ⟨⟨_, _⟩, e', e⟩ := bind_ok e
      obtain ⟨rfl, rfl⟩ := Prod.mk.inj (Prog.ok.inj e')
      exact last_bd b1 (by exact hk) e
  · obtain ⟨⟨_, _⟩, e', e⟩ := bind_ok e
    obtain ⟨rfl, rfl⟩ := Prod.mk.inj (Prog.ok.inj e')
    simp only at e
    split at e
    · obtain ⟨_, _, e⟩ := bind_ok e
      obtain ⟨_, _, e⟩ := bind_ok e
      obtain ⟨c, ec, e⟩ := bind_ok e
      obtain ⟨d, ed, e⟩ := bind_ok e
      obtain ⟨⟨_, _⟩, e', e⟩ := bind_ok e
      obtain ⟨rfl, rfl⟩ := Prod.mk.inj (Prog.ok.inj e')
      exact last_bd ((b0.dn (setUp_both ec).1).dn (setDown_both ed).1) (by exact hk) e
    · obtain ⟨⟨_, _⟩, e', e⟩ := bind_ok e
      obtain ⟨rfl, rfl⟩ := Prod.mk.inj (Prog.ok.inj e')
      exact last_bd b0 (by exact hk) e

theorem newHeader_bd {h h' : Heap} {pv n p : Nat} (b : Bd N h) (hk : n < N) (e : Node.newHeader h pv n = .ok (p, h')) :
    Bd N h' := by
  unfold Node.newHeader at e
  simp only at e
  have b0 := alloc_bd b
  split at e
  · obtain ⟨_, _, e⟩ := bind_ok e
    obtain ⟨_, _, e⟩ := bind_ok e
    obtain ⟨k1, ea, e⟩ := bind_ok e
    obtain ⟨k2, eb, e⟩ := bind_ok e
    obtain ⟨⟨_, _⟩, e', e⟩ := bind_ok e
    obtain ⟨rfl, rfl⟩ := Prod.mk.inj (Prog.ok.inj e')
    exact last_bd ((b0.dn (setLeft_both ea).1).dn (setRight_both eb).1) (by exact hk) e
  · obtain ⟨⟨_, _⟩, e', e⟩ := bind_ok e
    obtain ⟨rfl, rfl⟩ := Prod.mk.inj (Prog.ok.inj e')
    exact last_bd b0 (by exact hk) e

theorem forIn_bd {α : Type} {body : Heap × List Nat × Nat → α → Prog (Heap × List Nat × Nat)} {xs : List α}
    (hb : ∀ x ∈ xs, ∀ s s', Bd N s.1 → body s x = .ok s' → Bd N s'.1) : ∀ s s', Bd N s.1 → forIn' xs s body = .ok s' → Bd N s'.1 := by
  induction xs with
  | nil => intro s s' b e; cases e; exact b
  | cons x xs ih =>
    intro s s' b e
    obtain ⟨s1, e1, e⟩ := bind_ok e
    exact ih (fun y hy => hb y (by simp [hy])) s1 s' (hb x (by simp) s s1 b e1) e

theorem newCell_bd {hd k : Nat} {s s' : Heap × List Nat × Nat} (hk : k < N) (b : Bd N s.1) (e : newCell hd s k = .ok s') :
    Bd N s'.1 := by
  obtain ⟨h, rows, c⟩ := s
  unfold newCell at e
  simp only at e
  obtain ⟨_, _, e⟩ := bind_ok e
  obtain ⟨⟨q, h1⟩, e1, e⟩ := bind_ok e
  obtain ⟨_, _, e⟩ := bind_ok e
  cases e
  exact new_bd b hk e1

theorem newColumn_bd {col : List Nat} {s s' : Heap × List Nat × Nat} (hl : col.length < N) (hk : ∀ r ∈ col, r < N) (b : Bd N s.1)
    (e : newColumn s col = .ok s') : Bd N s'.1 := by
  obtain ⟨h, rows, c⟩ := s
  unfold newColumn at e
  simp only at e
  obtain ⟨⟨q, h1⟩, e1, e⟩ := bind_ok e
  obtain ⟨⟨h2, r2, c2⟩, e2, e⟩ := bind_ok e
  cases e
  have := forIn_bd (N := N) (body := newCell q) (fun x hx s s' b e => newCell_bd (hk x hx) b e) (h1, rows, q) (h2, r2, c2)
    (newHeader_bd b hl e1) e2
  exact this

theorem matrix_bd {M : List (List Nat)} {m : Matrix} {h : Heap} (hN : 0 < N) (hM : ∀ col ∈ M, col.length < N ∧ ∀ r ∈ col, r < N)
    (e : Matrix.new Heap.empty M = .ok (m, h)) : Bd N h := by
  unfold Matrix.new at e
  obtain ⟨⟨q, h1⟩, e1, e⟩ := bind_ok e
  obtain ⟨⟨h2, r2, c2⟩, e2, e⟩ := bind_ok e
  cases e
  have b0 : Bd N Heap.empty := fun q n hm => by cases hm
  exact forIn_bd (fun x hx s s' b e => newColumn_bd (hM x hx).1 (hM x hx).2 b e) _ _ (newHeader_bd b0 hN e1) e2

/-! ### Histories -/

variable {M : List (List Nat)}

theorem hist_bd (hN : 0 < N) (hM : ∀ col ∈ M, col.length < N ∧ ∀ r ∈ col, r < N) {log m h} (H : Hist M log m h) : Bd N h := by
  induction H with
  | new e => exact matrix_bd hN hM e
  | add _ e ih => exact ih.dn (addSolution_dn e)

theorem addSolution_eq (a : Agrees A N) (nd : ∀ col ∈ M, col.Nodup) {log m h} (H : Hist M log m h) (r : Nat) :
    addSolutionG A m h r = addSolution m h r := by
  obtain ⟨h0, rows0, HR0, V0, RW, B, C, t, I, rfl, _⟩ := hist_inv nd H
  have S := add_spec B I r
  have key : ∀ x, addSolution m t.h r = x → x ≠ .panic → x ≠ .diverge → addSolutionG A m t.h r = addSolution m t.h r := by
    intro x e h1 h2
    rcases addSolution_same a m t.h r with h | h | h
    · exact absurd (e.symm.trans h) h1
    · exact absurd (e.symm.trans h) h2
    · exact h
  split at S
  · exact key _ S nofun nofun
  · exact key _ S nofun nofun
  · obtain ⟨t', m', e, _⟩ := S
    exact key _ e nofun nofun
  · exact key _ S nofun nofun

theorem hist_iff (a : Agrees A N) (nd : ∀ col ∈ M, col.Nodup) {log m h} : HistG A M log m h ↔ Hist M log m h := by
  constructor
  · intro H
    induction H with
    | new e => exact .new e
    | add _ e ih => exact .add ih (by rw [← addSolution_eq a nd ih]; exact e)
  · intro H
    induction H with
    | new e => exact .new e
    | add H e ih => exact .add ih (by rw [addSolution_eq a nd H]; exact e)

theorem solve_eq (a : Agrees A N) (hN : 0 < N) (nd : ∀ col ∈ M, col.Nodup) (hM : ∀ col ∈ M, col.length < N ∧ ∀ r ∈ col, r < N)
    {log m h} (H : Hist M log m h) : m.solveG A h = m.solve h := by
  have b := hist_bd hN hM H
  obtain ⟨h0, rows0, HR0, V0, RW, B, C, t, I, rfl, _⟩ := hist_inv nd H
  have e := solveHelper_eq a B.good _ t I.ok b rfl m.partialSolution
  unfold Matrix.solveG Matrix.solve
  have er : m.root = (layOf h0 HR0 V0 RW).root := I.root
  rw [er, e]

end DancingLinks.WrapEq
