import Verif.Proofs.DL.Final
import Verif.Spec.Depth

/-! Helper lemmas: the depth of the recursion of `solve_helper`. -/
namespace DancingLinks
open Spec

variable {L : Lay} {t : TS}

theorem rowsWith_eq (G : L.Good) (o : t.Ok L) {c : Nat} (hc : c ∈ t.HR)
    {rec : Heap → List Nat → Prog (Bool × Heap × List Nat)}
    (ih : ∀ q ∈ t.V c, ∀ ps, rec (t.covers L ((q :: L.oth q).map L.colOf)).h ps =
      solveHelper L.root (t.covers L ((q :: L.oth q).map L.colOf)).h ps)
    (ps : List Nat) : ∀ post pre, t.V c = pre ++ post →
      rowsWith rec c (iterAt c post) (t.cover L c).h ps = solveRows L.root c (iterAt c post) (t.cover L c).h ps := by
  have F := o.frame G hc
  have M := o.mid G hc
  intro post
  induction post with
  | nil =>
    intro pre _
    rw [rowsWith, solveRows, next_nil]
    rfl
  | cons q post ihp =>
    intro pre hV
    have hq : q ∈ t.V c := by rw [hV]; simp
    have Nq := o.core.isN c hc q hq
    have Rq := o.rowIn G hc hq
    have o1 := o.cover G hc
    have nd := G.cols_nodup Nq
    have ecol : (q :: L.oth q).map L.colOf = c :: (L.oth q).map L.colOf := by
      rw [List.map_cons, o.core.col c hc q hq]
    have P1 := covers_spec G [c] t o (by simp) (by simpa using hc)
    have R1 : RowIn L (t.cover L c) q := Rq.seq P1
    have hs1 : ∀ x ∈ L.oth q, L.colOf x ∈ (t.cover L c).HR := by
      intro x hx
      refine (List.mem_erase_of_ne ?_).2 (o.closed hc hq (by simp [hx])).1
      have := G.col_ne Nq hx
      rwa [o.core.col c hc q hq] at this
    have P := covers_spec G ((q :: L.oth q).map L.colOf) t o nd (by
      intro d hd; simp only [List.mem_map] at hd
      obtain ⟨x, hx, rfl⟩ := hd; exact (o.closed hc hq hx).1)
    have et : (t.cover L c).covers L ((L.oth q).map L.colOf) = t.covers L ((q :: L.oth q).map L.colOf) := by
      rw [ecol]; rfl
    have hcpost : c ∉ post := by
      have := (List.nodup_cons.1 (o.core.vnodup hc)).1
      rw [hV] at this; simp at this; tauto
    have hn := next_cons (R1.live q (by simp)) (G.nz q Nq) (by
        have := M.ring; rw [hV] at this; exact this.next) hcpost
    rw [rowsWith, solveRows, hn]
    simp only [Prog.ok_bind]
    rw [read_ok (R1.live q (by simp))]
    simp only [Prog.ok_bind]
    rw [coverRow_exec G o1 R1 hs1, et]
    simp only [Prog.ok_bind]
    rw [ih q hq]
    generalize ((t.cover L c).h.node q).row = r
    rcases solveHelper_spec G _ _ P.ok rfl (ps ++ [r]) with ⟨S, h', e, _⟩ | ⟨e, _⟩
    · rw [e]
      rfl
    · rw [e]
      simp only [Prog.ok_bind, Bool.false_eq_true, if_false]
      rw [← et, uncoverRow_exec G o1 R1 hs1]
      simp only [Prog.ok_bind, List.dropLast_concat]
      exact ihp (pre ++ [q]) (by simp [hV])

theorem boundedHelper_eq (G : L.Good) {k : Nat} (hk : ∀ q, L.isNode q → k ≤ (L.oth q).length + 1) :
    ∀ (n : Nat) (t : TS), t.Ok L → t.HR.length < k * n → ∀ ps,
      boundedHelper L.root n t.h ps = solveHelper L.root t.h ps := by
  intro n
  induction n with
  | zero => intro t o hn; omega
  | succ n ih =>
    intro t o hn ps
    rw [boundedHelper, solveHelper, isEmpty_spec o]
    simp only [Prog.ok_bind]
    by_cases hE : t.HR = []
    · simp only [hE, decide_true, if_true]
    · simp only [hE, decide_false, Bool.false_eq_true, if_false]
      obtain ⟨c, e, hc, _⟩ := chooseColumn_spec o hE
      rw [e]
      simp only [Prog.ok_bind]
      rw [coverColumn_eq (toHeader_hdr (o.core.liveH c hc) (o.core.hdr0 c hc)), o.cover_exec G hc]
      simp only [Prog.ok_bind]
      have M := o.mid G hc
      rw [iterSkip1_ok M.live (o.core.c_ne_zero hc) (List.nodup_cons.1 (o.core.vnodup hc)).1 M.ring.first]
      simp only [Prog.ok_bind]
      refine rowsWith_eq G o hc (fun q hq ps => ?_) ps _ [] rfl
      have Nq := o.core.isN c hc q hq
      have P := covers_spec G ((q :: L.oth q).map L.colOf) t o (G.cols_nodup Nq) (by
        intro d hd; simp only [List.mem_map] at hd
        obtain ⟨x, hx, rfl⟩ := hd; exact (o.closed hc hq hx).1)
      refine ih _ P.ok ?_ ps
      have h1 := P.len
      have h2 := hk q Nq
      simp only [List.map_cons, List.length_cons, List.length_map] at h1 ⊢
      rw [Nat.mul_succ] at hn
      omega

/-- The number of cells of a row. -/
theorem row_length {h : Heap} {rows HR : List Nat} {V RW : Nat → List Nat} {M : List (List Nat)}
    (B : Bld h rows HR V RW M) {q : Nat} (hq : (layOf h HR V RW).isNode q) :
    ((layOf h HR V RW).oth q).length + 1 = (M.filter fun col => decide ((h.node q).row ∈ col)).length := by
  have h1 := (othOf_perm (B.self hq)).length_eq
  have h2 := congrArg List.length (B.rord (h.node q).row)
  rw [List.length_map] at h2
  have h3 : (M.filter fun col => decide ((h.node q).row ∈ col)).length =
      (HR.filter fun c => decide ((h.node q).row ∈ (V c).map fun q => (h.node q).row)).length := by
    rw [← B.mat, List.filter_map, List.length_map]
    rfl
  rw [h3, ← h2, ← h1]
  simp [layOf]

theorem boundedSolve_hist {M : List (List Nat)} {log m h} (H : HInv M log m h) {k n : Nat}
    (hk : ∀ col ∈ M, ∀ r ∈ col, k ≤ (M.filter fun col => decide (r ∈ col)).length) (hn : M.length < k * n) :
    boundedSolve m n h = m.solve h := by
  obtain ⟨h0, rows0, HR0, V0, RW, B, C, t, I, rfl, hp⟩ := H
  have rt : m.root = (layOf h0 HR0 V0 RW).root := I.root
  unfold boundedSolve Matrix.solve
  have hl : HR0.length = M.length := by rw [← B.mat]; simp
  rw [rt, boundedHelper_eq B.good (k := k) ?_ n t I.ok ?_]
  · intro q hq
    rw [row_length B hq]
    obtain ⟨c, hc, hq'⟩ := hq
    refine hk ((V0 c).map fun q => (h0.node q).row) ?_ _ (List.mem_map.mpr ⟨q, hq', rfl⟩)
    rw [← B.mat]
    exact List.mem_map.mpr ⟨c, hc, rfl⟩
  · have := I.hsub.length_le
    omega

/-! ### A solution needs one frame per row -/

/-- What a search with at most `n` frames does to the length of the partial solution. -/
def Grows (n : Nat) (ps : List Nat) (r : Prog (Bool × Heap × List Nat)) : Prop :=
  ∀ found h' ps', r = .ok (found, h', ps') →
    (found = true → ps'.length < ps.length + n) ∧ (found = false → ps'.length = ps.length)

theorem rowsWith_grows {rec : Heap → List Nat → Prog (Bool × Heap × List Nat)} {n : Nat}
    (ih : ∀ h ps, Grows n ps (rec h ps)) (c : Nat) (it : Iter) (h : Heap) (ps : List Nat) :
    Grows (n + 1) ps (rowsWith rec c it h ps) := by
  revert it h ps
  apply rowsWith.fixpoint_induct (rec := rec) (constraint := c)
    (motive := fun f => ∀ it h ps, Grows (n + 1) ps (f it h ps))
  · refine Lean.Order.admissible_pi_apply (α := Iter) (β := fun _ => Heap → List Nat → Prog (Bool × Heap × List Nat))
      (fun it f => ∀ h ps, Grows (n + 1) ps (f h ps)) fun it => ?_
    refine Lean.Order.admissible_pi_apply (α := Heap) (β := fun _ => List Nat → Prog (Bool × Heap × List Nat))
      (fun h f => ∀ ps, Grows (n + 1) ps (f ps)) fun h => ?_
    refine Lean.Order.admissible_pi_apply (α := List Nat) (β := fun _ => Prog (Bool × Heap × List Nat))
      (fun ps r => Grows (n + 1) ps r) fun ps => ?_
    exact Lean.Order.admissible_flatOrder (b := (Prog.diverge : Prog (Bool × Heap × List Nat))) _
      (fun found h' ps' e => by cases e)
  · intro f hf it h ps found h' ps' e
    obtain ⟨⟨x, it1⟩, _, e⟩ := Prog.bind_eq_ok.mp e
    cases x with
    | none =>
      simp only at e
      obtain ⟨h1, _, e⟩ := Prog.bind_eq_ok.mp e
      simp only [Prog.pure_eq, Prog.ok.injEq, Prod.mk.injEq] at e
      obtain ⟨rfl, rfl, rfl⟩ := e
      exact ⟨nofun, fun _ => rfl⟩
    | some row =>
      simp only at e
      obtain ⟨nd, _, e⟩ := Prog.bind_eq_ok.mp e
      obtain ⟨h1, _, e⟩ := Prog.bind_eq_ok.mp e
      obtain ⟨⟨fd, h2, ps2⟩, e2, e⟩ := Prog.bind_eq_ok.mp e
      obtain ⟨g1, g2⟩ := ih _ _ _ _ _ e2
      rw [List.length_append, List.length_singleton] at g1 g2
      cases fd with
      | true =>
        simp only [if_true] at e
        obtain ⟨h3, _, e⟩ := Prog.bind_eq_ok.mp e
        obtain ⟨h4, _, e⟩ := Prog.bind_eq_ok.mp e
        simp only [Prog.pure_eq, Prog.ok.injEq, Prod.mk.injEq] at e
        obtain ⟨rfl, rfl, rfl⟩ := e
        exact ⟨fun _ => by have := g1 rfl; omega, nofun⟩
      | false =>
        simp only [Bool.false_eq_true, if_false] at e
        obtain ⟨h3, _, e⟩ := Prog.bind_eq_ok.mp e
        obtain ⟨k1, k2⟩ := hf _ _ _ _ _ _ e
        have := g2 rfl
        rw [List.length_dropLast] at k1 k2
        exact ⟨fun hfd => by have := k1 hfd; omega, fun hfd => by have := k2 hfd; omega⟩

theorem boundedHelper_grows (root : Nat) : ∀ n h ps, Grows n ps (boundedHelper root n h ps) := by
  intro n
  induction n with
  | zero => intro h ps found h' ps' e; cases e
  | succ n ih =>
    intro h ps found h' ps' e
    rw [boundedHelper] at e
    obtain ⟨b, _, e⟩ := Prog.bind_eq_ok.mp e
    cases b with
    | true =>
      simp only [if_true, Prog.pure_eq, Prog.ok.injEq, Prod.mk.injEq] at e
      obtain ⟨rfl, rfl, rfl⟩ := e
      exact ⟨fun _ => by omega, nofun⟩
    | false =>
      simp only [Bool.false_eq_true, if_false] at e
      obtain ⟨c, _, e⟩ := Prog.bind_eq_ok.mp e
      obtain ⟨h1, _, e⟩ := Prog.bind_eq_ok.mp e
      obtain ⟨it, _, e⟩ := Prog.bind_eq_ok.mp e
      exact rowsWith_grows ih _ _ _ _ _ _ _ e

theorem boundedSolve_grows {m : Matrix} {n : Nat} {h h' : Heap} {sol : List Nat}
    (e : boundedSolve m n h = .ok (.ok sol, h')) : sol.length < m.partialSolution.length + n := by
  unfold boundedSolve at e
  obtain ⟨⟨fd, h1, ps⟩, e1, e⟩ := Prog.bind_eq_ok.mp e
  obtain ⟨h2, _, e⟩ := Prog.bind_eq_ok.mp e
  cases fd with
  | true =>
    simp only [if_true, Prog.pure_eq, Prog.ok.injEq, Prod.mk.injEq, Except.ok.injEq] at e
    obtain ⟨rfl, rfl⟩ := e
    exact (boundedHelper_grows _ _ _ _ _ _ _ e1).1 rfl
  | false => simp at e

end DancingLinks
