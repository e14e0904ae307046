import Verif.Proofs.DL.WorkSearch
import Verif.Proofs.Sudoku.Refine

/-! Helper lemmas: the work of `add_solution` and `new`. -/
namespace DancingLinks
open Spec

theorem rejected_log (log : List (Nat × Except DLError Unit)) (r : Nat) (x : DLError) :
    accepted (log ++ [(r, Except.error x)]) = accepted log := by simp [accepted]

theorem workAdd_hist {M : List (List Nat)} {log m h} (H : HInv M log m h) {r : Nat} {res m' h'}
    (e : addSolution m h r = .ok (res, m', h')) (k : Nat) :
    ∃ k', workAdd m (h, k) r = .ok (res, m', (h', k')) ∧
      k' + 11 * nodes (residual M (accepted (log ++ [(r, res)]))) ≤ k + 1 + 11 * nodes (residual M (accepted log)) := by
  obtain ⟨h0, rows0, HR0, V0, RW, B, C, t, I, rfl, hp⟩ := H
  have G := B.good
  by_cases c1 : m.rows.length ≤ r
  · simp only [addSolution, ge_iff_le, c1, if_true, Prog.pure_eq, Prog.ok.injEq, Prod.mk.injEq] at e
    obtain ⟨rfl, rfl, rfl⟩ := e
    refine ⟨k + 1, ?_, by rw [rejected_log]⟩
    simp only [workAdd, ge_iff_le, c1, if_true]; rfl
  have hlt : r < m.rows.length := by omega
  have get := getP_getD hlt
  generalize hx : (m.rows[r]?).getD 0 = x at get
  have base : workAdd m (t.h, k) r = (do
      let m := { m with partialSolution := m.partialSolution ++ [r] }
      if x = 0 then
        return (.error .invalidRow, m, (t.h, k + 1))
      let n ← t.h.read x
      let it ← iterSkip1 .down t.h n.header
      let u ← forIter (fun t : (Heap × List Nat) × Nat => t.1.1) .down it ((t.h, m.rows), k + 1 + 1) fun t p => do
        let u ← nullRow t.1 p
        return (u, t.2 + 1)
      let m := { m with rows := u.1.2 }
      let s ← workAll .right (t.h, u.2 + 1) x workCover
      let s ← workSkip1 .right s x workFree
      let s ← workFree s x
      return (.ok (), m, s)) := by
    simp only [workAdd, ge_iff_le, c1, if_false, get, Prog.ok_bind]
  have base' : addSolution m t.h r = (do
      let m := { m with partialSolution := m.partialSolution ++ [r] }
      if x = 0 then
        return (.error .invalidRow, m, t.h)
      let n ← t.h.read x
      let it ← iterSkip1 .down t.h n.header
      let s ← forIter Prod.fst .down it (t.h, m.rows) nullRow
      let m := { m with rows := s.2 }
      let h ← forAll .right t.h x coverColumn
      let h ← forSkip1 .right h x freeChain
      let h ← freeChain h x
      return (.ok (), m, h)) := by
    simp only [addSolution, ge_iff_le, c1, if_false, get, Prog.ok_bind]
  have A := add_spec B I r
  by_cases x0 : x = 0
  · simp only [base', x0, if_true, Prog.pure_eq, Prog.ok.injEq, Prod.mk.injEq] at e
    obtain ⟨rfl, rfl, rfl⟩ := e
    refine ⟨k + 1, ?_, by rw [rejected_log]⟩
    simp only [base, x0, if_true]; rfl
  rw [base'] at e
  simp only [x0, if_false] at e
  -- the call was successful
  have hok : res = .ok () := by
    simp only [Prog.bind_eq_ok] at e
    obtain ⟨n, _, it, _, s, _, h1, _, h2, _, h3, _, e⟩ := e
    simp only [Prog.pure_eq, Prog.ok.injEq, Prod.mk.injEq] at e
    exact e.1.symm
  subst hok
  have e' : addSolution m t.h r = .ok (.ok (), m', h') := by
    rw [base']; simp only [x0, if_false]; exact e
  have hex : expected M (accepted log) r = .accepted := by
    split at A
    · rw [A] at e'; simp at e'
    · rw [A] at e'; simp at e'
    · assumption
    · rw [A] at e'; cases e'
  have hf' : ∀ a ∈ accepted log, conflict M r a = false := by
    unfold expected at hex
    split_ifs at hex
    cases hf : (accepted log).find? (conflict M r) with
    | none =>
      rw [List.find?_eq_none] at hf
      exact fun a ha => Bool.eq_false_iff.2 (hf a ha)
    | some a =>
      rw [hf] at hex
      simp only at hex
      split_ifs at hex
  have c2 : RW r ≠ [] := by
    rw [← B.occurs_iff (M := M)]
    unfold expected at hex
    split_ifs at hex with _ h2
    simp only [not_forall, not_not] at h2
    obtain ⟨col, h3, h4⟩ := h2
    exact ⟨col, h3, h4⟩
  obtain ⟨ql, hql⟩ : ∃ q, (RW r).getLast? = some q := by
    rw [List.getLast?_eq_some_getLast c2]; exact ⟨_, rfl⟩
  have qlm : ql ∈ RW r := List.mem_of_getLast? hql
  obtain ⟨⟨c, hc0, hqc⟩, er⟩ := (B.rmem r ql).1 qlm
  have Nq : (layOf h0 HR0 V0 RW).isNode ql := ⟨c, hc0, hqc⟩
  have hnn : ¬ Nulled M (accepted log) r := by
    rintro ⟨a, h1, _⟩
    have := List.find?_some h1
    rw [hf' a (List.mem_of_find?_eq_some h1)] at this
    cases this
  have hxq : x = ql := by
    rw [← hx, I.kept r hnn, B.rowsEq, List.getLastD_eq_getLast?, hql]; rfl
  subst hxq
  have hc : c ∈ t.HR := by
    rw [I.hr]
    refine ⟨hc0, fun a ha hac => ?_⟩
    have := hf' a ha
    rw [Bool.eq_false_iff] at this
    apply this
    rw [B.conflict_iff]
    exact ⟨c, hc0, by simp only [rowsOf, List.mem_map]; exact ⟨x, hqc, er⟩, hac⟩
  have hq : x ∈ t.V c := (I.vmem c hc x).2 ⟨hqc, by rw [er]; exact hf'⟩
  have o := I.ok
  have ha := abs_hist B I
  set L := layOf h0 HR0 V0 RW with hL
  have colq : L.colOf x = c := B.hdr c hc0 x hqc
  have bnd : ∀ q ∈ t.V c, L.rid q < m.rows.length := by
    intro q hq
    rw [I.rlen, B.rlen]
    refine ⟨L.rid q, ?_, le_refl _⟩
    have := ((I.vmem c hc q).1 hq).1
    exact List.ne_nil_of_mem ((B.rmem _ q).2 ⟨⟨c, hc0, this⟩, rfl⟩)
  obtain ⟨it, s, e1, e2, e2'⟩ := workNull G o hc m.rows bnd (k + 1 + 1)
  have R := o.rowIn G hc hq
  have hs : ∀ y ∈ x :: L.oth x, L.colOf y ∈ t.HR := fun y hy => (o.closed hc hq hy).1
  have e3 := coverRowAll_exec G o R hs
  obtain ⟨k3, e3', b3⟩ := workCoverRowAll G o R hs (k + 1 + 1 + (t.V c).length + 1)
  have csE : (x :: L.oth x).map L.colOf = c :: (L.oth x).map L.colOf := by rw [List.map_cons, colq]
  obtain ⟨h1, h2, k4, k5, e4, e4', f, b5⟩ := workFreeRows G o hc hq
    (s := (t.covers L (c :: (L.oth x).map L.colOf)).h) (fun _ _ _ => rfl) k3
  obtain ⟨e5, e5'⟩ := f x (Or.inr rfl)
  rw [← csE] at e4 e4' b5
  simp only [read_ok (o.core.liveV c hc x hq), Prog.ok_bind, o.core.hdr c hc x hq, e1, e2, e3, e4, e5, Prog.pure_eq,
    Prog.ok.injEq, Prod.mk.injEq, true_and] at e
  obtain ⟨rfl, rfl⟩ := e
  refine ⟨k5, ?_, ?_⟩
  · rw [base]
    simp only [x0, if_false, read_ok (o.core.liveV c hc x hq), Prog.ok_bind, o.core.hdr c hc x hq, e1]
    rw [e2']
    simp only [Prog.ok_bind, e3', e4', e5', Prog.pure_eq]
  · have hacc : accepted (log ++ [(r, Except.ok ())]) = accepted log ++ [r] := by simp [accepted]
    rw [hacc, ← residual_residual hf', ← ha]
    have hr : L.rid x = r := er
    have e6 := abs_covers G o hc hq
    rw [hr] at e6
    rw [← e6, ← W_abs, ← W_abs]
    have P := covers_spec G ((x :: L.oth x).map L.colOf) t o (G.cols_nodup Nq) (by
      intro d hd; simp only [List.mem_map] at hd
      obtain ⟨y, hy, rfl⟩ := hd; exact hs y hy)
    have h3 := P.W_eq o (G.cols_nodup Nq)
    have h4 : (rem L c (t.V c)).length ≤ remSum L (t.covers L ((x :: L.oth x).map L.colOf)).V ((x :: L.oth x).map L.colOf) := by
      conv_rhs => rw [csE]
      rw [remSum_cons, ← csE, P.first c ((L.oth x).map L.colOf) csE]
      omega
    rw [length_rem] at h4
    have h5 := List.length_pos_of_mem hq
    omega

/-! ### `new` -/

theorem newCell_grows {hd : Nat} {s s' : Heap × List Nat × Nat} {i : Nat} (e : newCell hd s i = .ok s') :
    s.2.1.length ≤ s'.2.1.length := by
  obtain ⟨h, rows, cc⟩ := s
  simp only [newCell, Prog.bind_eq_ok] at e
  obtain ⟨rp, _, nw, _, rows', e3, e4⟩ := e
  simp only [Prog.pure_eq, Prog.ok.injEq] at e4
  subst e4
  unfold setP at e3
  split_ifs at e3 with h1 h2 h2 <;> simp only [Prog.ok.injEq] at e3 <;> subst e3 <;>
    simp only [List.length_set, List.length_append] <;> omega

theorem workCells_eq (hd : Nat) (col : List Nat) : ∀ (s : Heap × List Nat × Nat) (k : Nat),
    (∀ s', forIn' col s (newCell hd) = .ok s' → s.2.1.length ≤ s'.2.1.length ∧
      forIn' col (s, k) (workCell hd) = .ok (s', k + col.length + (s'.2.1.length - s.2.1.length))) := by
  induction col with
  | nil =>
    intro s k s' e
    simp only [forIn'_nil, Prog.ok.injEq] at e
    subst e
    simp
  | cons i col ih =>
    intro s k s' e
    rw [forIn'_cons, Prog.bind_eq_ok] at e
    obtain ⟨u, e1, e2⟩ := e
    have h1 := newCell_grows e1
    obtain ⟨h2, h3⟩ := ih u (k + 1 + (u.2.1.length - s.2.1.length)) s' e2
    refine ⟨by omega, ?_⟩
    rw [forIn'_cons]
    simp only [workCell, e1, Prog.ok_bind, Prog.pure_eq]
    refine Eq.trans h3 ?_
    simp only [List.length_cons]
    congr 2
    omega

theorem workColumns_eq (M : List (List Nat)) : ∀ (s : Heap × List Nat × Nat) (k : Nat),
    (∀ s', forIn' M s newColumn = .ok s' → s.2.1.length ≤ s'.2.1.length ∧
      forIn' M (s, k) workColumn = .ok (s', k + M.length + M.flatten.length + (s'.2.1.length - s.2.1.length))) := by
  induction M with
  | nil =>
    intro s k s' e
    simp only [forIn'_nil, Prog.ok.injEq] at e
    subst e
    simp
  | cons col M ih =>
    intro s k s' e
    rw [forIn'_cons, Prog.bind_eq_ok] at e
    obtain ⟨u, e1, e2⟩ := e
    obtain ⟨h, rows, curr⟩ := s
    simp only [newColumn, Prog.bind_eq_ok] at e1
    obtain ⟨⟨nw, h1⟩, e3, ⟨h2, rows2, c2⟩, e4, e5⟩ := e1
    simp only [Prog.pure_eq, Prog.ok.injEq] at e4 e5
    subst e5
    obtain ⟨g1, g2⟩ := workCells_eq nw col (h1, rows, nw) (k + 1) _ e4
    obtain ⟨g3, g4⟩ := ih (h2, rows2, nw) (k + 1 + col.length + (rows2.length - rows.length)) s' e2
    simp only at g1 g3 ⊢
    refine ⟨by omega, ?_⟩
    rw [forIn'_cons]
    simp only [workColumn, e3, Prog.ok_bind, g2, Prog.pure_eq]
    refine Eq.trans g4 ?_
    simp only [List.length_cons, List.flatten_cons, List.length_append]
    congr 2
    omega

theorem workNew_eq {M : List (List Nat)} {h : Heap} {m : Matrix} {h' : Heap} (e : Matrix.new h M = .ok (m, h')) :
    workNew h M = .ok (m, (h', nodes M + m.rows.length)) := by
  simp only [Matrix.new, Prog.bind_eq_ok] at e
  obtain ⟨⟨root, h1⟩, e1, ⟨h2, rows, c⟩, e2, e3⟩ := e
  simp only [Prog.pure_eq, Prog.ok.injEq, Prod.mk.injEq] at e2 e3
  obtain ⟨rfl, rfl⟩ := e3
  have := (workColumns_eq M (h1, [], root) 1 _ e2).2
  simp only [workNew, e1, Prog.ok_bind, this, Prog.pure_eq, nodes]
  rfl

theorem nodes_residual_le (M : List (List Nat)) (A : List Nat) : nodes (residual M A) ≤ nodes M := by
  have key : ∀ (q : Nat → Bool) (f : List Nat → Bool) (M : List (List Nat)),
      ((M.filter f).map fun col => col.filter q).length + ((M.filter f).map fun col => col.filter q).flatten.length ≤
        M.length + M.flatten.length := by
    intro q f M
    induction M with
    | nil => simp
    | cons col M ih =>
      rw [List.filter_cons]
      have := List.length_filter_le q col
      split_ifs <;>
      · simp only [List.map_cons, List.flatten_cons, List.length_append, List.length_cons] at ih ⊢
        omega
  have := key (fun x => A.all fun a => !conflict M x a) (fun col => A.all fun a => decide (a ∉ col)) M
  unfold nodes residual
  omega

end DancingLinks
