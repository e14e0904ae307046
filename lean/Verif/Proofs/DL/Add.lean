import Verif.Proofs.DL.Build
import Verif.Spec.DancingLinks

/-! `add_solution` after any history of calls, and `solve`. -/
namespace DancingLinks
open Spec

theorem TS.Ok.congr_heap {L : Lay} {t : TS} (o : t.Ok L) {h' : Heap}
    (hm : ∀ p, p = L.root ∨ t.Act p → h'.mem p = t.h.mem p) : (TS.mk h' t.HR t.V).Ok L := by
  have mR : h'.mem L.root = t.h.mem L.root := hm _ (Or.inl rfl)
  have mH : ∀ c ∈ t.HR, h'.mem c = t.h.mem c := fun c hc => hm _ (Or.inr (Or.inl hc))
  have mV : ∀ c ∈ t.HR, ∀ q ∈ t.V c, h'.mem q = t.h.mem q := fun c hc q hq => hm _ (Or.inr (Or.inr ⟨c, hc, hq⟩))
  refine ⟨⟨(live_congr mR).2 o.core.liveR, fun c hc => (live_congr (mH c hc)).2 (o.core.liveH c hc),
    fun c hc q hq => (live_congr (mV c hc q hq)).2 (o.core.liveV c hc q hq), o.core.nzH, o.core.ndH, o.core.ndV,
    o.core.isN, o.core.sep, o.core.col, o.core.hring.congr_mem ?_, fun c hc => (o.core.vring c hc).congr_mem ?_,
    fun c hc => ?_, fun c hc => ?_, fun c hc q hq => ?_⟩,
    ⟨o.rows.closed, fun c hc q hq => (o.rows.rring c hc q hq).congr_mem ?_, fun c hc q hq => ?_⟩⟩
  · intro a ha
    simp only [List.mem_cons] at ha
    rcases ha with rfl | ha
    · exact mR
    · exact mH a ha
  · intro a ha
    simp only [List.mem_cons] at ha
    rcases ha with rfl | ha
    · exact mH _ hc
    · exact mV c hc a ha
  · simp only; rw [node_congr (mH c hc)]; exact o.core.hdr0 c hc
  · simp only; rw [node_congr (mH c hc)]; exact o.core.cnt c hc
  · simp only; rw [node_congr (mV c hc q hq)]; exact o.core.hdr c hc q hq
  · intro a ha
    have := o.closed hc hq ha
    exact mV _ this.1 _ this.2
  · simp only; rw [node_congr (mV c hc q hq)]; exact o.rows.rid c hc q hq

section
variable {h0 : Heap} {rows0 HR0 : List Nat} {V0 RW : Nat → List Nat} {M : List (List Nat)}
variable (B : Bld h0 rows0 HR0 V0 RW M)

def rowsOf (h0 : Heap) (V0 : Nat → List Nat) (c : Nat) : List Nat := (V0 c).map fun q => (h0.node q).row

include B

theorem Bld.mem_col {col : List Nat} : col ∈ M ↔ ∃ c ∈ HR0, rowsOf h0 V0 c = col := by
  rw [← B.mat, List.mem_map]; rfl

theorem Bld.conflict_iff {r a : Nat} : conflict M r a = true ↔ ∃ c ∈ HR0, r ∈ rowsOf h0 V0 c ∧ a ∈ rowsOf h0 V0 c := by
  simp only [conflict, List.any_eq_true, decide_eq_true_eq, B.mem_col]
  constructor
  · rintro ⟨_, ⟨c, hc, rfl⟩, h⟩; exact ⟨c, hc, h⟩
  · rintro ⟨c, hc, h⟩; exact ⟨_, ⟨c, hc, rfl⟩, h⟩

theorem Bld.occurs_iff {r : Nat} : Occurs M r ↔ RW r ≠ [] := by
  simp only [Occurs, B.mem_col]
  constructor
  · rintro ⟨_, ⟨c, hc, rfl⟩, h⟩
    simp only [rowsOf, List.mem_map] at h
    obtain ⟨q, hq, rfl⟩ := h
    exact List.ne_nil_of_mem ((B.rmem _ q).2 ⟨⟨c, hc, hq⟩, rfl⟩)
  · intro h
    obtain ⟨q, hq⟩ := List.exists_mem_of_ne_nil _ h
    obtain ⟨⟨c, hc, hqc⟩, e⟩ := (B.rmem r q).1 hq
    exact ⟨_, ⟨c, hc, rfl⟩, by simp only [rowsOf, List.mem_map]; exact ⟨q, hqc, e⟩⟩

omit B in
theorem conflict_self {r : Nat} (hr : Occurs M r) : conflict M r r = true := by
  obtain ⟨col, h1, h2⟩ := hr
  simp only [conflict, List.any_eq_true, decide_eq_true_eq]
  exact ⟨col, h1, h2, h2⟩

theorem Bld.lastCol_eq {r : Nat} {q : Nat} (hq : (RW r).getLast? = some q) :
    lastCol M r = rowsOf h0 V0 (h0.node q).header := by
  have h1 : M.filter (fun col => decide (r ∈ col)) =
      (HR0.filter fun c => decide (r ∈ rowsOf h0 V0 c)).map (rowsOf h0 V0) := by
    rw [← B.mat, List.filter_map]; rfl
  have h2 : (HR0.filter fun c => decide (r ∈ rowsOf h0 V0 c)) = (RW r).map fun q => (h0.node q).header :=
    (B.rord r).symm
  unfold lastCol
  rw [h1, h2, List.getLast?_map, List.getLast?_map, hq]; rfl

/-- Two nodes' rows conflict iff the columns of the rows meet. -/
theorem Bld.conflict_nodes {q q' : Nat} (hq : (layOf h0 HR0 V0 RW).isNode q) (hq' : (layOf h0 HR0 V0 RW).isNode q') :
    conflict M (h0.node q).row (h0.node q').row = true ↔
      ∃ y ∈ q :: (layOf h0 HR0 V0 RW).oth q, (layOf h0 HR0 V0 RW).colOf y ∈
        (q' :: (layOf h0 HR0 V0 RW).oth q').map (layOf h0 HR0 V0 RW).colOf := by
  rw [B.conflict_iff]
  simp only [B.rowMem hq, List.mem_map, B.rowMem hq']
  constructor
  · rintro ⟨c, hc, h1, h2⟩
    simp only [rowsOf, List.mem_map] at h1 h2
    obtain ⟨x, hx, ex⟩ := h1
    obtain ⟨x', hx', ex'⟩ := h2
    refine ⟨x, (B.rmem _ x).2 ⟨⟨c, hc, hx⟩, ex⟩, x', (B.rmem _ x').2 ⟨⟨c, hc, hx'⟩, ex'⟩, ?_⟩
    simp only [layOf]
    rw [B.hdr c hc x hx, B.hdr c hc x' hx']
  · rintro ⟨x, hx, x', hx', e⟩
    obtain ⟨⟨c, hc, hxc⟩, ex⟩ := (B.rmem _ x).1 hx
    obtain ⟨⟨c', hc', hxc'⟩, ex'⟩ := (B.rmem _ x').1 hx'
    simp only [layOf] at e
    rw [B.hdr c hc x hxc, B.hdr c' hc' x' hxc'] at e
    subst e
    exact ⟨_, hc, by simp only [rowsOf, List.mem_map]; exact ⟨x, hxc, ex⟩,
      by simp only [rowsOf, List.mem_map]; exact ⟨x', hxc', ex'⟩⟩

end

/-- The row pointer of `r` has been set to null. -/
def Nulled (M : List (List Nat)) (A : List Nat) (r : Nat) : Prop :=
  ∃ a, A.find? (conflict M r) = some a ∧ r ∈ lastCol M a

/-- State after the rows `A` have been accepted. -/
structure Inv (h0 : Heap) (rows0 HR0 : List Nat) (V0 RW : Nat → List Nat) (M : List (List Nat))
    (A : List Nat) (t : TS) (m : Matrix) : Prop where
  ok : t.Ok (layOf h0 HR0 V0 RW)
  rootD : (t.h.node 1).down = 1
  next : t.h.next = h0.next
  freed : ∀ p, 0 < p → p < h0.next → p = 1 ∨ t.Act p ∨ t.h.mem p = .freed
  unal : ∀ p, p = 0 ∨ h0.next ≤ p → t.h.mem p = .unalloc
  hr : ∀ c, c ∈ t.HR ↔ c ∈ HR0 ∧ ∀ a ∈ A, a ∉ rowsOf h0 V0 c
  vmem : ∀ c ∈ t.HR, ∀ q, q ∈ t.V c ↔ q ∈ V0 c ∧ ∀ a ∈ A, conflict M (h0.node q).row a = false
  root : m.root = 1
  rlen : m.rows.length = rows0.length
  nulled : ∀ r, Nulled M A r → (m.rows[r]?).getD 0 = 0
  kept : ∀ r, ¬ Nulled M A r → (m.rows[r]?).getD 0 = (rows0[r]?).getD 0
  occ : ∀ a ∈ A, Occurs M a
  ext : ∀ S, ExC (layOf h0 HR0 V0 RW) t S → ExC (layOf h0 HR0 V0 RW) (TS.mk h0 HR0 V0) (A ++ S)
  res : ∀ S, ExC (layOf h0 HR0 V0 RW) (TS.mk h0 HR0 V0) S → (∀ a ∈ A, a ∈ S) →
    ExC (layOf h0 HR0 V0 RW) t (S.filter (· ∉ A))
  hsub : t.HR.Sublist HR0
  vsub : ∀ c, (t.V c).Sublist (V0 c)

theorem inv_new {h0 : Heap} {rows0 HR0 : List Nat} {V0 RW : Nat → List Nat} {M : List (List Nat)}
    (B : Bld h0 rows0 HR0 V0 RW M) (C : Cnt h0 HR0 V0) :
    Inv h0 rows0 HR0 V0 RW M [] (TS.mk h0 HR0 V0) { root := 1, rows := rows0, partialSolution := [] } := by
  refine ⟨B.ok C, B.rootD, rfl, ?_, B.dead, by simp, by simp, rfl, rfl, ?_, fun _ _ => rfl, by simp, by simp, by simp,
    .refl _, fun _ => .refl _⟩
  · intro p h1 h2
    rcases B.part p h1 h2 with h | h
    · exact Or.inl h
    · exact Or.inr (Or.inl h)
  · rintro r ⟨a, h, _⟩; simp at h

theorem Inv.push {h0 : Heap} {rows0 HR0 : List Nat} {V0 RW : Nat → List Nat} {M : List (List Nat)} {A t m}
    (I : Inv h0 rows0 HR0 V0 RW M A t m) (ps : List Nat) :
    Inv h0 rows0 HR0 V0 RW M A t { m with partialSolution := ps } :=
  ⟨I.ok, I.rootD, I.next, I.freed, I.unal, I.hr, I.vmem, I.root, I.rlen, I.nulled, I.kept, I.occ, I.ext, I.res,
    I.hsub, I.vsub⟩

/-- The loop that sets the row pointers of a column to null. -/
theorem nullRows_exec {L : Lay} {t : TS} (G : L.Good) (o : t.Ok L) {c : Nat} (hc : c ∈ t.HR) (rows : List Nat)
    (hb : ∀ q ∈ t.V c, L.rid q < rows.length) :
    ∃ it s, iterSkip1 .down t.h c = .ok it ∧ forIter Prod.fst .down it (t.h, rows) nullRow = .ok s ∧
      s.1 = t.h ∧ s.2.length = rows.length ∧
      ∀ r, ((∃ q ∈ t.V c, L.rid q = r) → (s.2[r]?).getD 0 = 0) ∧
        (¬ (∃ q ∈ t.V c, L.rid q = r) → s.2[r]? = rows[r]?) := by
  have nd := List.nodup_cons.1 (o.core.vnodup hc)
  have n0 : 0 ∉ t.V c := fun h => G.nz 0 (o.core.isN c hc 0 h) rfl
  have key := forIter_spec (Prod.fst : Heap × List Nat → Heap) .down c (t.V c) nullRow
    (fun pre s => s.1 = t.h ∧ s.2.length = rows.length ∧
      ∀ r, ((∃ q ∈ pre, L.rid q = r) → (s.2[r]?).getD 0 = 0) ∧
        (¬ (∃ q ∈ pre, L.rid q = r) → s.2[r]? = rows[r]?)) n0 (fun h => nd.1 (List.mem_of_mem_tail h)) ?_
    (t.h, rows) ⟨rfl, rfl, by simp⟩
  · obtain ⟨s, e, I⟩ := key
    exact ⟨_, s, iterSkip1_ok (o.core.liveH c hc) (o.core.c_ne_zero hc) nd.1 (o.core.vring c hc).first, e, I⟩
  · rintro pre x post ⟨h, rs⟩ hV ⟨h1, h2, h3⟩
    simp only at h1 h2 h3; subst h1
    have hx : x ∈ t.V c := by rw [hV]; simp
    refine ⟨o.core.liveV c hc x hx, ?_, (t.h, rs.set (L.rid x) 0), ?_, rfl, by simpa using h2, ?_⟩
    · have := o.core.vring c hc; rw [hV] at this; exact this.next
    · simp only [nullRow, read_ok (o.core.liveV c hc x hx), Prog.ok_bind, o.rows.rid c hc x hx]
      rw [setP_ok (by rw [h2]; exact hb x hx)]; rfl
    · intro r
      simp only [List.mem_append, List.mem_singleton]
      constructor
      · rintro ⟨q, hq, e⟩
        rw [List.getElem?_set]
        by_cases e2 : L.rid x = r
        · rw [if_pos e2]; split_ifs <;> rfl
        · rw [if_neg e2]
          apply (h3 r).1
          rcases hq with hq | rfl
          · exact ⟨q, hq, e⟩
          · exact absurd e e2
      · intro hn
        rw [List.getElem?_set, if_neg (fun e => hn ⟨x, Or.inr rfl, e⟩)]
        exact (h3 r).2 fun ⟨q, hq, e⟩ => hn ⟨q, Or.inl hq, e⟩

section
variable {h0 : Heap} {rows0 HR0 : List Nat} {V0 RW : Nat → List Nat} {M : List (List Nat)} {A : List Nat} {t : TS}
  {m : Matrix}

theorem getP_getD {l : List Nat} {i : Nat} (h : i < l.length) : getP l i = .ok ((l[i]?).getD 0) := by
  rw [getP_ok h, List.getElem?_eq_getElem h]; rfl

/-- The row of an active node is free of conflicts, and conversely. -/
theorem Inv.act_node (B : Bld h0 rows0 HR0 V0 RW M) (I : Inv h0 rows0 HR0 V0 RW M A t m) {q : Nat}
    (hq : (layOf h0 HR0 V0 RW).isNode q) :
    t.Act q ↔ ∀ a ∈ A, conflict M (h0.node q).row a = false := by
  constructor
  · rintro (h | ⟨c, hc, h⟩)
    · exact absurd hq (I.ok.core.sep q (by simp [h]))
    · exact ((I.vmem c hc q).1 h).2
  · intro h
    obtain ⟨c, hc, hqc⟩ := hq
    have hc' : c ∈ t.HR := by
      rw [I.hr]
      refine ⟨hc, fun a ha hac => ?_⟩
      have := h a ha
      rw [Bool.eq_false_iff] at this
      apply this
      rw [B.conflict_iff]
      exact ⟨c, hc, by simp only [rowsOf, List.mem_map]; exact ⟨q, hqc, rfl⟩, hac⟩
    exact Or.inr ⟨c, hc', (I.vmem c hc' q).2 ⟨hqc, h⟩⟩

theorem add_spec (B : Bld h0 rows0 HR0 V0 RW M) (I : Inv h0 rows0 HR0 V0 RW M A t m) (r : Nat) :
    match expected M A r with
    | .index => addSolution m t.h r = .ok (.error .indexError, m, t.h)
    | .invalid => addSolution m t.h r =
        .ok (.error .invalidRow, { m with partialSolution := m.partialSolution ++ [r] }, t.h)
    | .accepted => ∃ t' m', addSolution m t.h r = .ok (.ok (), m', t'.h) ∧
        Inv h0 rows0 HR0 V0 RW M (A ++ [r]) t' m' ∧ m'.partialSolution = m.partialSolution ++ [r]
    | .dangling => addSolution m t.h r = .ub := by
  have G := B.good
  have idx : (∀ col ∈ M, ∀ x ∈ col, x < r) ↔ m.rows.length ≤ r := by
    rw [← not_iff_not]
    rw [not_le, I.rlen, B.rlen]
    simp only [← B.occurs_iff (M := M), Occurs, not_forall, not_lt]
    constructor
    · rintro ⟨col, h1, x, h2, h3⟩; exact ⟨x, ⟨col, h1, h2⟩, h3⟩
    · rintro ⟨x, ⟨col, h1, h2⟩, h3⟩; exact ⟨col, h1, x, h2, h3⟩
  have occ : (∀ col ∈ M, r ∉ col) ↔ RW r = [] := by
    rw [← not_iff_not, ← ne_eq (RW r), ← B.occurs_iff (M := M)]
    simp [Occurs]
  unfold expected
  by_cases c1 : m.rows.length ≤ r
  · rw [if_pos (idx.2 c1)]
    simp only [addSolution, ge_iff_le, c1, if_true]; rfl
  rw [if_neg (fun h => c1 (idx.1 h))]
  have hlt : r < m.rows.length := by omega
  have get := getP_getD hlt
  have base : ∀ x, (m.rows[r]?).getD 0 = x → addSolution m t.h r = (do
      let m := { m with partialSolution := m.partialSolution ++ [r] }
      if x = 0 then
        return (.error .invalidRow, m, t.h)
      let n ← t.h.read x
      let it ← iterSkip1 .down t.h n.header
      let s ← forIter Prod.fst .down it (t.h, m.rows) nullRow
      let m := { m with rows := s.2 }
      let h ← forAll .right t.h x coverColumn
      let h ← forSkip1 .right h x freeChain
      let h ← freeChain h x
      return (.ok (), m, h)) := by
    rintro x rfl
    simp only [addSolution, ge_iff_le, c1, if_false, get, Prog.ok_bind]
  by_cases c2 : RW r = []
  · rw [if_pos (occ.2 c2)]
    have hz : (m.rows[r]?).getD 0 = 0 := by
      by_cases hn : Nulled M A r
      · exact I.nulled r hn
      · rw [I.kept r hn, B.rowsEq, c2]; rfl
    simp only [base 0 hz, if_true]; rfl
  rw [if_neg (fun h => c2 (occ.1 h))]
  obtain ⟨ql, hql⟩ : ∃ q, (RW r).getLast? = some q := by
    rw [List.getLast?_eq_some_getLast c2]; exact ⟨_, rfl⟩
  have qlm : ql ∈ RW r := List.mem_of_getLast? hql
  obtain ⟨⟨c, hc0, hqc⟩, er⟩ := (B.rmem r ql).1 qlm
  have Nq : (layOf h0 HR0 V0 RW).isNode ql := ⟨c, hc0, hqc⟩
  have qb := B.bndV c hc0 ql hqc
  have keep : ¬ Nulled M A r → (m.rows[r]?).getD 0 = ql := by
    intro hn
    rw [I.kept r hn, B.rowsEq, List.getLastD_eq_getLast?, hql]; rfl
  have sets : ∀ (o : Option Nat), A.find? (conflict M r) = o → match o with
      | none => ∃ t' m', addSolution m t.h r = .ok (.ok (), m', t'.h) ∧
        Inv h0 rows0 HR0 V0 RW M (A ++ [r]) t' m' ∧ m'.partialSolution = m.partialSolution ++ [r]
      | some a => if r ∈ lastCol M a then addSolution m t.h r =
        .ok (.error .invalidRow, { m with partialSolution := m.partialSolution ++ [r] }, t.h)
        else addSolution m t.h r = .ub := by
    rintro (_ | a) hf
    · simp only
      rw [List.find?_eq_none] at hf
      have hf' : ∀ a ∈ A, conflict M r a = false := fun a ha => Bool.eq_false_iff.2 (hf a ha)
      have hnn : ¬ Nulled M A r := by
        rintro ⟨a, h1, _⟩
        have := List.find?_some h1
        exact hf a (List.mem_of_find?_eq_some h1) this
      have hact : t.Act ql := (I.act_node B Nq).2 (by rw [er]; exact hf')
      have hc : c ∈ t.HR := by
        rw [I.hr]
        refine ⟨hc0, fun a ha hac => hf a ha ?_⟩
        rw [B.conflict_iff]
        exact ⟨c, hc0, by simp only [rowsOf, List.mem_map]; exact ⟨ql, hqc, er⟩, hac⟩
      have hq : ql ∈ t.V c := (I.vmem c hc ql).2 ⟨hqc, by rw [er]; exact hf'⟩
      have o := I.ok
      set L := layOf h0 HR0 V0 RW with hL
      have colq : L.colOf ql = c := B.hdr c hc0 ql hqc
      have bnd : ∀ q ∈ t.V c, L.rid q < m.rows.length := by
        intro q hq
        rw [I.rlen, B.rlen]
        refine ⟨L.rid q, ?_, le_refl _⟩
        have := ((I.vmem c hc q).1 hq).1
        exact List.ne_nil_of_mem ((B.rmem _ q).2 ⟨⟨c, hc0, this⟩, rfl⟩)
      obtain ⟨it, s, e1, e2, s1, s2, s3⟩ := nullRows_exec G o hc m.rows bnd
      have R := o.rowIn G hc hq
      have hs : ∀ x ∈ ql :: L.oth ql, L.colOf x ∈ t.HR := fun x hx => (o.closed hc hq hx).1
      have e3 := coverRowAll_exec G o R hs
      have csE : (ql :: L.oth ql).map L.colOf = c :: (L.oth ql).map L.colOf := by rw [List.map_cons, colq]
      obtain ⟨h1, h2, e4, e5, nx, fr⟩ := freeRows_exec G o hc hq
        (s := (t.covers L (c :: (L.oth ql).map L.colOf)).h) (fun _ _ _ => rfl)
      rw [← csE] at e4 fr
      set tc := t.covers L ((ql :: L.oth ql).map L.colOf) with htc
      have P : SeqPost L t ((ql :: L.oth ql).map L.colOf) tc := by
        apply covers_spec G _ t o (G.cols_nodup Nq)
        intro d hd
        simp only [List.mem_map] at hd
        obtain ⟨x, hx, rfl⟩ := hd
        exact hs x hx
      have rootN : ¬ t.Act 1 := by
        rintro (h | ⟨d, hd, h⟩)
        · have := o.core.ndH; rw [List.nodup_cons] at this; exact this.1 h
        · exact o.core.sep 1 (by simp [hL, layOf]) (o.core.isN d hd 1 h)
      have same : ∀ p, p = L.root ∨ tc.Act p → h2.mem p = tc.h.mem p := by
        rintro p (rfl | hp)
        · exact (fr _).2 (Or.inl rootN)
        · exact (fr p).2 (Or.inr hp)
      have ok' : (TS.mk h2 tc.HR tc.V).Ok L := P.ok.congr_heap same
      have P' : SeqPost L t ((ql :: L.oth ql).map L.colOf) tc := P
      have colmem : ∀ d, d ∈ HR0 → (d ∈ (ql :: L.oth ql).map L.colOf ↔ r ∈ rowsOf h0 V0 d) := by
        intro d hd
        simp only [List.mem_map, hL, B.rowMem Nq, er, rowsOf]
        constructor
        · rintro ⟨x, hx, e⟩
          obtain ⟨⟨d', hd', hxd⟩, ex⟩ := (B.rmem r x).1 hx
          have : d' = d := (B.hdr d' hd' x hxd).symm.trans e
          subst this
          exact ⟨x, hxd, ex⟩
        · rintro ⟨x, hx, e⟩
          exact ⟨x, (B.rmem r x).2 ⟨⟨d, hd, hx⟩, e⟩, B.hdr d hd x hx⟩
      have lc : lastCol M r = rowsOf h0 V0 c := by
        rw [B.lastCol_eq hql, B.hdr c hc0 ql hqc]
      have nl : ∀ x, Nulled M (A ++ [r]) x ↔ Nulled M A x ∨ ∃ q ∈ t.V c, L.rid q = x := by
        intro x
        unfold Nulled
        rw [List.find?_append]
        constructor
        · rintro ⟨a, h1, h2⟩
          cases hx : A.find? (conflict M x) with
          | some b => rw [hx] at h1; left; simp only [Option.some_or, Option.some.injEq] at h1; exact ⟨a, by rw [h1], h2⟩
          | none =>
            right
            rw [hx] at h1
            simp only [Option.none_or, List.find?_singleton] at h1
            split_ifs at h1 with h3
            simp only [Option.some.injEq] at h1
            subst h1
            rw [lc] at h2
            simp only [rowsOf, List.mem_map] at h2
            obtain ⟨q, hq, e⟩ := h2
            refine ⟨q, (I.vmem c hc q).2 ⟨hq, ?_⟩, e⟩
            rw [List.find?_eq_none] at hx
            rw [e]
            exact fun a ha => Bool.eq_false_iff.2 (hx a ha)
        · rintro (⟨a, h1, h2⟩ | ⟨q, hq, e⟩)
          · exact ⟨a, by rw [h1]; rfl, h2⟩
          · have hv := (I.vmem c hc q).1 hq
            have e' : (h0.node q).row = x := e
            rw [e'] at hv
            have hx : A.find? (conflict M x) = none := by
              rw [List.find?_eq_none]
              intro a ha; rw [hv.2 a ha]; simp
            have hin : x ∈ rowsOf h0 V0 c := by
              simp only [rowsOf, List.mem_map]; exact ⟨q, hv.1, e'⟩
            have hcf : conflict M x r = true := by
              rw [B.conflict_iff]
              exact ⟨c, hc0, hin, by simp only [rowsOf, List.mem_map]; exact ⟨ql, hqc, er⟩⟩
            refine ⟨r, ?_, by rw [lc]; exact hin⟩
            rw [hx]; simp [hcf]
      refine ⟨TS.mk h2 tc.HR tc.V, { m with partialSolution := m.partialSolution ++ [r], rows := s.2 }, ?_, ?_, rfl⟩
      · rw [base ql (keep hnn)]
        have q0 : ql ≠ 0 := by omega
        simp only [q0, if_false, read_ok (o.core.liveV c hc ql hq), Prog.ok_bind, o.core.hdr c hc ql hq, e1, e2,
          Prog.pure_eq, e3, e4, e5 ql (Or.inr rfl)]
      · refine ⟨ok', ?_, ?_, ?_, ?_, ?_, ?_, I.root, by simp only [s2, I.rlen], ?_, ?_, ?_, ?_, ?_,
          (covers_sub L _ t).1.trans I.hsub, fun d => ((covers_sub L _ t).2 d).trans (I.vsub d)⟩
        · have : h2.mem 1 = tc.h.mem 1 := same 1 (Or.inl rfl)
          simp only; rw [node_congr this]; exact P.rootD.trans I.rootD
        · simp only; rw [nx, ← csE]; exact P.next.trans I.next
        · intro p p1 p2
          rcases I.freed p p1 p2 with h | h | h
          · exact Or.inl h
          · by_cases ha : tc.Act p
            · exact Or.inr (Or.inl ha)
            · exact Or.inr (Or.inr ((fr p).1 h ha))
          · have hna : ¬ t.Act p := by
              intro ha
              have : t.h.Live p := by
                rcases ha with ha | ⟨d, hd, ha⟩
                · exact o.core.liveH p ha
                · exact o.core.liveV d hd p ha
              obtain ⟨n, hn⟩ := this
              rw [h] at hn; cases hn
            right; right
            simp only
            rw [(fr p).2 (Or.inl hna)]
            by_cases hp1 : p = 1
            · subst hp1
              have := o.core.liveR
              obtain ⟨n, hn⟩ := this
              rw [show L.root = 1 from rfl, h] at hn; cases hn
            · rw [P.mem p hp1 hna, h]
        · intro p hp
          have hna : ¬ t.Act p := by
            have hu := I.unal p hp
            intro ha
            have : t.h.Live p := by
              rcases ha with ha | ⟨d, hd, ha⟩
              · exact o.core.liveH p ha
              · exact o.core.liveV d hd p ha
            obtain ⟨n, hn⟩ := this
            rw [hu] at hn; cases hn
          simp only
          have := B.one
          rw [(fr p).2 (Or.inl hna), P.mem p (by simp only [hL, layOf]; omega) hna]
          exact I.unal p hp
        · intro d
          simp only [P.hr d, I.hr d, List.mem_append, List.mem_singleton]
          constructor
          · rintro ⟨⟨h3, h4⟩, h5⟩
            refine ⟨h3, ?_⟩
            rintro a (ha | rfl)
            · exact h4 a ha
            · exact fun h => h5 ((colmem d h3).2 h)
          · rintro ⟨h3, h4⟩
            exact ⟨⟨h3, fun a ha => h4 a (Or.inl ha)⟩, fun h => h4 r (Or.inr rfl) ((colmem d h3).1 h)⟩
        · intro d hd q
          have hd' := ((P.hr d).1 hd).1
          have hd0 := ((I.hr d).1 hd').1
          simp only at hd ⊢
          rw [P.vmem d hd q, I.vmem d hd' q]
          have cf : q ∈ V0 d → ((∀ y ∈ q :: L.oth q, L.colOf y ∉ (ql :: L.oth ql).map L.colOf) ↔
              conflict M (h0.node q).row r = false) := by
            intro hqd
            rw [Bool.eq_false_iff, ne_eq, ← er, B.conflict_nodes ⟨d, hd0, hqd⟩ Nq]
            simp only [not_exists, not_and]
            rfl
          constructor
          · rintro ⟨⟨h3, h4⟩, h5⟩
            refine ⟨h3, ?_⟩
            intro a ha
            simp only [List.mem_append, List.mem_singleton] at ha
            rcases ha with ha | rfl
            · exact h4 a ha
            · exact (cf h3).1 h5
          · rintro ⟨h3, h4⟩
            exact ⟨⟨h3, fun a ha => h4 a (by simp [ha])⟩, (cf h3).2 (h4 r (by simp))⟩
        · intro x hx
          simp only
          rcases (nl x).1 hx with h | h
          · by_cases hq' : ∃ q ∈ t.V c, L.rid q = x
            · exact (s3 x).1 hq'
            · rw [(s3 x).2 hq']; exact I.nulled x h
          · exact (s3 x).1 h
        · intro x hx
          have h3 : ¬ Nulled M A x := fun h => hx ((nl x).2 (Or.inl h))
          have h4 : ¬ ∃ q ∈ t.V c, L.rid q = x := fun h => hx ((nl x).2 (Or.inr h))
          simp only
          rw [(s3 x).2 h4]; exact I.kept x h3
        · intro a ha
          simp only [List.mem_append, List.mem_singleton] at ha
          rcases ha with ha | rfl
          · exact I.occ a ha
          · exact B.occurs_iff.2 c2
        · intro S hS
          have hS' : ExC L tc S := ⟨hS.nd, hS.act, hS.one⟩
          have := exC_extend G o hc hq P hS'
          rw [show L.rid ql = r from er] at this
          have := I.ext _ this
          simpa using this
        · intro S hS hA
          have h3 := I.res S hS (fun a ha => hA a (by simp [ha]))
          have hrA : r ∉ A := by
            intro hr
            exact hf r hr (conflict_self (B.occurs_iff.2 c2))
          have h4 : L.rid ql ∈ S.filter (· ∉ A) := by
            rw [show L.rid ql = r from er]
            simp only [List.mem_filter, decide_eq_true_eq]
            exact ⟨hA r (by simp), hrA⟩
          have h5 := exC_restrict G o hc hq P h3 h4
          have e6 : (S.filter (· ∉ A)).erase (L.rid ql) = S.filter (· ∉ A ++ [r]) := by
            rw [(hS.nd.filter _).erase_eq_filter, List.filter_filter]
            apply List.filter_congr
            intro x _
            rw [show L.rid ql = r from er]
            simp [not_or, and_comm]
            rfl
          rw [e6] at h5
          exact ⟨h5.nd, h5.act, h5.one⟩
    · simp only
      have hcf := List.find?_some hf
      have hmem := List.mem_of_find?_eq_some hf
      split_ifs with hl
      · have hz := I.nulled r ⟨a, hf, hl⟩
        simp only [base 0 hz, if_true]; rfl
      · have hnn : ¬ Nulled M A r := by
          rintro ⟨a', h1, h2⟩
          rw [hf] at h1
          simp only [Option.some.injEq] at h1
          subst h1; exact hl h2
        have hna : ¬ t.Act ql := by
          rw [I.act_node B Nq, er]
          intro h
          rw [h a hmem] at hcf; cases hcf
        have hfr : t.h.mem ql = .freed := by
          rcases I.freed ql (by omega) qb.2 with h | h | h
          · omega
          · exact absurd h hna
          · exact h
        rw [base ql (keep hnn)]
        have q0 : ql ≠ 0 := by omega
        simp only [q0, if_false, Heap.read, hfr, Prog.ub_bind]
  have := sets _ rfl
  cases hf : A.find? (conflict M r) with
  | none => rw [hf] at this; exact this
  | some a =>
    rw [hf] at this
    simp only at this ⊢
    split_ifs at this ⊢ with hl
    · exact this
    · exact this

end

end DancingLinks
