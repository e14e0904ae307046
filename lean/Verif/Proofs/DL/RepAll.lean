import Verif.Proofs.DL.Final

/-! What holds of every list of constraints, repetitions included: `drop` after `new`, rows that do not occur, and the
search when a constraint is empty. -/
namespace DancingLinks
open Spec

variable {h : Heap} {rows HR : List Nat} {V RW : Nat → List Nat} {M : List (List Nat)}

theorem BldR.nz (B : BldR h rows HR V RW M) : ∀ q, (layOf h HR V RW).isNode q → q ≠ 0 := by
  rintro q ⟨c, hc, hq⟩
  have := B.bndV c hc q hq
  omega

theorem BldR.drop (B : BldR h rows HR V RW M) (C : Cnt h HR V) (m : Matrix) (hm : m.root = 1) :
    ∃ h', m.drop h = .ok h' ∧ AllFreed h' ∧ h'.next = h.next := by
  have one := B.one
  obtain ⟨h', e, nx, hf⟩ := drop_ok B.nz (B.ok C) B.rootD m hm
  simp only at nx
  refine ⟨h', e, fun p => ?_, nx⟩
  rw [nx]
  refine ⟨fun hp => (hf p).1 (B.part p hp.1 hp.2), fun hp => ?_⟩
  rw [(hf p).2, B.dead p hp]
  rintro (h1 | h1 | ⟨c, hc, h1⟩)
  · simp only [layOf] at h1; omega
  · have := B.bndH p h1; omega
  · have := B.bndV c hc p h1; omega

theorem BldR.row_nil (B : BldR h rows HR V RW M) {r : Nat} : RW r = [] ↔ ∀ col ∈ M, r ∉ col := by
  rw [← B.mat]
  simp only [List.mem_map, forall_exists_index, and_imp, forall_apply_eq_imp_iff₂, List.mem_map, not_exists, not_and]
  rw [List.eq_nil_iff_forall_not_mem]
  constructor
  · intro hn c hc q hq e
    exact hn q ((B.rmem r q).2 ⟨⟨c, hc, hq⟩, e⟩)
  · intro hn q hq
    obtain ⟨⟨c, hc, hqc⟩, e⟩ := (B.rmem r q).1 hq
    exact hn c hc q hqc e

theorem BldR.add_absent (B : BldR h rows HR V RW M) {r : Nat} (hr : ∀ col ∈ M, r ∉ col) (m : Matrix)
    (hm : m.rows = rows) : ∃ m', addSolution m h r =
      .ok (.error (if ∃ col ∈ M, ∃ s ∈ col, r < s then .invalidRow else .indexError), m', h) := by
  have hnil := B.row_nil.2 hr
  have hlen : r < rows.length ↔ ∃ col ∈ M, ∃ s ∈ col, r < s := by
    rw [B.rlen]
    constructor
    · rintro ⟨s, h1, h2⟩
      have : ¬ ∀ col ∈ M, s ∉ col := fun hn => h1 (B.row_nil.2 hn)
      simp only [not_forall, not_not] at this
      obtain ⟨col, hc, hs⟩ := this
      refine ⟨col, hc, s, hs, ?_⟩
      have : r ≠ s := by rintro rfl; exact hr col hc hs
      omega
    · rintro ⟨col, hc, s, hs, hlt⟩
      exact ⟨s, fun hn => B.row_nil.1 hn col hc hs, by omega⟩
  unfold addSolution
  by_cases hl : r < rows.length
  · have h0 : rows[r] = 0 := by
      have := B.rowsEq r
      rw [hnil, List.getElem?_eq_getElem hl] at this
      exact this
    rw [if_neg (by rw [hm]; omega), if_pos (hlen.1 hl)]
    simp only [hm, getP_ok hl, Prog.ok_bind, h0, if_true]
    exact ⟨_, rfl⟩
  · rw [if_pos (by rw [hm]; omega), if_neg (fun h => hl (hlen.2 h))]
    exact ⟨_, rfl⟩

theorem firstShortest_le {M : List (List Nat)} {b : List Nat} (hb : firstShortest M = some b) :
    ∀ d ∈ M, b.length ≤ d.length := by
  induction M generalizing b with
  | nil => simp
  | cons c M ih =>
    intro d hd
    rw [firstShortest] at hb
    cases hM : firstShortest M with
    | none =>
      rw [hM] at hb
      cases M with
      | nil =>
        simp only [Option.some.injEq] at hb
        simp only [List.mem_singleton] at hd
        rw [hd, hb]
      | cons c' M' =>
        exfalso
        rw [firstShortest] at hM
        revert hM
        split
        · simp
        · split <;> simp
    | some a =>
      rw [hM] at hb
      simp only at hb
      have ha := ih hM
      rw [List.mem_cons] at hd
      split at hb <;> simp only [Option.some.injEq] at hb <;> subst hb
      · rcases hd with rfl | hd
        · exact Nat.le_refl _
        · exact Nat.le_trans (by assumption) (ha d hd)
      · rcases hd with rfl | hd
        · omega
        · exact ha d hd

theorem skip_empty {h : Heap} {c : Nat} {d : Dir} (hl : h.Live c) (h0 : c ≠ 0) (hd : (h.node c).get d = c)
    (body : Heap → Nat → Prog Heap) : forSkip1 d h c body = .ok h := by
  unfold forSkip1
  rw [iterSkip1_ok (l := []) hl h0 (by simp) (by simpa using hd), Prog.ok_bind]
  rw [forIter, next_nil]
  rfl

theorem BldR.solve_empty (B : BldR h rows HR V RW M) (C : Cnt h HR V) (he : [] ∈ M) (ps : List Nat) :
    solveHelper 1 h ps = .ok (false, h, ps) := by
  have o := B.ok C
  have hne : HR ≠ [] := by
    rintro rfl
    rw [← B.mat] at he
    cases he
  rw [solveHelper]
  have e1 := isEmpty_spec o
  simp only [layOf, hne, decide_false] at e1
  rw [e1]
  simp only [Prog.ok_bind, Bool.false_eq_true, if_false]
  obtain ⟨c, e, hc, fs⟩ := chooseColumn_spec o hne
  simp only at hc
  have hV : V c = [] := by
    have habs : [] ∈ (TS.mk h HR V).abs (layOf h HR V RW) := by
      have : (TS.mk h HR V).abs (layOf h HR V RW) = M := B.mat
      rw [this]; exact he
    have := firstShortest_le fs [] habs
    simpa using this
  have hlc := o.core.liveH c hc
  have hnz := o.core.c_ne_zero hc
  have ring := o.core.vring c hc
  simp only at ring hlc
  rw [hV] at ring
  have hd : (h.node c).get .down = c := by simpa using ring.first
  have hu : (h.node c).get .up = c := by
    have := ring.reverse.first
    simpa [Dir.opp] using this
  have can := (o.core.canH hc).1
  have hcn : (unlH h c).node c = h.node c := node_congr (o.core.unlH_frame hc (Or.inr rfl))
  have hcl : (unlH h c).Live c := unlH_live hlc
  have e' : chooseColumn h 1 = .ok c := e
  rw [e']
  simp only [Prog.ok_bind]
  rw [coverColumn_eq (toHeader_hdr hlc (o.core.hdr0 c hc))]
  unfold coverHd
  rw [coverHorizontal_ok can, Prog.ok_bind, skip_empty hcl hnz (by rw [hcn]; exact hd), Prog.ok_bind,
    iterSkip1_ok (l := []) hcl hnz (by simp) (by rw [hcn]; simpa using hd), Prog.ok_bind, solveRows, next_nil]
  simp only [Prog.ok_bind]
  rw [uncoverColumn_eq (toHeader_hdr hcl (by rw [hcn]; exact o.core.hdr0 c hc))]
  unfold uncoverHd
  rw [skip_empty hcl hnz (by rw [hcn]; exact hu), Prog.ok_bind, uncoverHorizontal_unlH can]
  rfl

end DancingLinks
