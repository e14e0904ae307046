import Verif.Proofs.DL.WorkRows
import Verif.Spec.Allocator

/-! Helper lemmas: the work of `solve_helper`, `solve`, `add_solution` and `new`. -/
namespace DancingLinks
open Spec

variable {L : Lay} {t : TS}

/-- The same result as `r`, with a counter of at most `k`. -/
def Within (r : Prog (Bool × Heap × List Nat)) (w : Prog (Bool × Work × List Nat)) (k : Nat) : Prop :=
  ∃ f h ps k', r = .ok (f, h, ps) ∧ w = .ok (f, (h, k'), ps) ∧ k' ≤ k

theorem workRows_within (G : L.Good) (o : t.Ok L) {c : Nat} (hc : c ∈ t.HR) {n : Nat} (hn : t.HR.length ≤ n + 1) {B : Nat}
    (hB : t.W + 1 ≤ B)
    (ih : ∀ q ∈ t.V c, ∀ ps k, ∃ f h ps' k', solveHelper L.root (t.covers L ((q :: L.oth q).map L.colOf)).h ps = .ok (f, h, ps') ∧
      workHelper L.root ((t.covers L ((q :: L.oth q).map L.colOf)).h, k) ps = .ok (f, (h, k'), ps') ∧
      k' + 8 * B ≤ k + 15 * B * visits n (residual (t.abs L) [L.rid q]))
    (ps : List Nat) : ∀ post pre, t.V c = pre ++ post → ∀ k,
      Within (solveRows L.root c (iterAt c post) (t.cover L c).h ps) (workRows L.root c (iterAt c post) ((t.cover L c).h, k) ps)
        (k + 1 + 3 * t.W + 15 * B * ((tried (fun r => (search n (residual (t.abs L) [r])).isSome) (post.map L.rid)).map
          fun r => visits n (residual (t.abs L) [r])).sum) := by
  have F := o.frame G hc
  have M := o.mid G hc
  have Wc := o.W_cover G hc
  intro post
  induction post with
  | nil =>
    intro pre _ k
    have et := toHeader_hdr M.live (by rw [F.header]; exact o.core.hdr0 c hc)
    refine ⟨false, t.h, ps, k + 1 + colWork L (t.V c), ?_, ?_, ?_⟩
    · rw [solveRows, next_nil]
      simp only [Prog.ok_bind]
      rw [uncoverColumn_eq et, o.uncover_exec G hc]
      rfl
    · rw [workRows, next_nil]
      simp only [Prog.ok_bind]
      rw [workUncover_eq et, workUncoverHd_spec G o hc]
      rfl
    · have := colWork_le (L := L) c (t.V c)
      simp only [List.map_nil, tried, List.sum_nil]
      omega
  | cons q post ihp =>
    intro pre hV k
    have hq : q ∈ t.V c := by rw [hV]; simp
    have Nq := o.core.isN c hc q hq
    have Rq := o.rowIn G hc hq
    have o1 := o.cover G hc
    have nd := G.cols_nodup Nq
    have ecol : (q :: L.oth q).map L.colOf = c :: (L.oth q).map L.colOf := by
      rw [List.map_cons, o.core.col c hc q hq]
    have P1 := covers_spec G [c] t o (by simp) (by simpa using hc)
    have R1 : RowIn L (t.cover L c) q := Rq.seq P1
    have hs1 : ∀ x ∈ L.oth q, L.colOf x ∈ (t.cover L c).HR := by
      intro x hx
      refine (List.mem_erase_of_ne ?_).2 (o.closed hc hq (by simp [hx])).1
      have := G.col_ne Nq hx
      rwa [o.core.col c hc q hq] at this
    have P := covers_spec G ((q :: L.oth q).map L.colOf) t o nd (by
      intro d hd; simp only [List.mem_map] at hd
      obtain ⟨x, hx, rfl⟩ := hd; exact (o.closed hc hq hx).1)
    have et : (t.cover L c).covers L ((L.oth q).map L.colOf) = t.covers L ((q :: L.oth q).map L.colOf) := by
      rw [ecol]; rfl
    have hlt : (t.covers L ((q :: L.oth q).map L.colOf)).HR.length < t.HR.length := by
      have := P.len; simp only [List.map_cons, List.length_cons] at this ⊢; omega
    have hcpost : c ∉ post := by
      have := (List.nodup_cons.1 (o.core.vnodup hc)).1
      rw [hV] at this; simp at this; tauto
    have hnx := next_cons (R1.live q (by simp)) (G.nz q Nq) (by
        have := M.ring; rw [hV] at this; exact this.next) hcpost
    rw [workRows, solveRows, hnx]
    simp only [Prog.ok_bind]
    rw [read_ok (R1.live q (by simp))]
    simp only [Prog.ok_bind]
    obtain ⟨k1, e1, b1⟩ := workCoverRow G o1 R1 hs1 (k + 1)
    rw [coverRow_exec G o1 R1 hs1, e1, et]
    rw [et] at b1
    simp only [Prog.ok_bind]
    generalize hr : ((t.cover L c).h.node q).row = r
    obtain ⟨f, h2, ps2, k2, e2, e3, b2⟩ := ih q hq (ps ++ [r]) k1
    rcases solveHelper_spec G _ _ P.ok rfl (ps ++ [r]) with ⟨S, h', e, E, Fr, Sr⟩ | ⟨e, _, Sr⟩
    · have hs := Sr n (by omega)
      rw [abs_covers G o hc hq] at hs
      rw [e] at e2
      obtain ⟨rfl, rfl, rfl⟩ : true = f ∧ h' = h2 ∧ ps ++ [r] ++ S = ps2 := by
        simpa using e2
      have hkeep : ∀ p, p ≠ L.root → ¬ (t.covers L (c :: (L.oth q).map L.colOf)).Act p →
          h'.mem p = (t.covers L (c :: (L.oth q).map L.colOf)).h.mem p := by
        rw [← ecol]; exact Fr.keep
      obtain ⟨s', s'', k3, k4, f1, f2, f3, b3⟩ := workFreeRows G o hc hq hkeep k2
      obtain ⟨f4, f5⟩ := f3 c (Or.inl rfl)
      refine ⟨true, s'', ps ++ [r] ++ S, k4, ?_, ?_, ?_⟩
      · rw [e]
        simp only [Prog.ok_bind, if_true, f1, f4, Prog.pure_eq]
      · rw [e3]
        simp only [Prog.ok_bind, if_true, f2, f5, Prog.pure_eq]
      · rw [← ecol] at b3
        simp only [List.map_cons, tried, hs, Option.isSome_some, if_true, List.map_nil, List.sum_cons, List.sum_nil, Nat.add_zero]
        omega
    · have hs := Sr n (by omega)
      rw [abs_covers G o hc hq] at hs
      rw [e] at e2
      obtain ⟨rfl, rfl, rfl⟩ : false = f ∧ (t.covers L ((q :: L.oth q).map L.colOf)).h = h2 ∧ ps ++ [r] = ps2 := by
        simpa using e2
      obtain ⟨k3, e4, b3⟩ := workUncoverRow G o1 R1 hs1 k2
      obtain ⟨f, h5, ps5, k5, g1, g2, b5⟩ := ihp (pre ++ [q]) (by simp [hV]) k3
      rw [et] at e4 b3
      refine ⟨f, h5, ps5, k5, ?_, ?_, ?_⟩
      · rw [e]
        simp only [Prog.ok_bind, Bool.false_eq_true, if_false]
        rw [← et, uncoverRow_exec G o1 R1 hs1]
        simp only [Prog.ok_bind, List.dropLast_concat]
        exact g1
      · rw [e3]
        simp only [Prog.ok_bind, Bool.false_eq_true, if_false]
        rw [e4]
        simp only [Prog.ok_bind, List.dropLast_concat]
        exact g2
      · simp only [List.map_cons, tried, hs, Option.isSome_none, List.sum_cons, Bool.false_eq_true, if_false, Nat.mul_add]
        omega

theorem workHelper_within (G : L.Good) {B : Nat} : ∀ (n : Nat) (t : TS), t.Ok L → t.HR.length ≤ n → t.W + 1 ≤ B → ∀ ps k,
    ∃ f h ps' k', solveHelper L.root t.h ps = .ok (f, h, ps') ∧ workHelper L.root (t.h, k) ps = .ok (f, (h, k'), ps') ∧
      k' + 8 * B ≤ k + 15 * B * visits n (t.abs L) := by
  intro n
  induction n with
  | zero =>
    intro t o hn hB ps k
    have hE : t.HR = [] := List.length_eq_zero_iff.1 (by omega)
    refine ⟨true, t.h, ps, k, ?_, ?_, ?_⟩
    · rw [solveHelper, isEmpty_spec o]
      simp only [Prog.ok_bind, hE, decide_true, if_true, Prog.pure_eq]
    · rw [workHelper]
      simp only [isEmpty_spec o, Prog.ok_bind, hE, decide_true, if_true, Prog.pure_eq]
    · simp only [visits]; omega
  | succ n ih =>
    intro t o hn hB ps k
    by_cases hE : t.HR = []
    · refine ⟨true, t.h, ps, k, ?_, ?_, ?_⟩
      · rw [solveHelper, isEmpty_spec o]
        simp only [Prog.ok_bind, hE, decide_true, if_true, Prog.pure_eq]
      · rw [workHelper]
        simp only [isEmpty_spec o, Prog.ok_bind, hE, decide_true, if_true, Prog.pure_eq]
      · simp only [visits, TS.abs, hE, List.map_nil, firstShortest]; omega
    · obtain ⟨c, e, e', hc, fs⟩ := workChoose_spec o hE k
      have M := o.mid G hc
      have et := toHeader_hdr (o.core.liveH c hc) (o.core.hdr0 c hc)
      have key := workRows_within G o hc hn hB (fun q hq ps k => ?_) ps (t.V c) [] rfl
        (k + 2 + t.HR.length + colWork L (t.V c) + 1)
      · obtain ⟨f, h, ps', k', g1, g2, b⟩ := key
        refine ⟨f, h, ps', k', ?_, ?_, ?_⟩
        · rw [solveHelper, isEmpty_spec o]
          simp only [Prog.ok_bind, hE, decide_false, Bool.false_eq_true, if_false, e]
          rw [coverColumn_eq et, o.cover_exec G hc]
          simp only [Prog.ok_bind]
          rw [iterSkip1_ok M.live (o.core.c_ne_zero hc) (List.nodup_cons.1 (o.core.vnodup hc)).1 M.ring.first]
          exact g1
        · rw [workHelper]
          simp only [isEmpty_spec o, Prog.ok_bind, hE, decide_false, Bool.false_eq_true, if_false, e']
          rw [workCover_eq (s := (t.h, k + 2 + t.HR.length)) et, workCoverHd_spec G o hc]
          simp only [Prog.ok_bind]
          rw [iterSkip1_ok M.live (o.core.c_ne_zero hc) (List.nodup_cons.1 (o.core.vnodup hc)).1 M.ring.first]
          exact g2
        · have h1 := colWork_le (L := L) c (t.V c)
          have h2 := o.W_cover G hc
          have h3 : t.HR.length ≤ t.W := by simp [TS.W, TS.items]
          simp only [visits, fs, Nat.mul_add]
          omega
      · have Nq := o.core.isN c hc q hq
        have P := covers_spec G ((q :: L.oth q).map L.colOf) t o (G.cols_nodup Nq) (by
          intro d hd; simp only [List.mem_map] at hd
          obtain ⟨x, hx, rfl⟩ := hd; exact (o.closed hc hq hx).1)
        have h1 := P.len
        have h2 := P.W_eq o (G.cols_nodup Nq)
        simp only [List.map_cons, List.length_cons, List.length_map] at h1
        rw [← abs_covers G o hc hq]
        refine ih _ P.ok ?_ ?_ ps k
        · simp only [List.map_cons]; omega
        · omega

theorem workDrop_empty {h : Heap} {r : Nat} (hl : h.Live r) (h0 : r ≠ 0) (hr : (h.node r).right = r)
    (hd : (h.node r).down = r) (m : Matrix) (hm : m.root = r) (k : Nat) :
    ∃ h', workDrop m (h, k) = .ok (h', k + 4) := by
  refine ⟨freeSet h [r], ?_⟩
  unfold workDrop
  rw [hm]
  have inner : workAll .down (h, k + 1) r (still Heap.dealloc) = .ok (freeSet h [r], k + 3) := by
    have key := workAll_spec .down r [] (still Heap.dealloc) (fun pre s => s = (freeSet h pre, k + 1 + pre.length))
      (by simpa using h0.symm) (by simp) (h, k + 1) (by rw [freeSet_nil]; rfl) ?_
    · obtain ⟨h', e, rfl⟩ := key; exact e
    · rintro pre x post s e rfl
      cases pre with
      | nil =>
        simp only [List.nil_append, List.cons.injEq] at e
        obtain ⟨rfl, rfl⟩ := e
        rw [freeSet_nil]
        exact ⟨hl, by simpa [Node.get] using hd, _, still_ok (dealloc_free hl), by simp⟩
      | cons y pre => simp at e
  have key := workAll_spec .right r [] (fun s header => workAll .down s header (still Heap.dealloc))
    (fun pre s => s = (freeSet h pre, k + 3 * pre.length)) (by simpa using h0.symm) (by simp) (h, k)
    (by rw [freeSet_nil]; rfl) ?_
  · obtain ⟨h', e, rfl⟩ := key; exact e
  · rintro pre x post s e rfl
    cases pre with
    | nil =>
      simp only [List.nil_append, List.cons.injEq] at e
      obtain ⟨rfl, rfl⟩ := e
      rw [freeSet_nil]
      exact ⟨hl, by simpa [Node.get] using hr, _, inner, by simp⟩
    | cons y pre => simp at e

theorem W_abs (t : TS) (L : Lay) : t.W + 1 = nodes (t.abs L) := by
  simp [TS.W, TS.items, nodes, TS.abs, List.length_flatMap, List.length_flatten, Function.comp_def]
  omega

theorem workSolve_hist {M : List (List Nat)} {log m h} (H : HInv M log m h) {n : Nat}
    (hn : (residual M (accepted log)).length ≤ n) (k : Nat) :
    ∃ res h' k', m.solve h = .ok (res, h') ∧ workSolve m (h, k) = .ok (res, (h', k')) ∧
      k' ≤ k + 15 * nodes (residual M (accepted log)) * visits n (residual M (accepted log)) := by
  obtain ⟨h0, rows0, HR0, V0, RW, B, C, t, I, rfl, hp⟩ := H
  have G := B.good
  have rt : m.root = (layOf h0 HR0 V0 RW).root := I.root
  have ha := abs_hist B I
  have o := I.ok
  have hl : t.HR.length ≤ n := by
    have := congrArg List.length ha
    simp only [TS.abs, List.length_map] at this
    omega
  have hW := W_abs t (layOf h0 HR0 V0 RW)
  obtain ⟨f, h1, ps, k1, e1, e2, b1⟩ := workHelper_within G n t o hl (Nat.le_refl _) m.partialSolution k
  rw [ha] at b1 hW
  rw [hW] at b1
  rcases solveHelper_spec G _ t o rfl m.partialSolution with ⟨S, h', e, E, F, X⟩ | ⟨e, N, X⟩
  · rw [e] at e1
    obtain ⟨rfl, rfl, rfl⟩ : true = f ∧ h' = h1 ∧ m.partialSolution ++ S = ps := by simpa using e1
    obtain ⟨h2, g2⟩ := workDrop_empty F.live (show (layOf h0 HR0 V0 RW).root ≠ 0 by simp [layOf]) F.right
      (F.down.trans I.rootD) m rt k1
    have g1 := workDrop_forgets m _ _ g2
    refine ⟨.ok (m.partialSolution ++ S), h2, k1 + 4, ?_, ?_, ?_⟩
    · rw [Matrix.solve, rt, e]
      simp only [Prog.ok_bind]
      rw [show m.drop h' = .ok h2 from g1]; rfl
    · rw [workSolve, rt, e2]
      simp only [Prog.ok_bind]
      rw [show workDrop m (h', k1) = .ok (h2, k1 + 4) from g2]; rfl
    · omega
  · rw [e] at e1
    obtain ⟨rfl, rfl, rfl⟩ : false = f ∧ t.h = h1 ∧ m.partialSolution = ps := by simpa using e1
    obtain ⟨h2, k2, g1, g2, b2⟩ := workDrop_spec G o I.rootD m rt k1
    refine ⟨.error .noSolution, h2, k2, ?_, ?_, ?_⟩
    · rw [Matrix.solve, rt, e]
      simp only [Prog.ok_bind, g1]; rfl
    · rw [workSolve, rt, e2]
      simp only [Prog.ok_bind, g2]; rfl
    · omega

theorem workNull {L : Lay} {t : TS} (G : L.Good) (o : t.Ok L) {c : Nat} (hc : c ∈ t.HR) (rows : List Nat)
    (hb : ∀ q ∈ t.V c, L.rid q < rows.length) (k : Nat) :
    ∃ it s, iterSkip1 .down t.h c = .ok it ∧ forIter Prod.fst .down it (t.h, rows) nullRow = .ok s ∧
      forIter (fun t : (Heap × List Nat) × Nat => t.1.1) .down it ((t.h, rows), k) (fun t p => do
        let u ← nullRow t.1 p
        return (u, t.2 + 1)) = .ok (s, k + (t.V c).length) := by
  have nd := List.nodup_cons.1 (o.core.vnodup hc)
  have n0 : 0 ∉ t.V c := fun h => G.nz 0 (o.core.isN c hc 0 h) rfl
  have key := forIter_spec (fun t : (Heap × List Nat) × Nat => t.1.1) .down c (t.V c) (fun t p => do
        let u ← nullRow t.1 p
        return (u, t.2 + 1))
    (fun pre s => s.1.1 = t.h ∧ s.1.2.length = rows.length ∧ s.2 = k + pre.length) n0 (fun h => nd.1 (List.mem_of_mem_tail h)) ?_
    ((t.h, rows), k) ⟨rfl, rfl, rfl⟩
  · obtain ⟨⟨s, k'⟩, e, I1, I2, I3⟩ := key
    simp only at I3
    subst I3
    have e2 := forIter_forget (Prod.fst : Heap × List Nat → Heap) Prod.fst .down nullRow
      (fun t p => do let u ← nullRow t.1 p; return (u, t.2 + 1)) (by
        intro t p t' h
        rw [Prog.bind_eq_ok] at h
        obtain ⟨u, h1, h2⟩ := h
        simp only [Prog.pure_eq, Prog.ok.injEq] at h2
        rw [h1, ← h2]) _ _ _ e
    exact ⟨_, s, iterSkip1_ok (o.core.liveH c hc) (o.core.c_ne_zero hc) nd.1 (o.core.vring c hc).first, e2, e⟩
  · rintro pre x post ⟨⟨h, rs⟩, k'⟩ hV ⟨h1, h2, h3⟩
    simp only at h1 h2 h3; subst h1
    have hx : x ∈ t.V c := by rw [hV]; simp
    refine ⟨o.core.liveV c hc x hx, ?_, ((t.h, rs.set (L.rid x) 0), k' + 1), ?_, rfl, by simpa using h2, ?_⟩
    · have := o.core.vring c hc; rw [hV] at this; exact this.next
    · simp only [nullRow, read_ok (o.core.liveV c hc x hx), Prog.ok_bind, o.rows.rid c hc x hx]
      rw [setP_ok (by rw [h2]; exact hb x hx)]; rfl
    · simp only [List.length_append, List.length_cons, List.length_nil]; omega

end DancingLinks
