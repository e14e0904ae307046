import Verif.Proofs.DL.Final
import Verif.Spec.Calls

/-! Helper lemmas: the number of calls of `solve_helper`. -/
namespace DancingLinks
open Spec

variable {L : Lay} {t : TS}

/-- A result of `solve_helper` with a counter added. -/
def withCount (k : Nat) (r : Prog (Bool × Heap × List Nat)) : Prog (Bool × Heap × List Nat × Nat) := do
  let (f, h, ps) ← r
  return (f, h, ps, k)

theorem countedRows_eq (G : L.Good) (o : t.Ok L) {c : Nat} (hc : c ∈ t.HR) {n : Nat} (hn : t.HR.length ≤ n + 1)
    (ih : ∀ q ∈ t.V c, ∀ ps k, countedHelper L.root (t.covers L ((q :: L.oth q).map L.colOf)).h ps k =
      withCount (k + visits n (residual (t.abs L) [L.rid q]))
        (solveHelper L.root (t.covers L ((q :: L.oth q).map L.colOf)).h ps))
    (ps : List Nat) : ∀ post pre, t.V c = pre ++ post → ∀ k,
      countedRows L.root c (iterAt c post) (t.cover L c).h ps k = withCount
        (k + ((tried (fun r => (search n (residual (t.abs L) [r])).isSome) (post.map L.rid)).map
          fun r => visits n (residual (t.abs L) [r])).sum)
        (solveRows L.root c (iterAt c post) (t.cover L c).h ps) := by
  have F := o.frame G hc
  have M := o.mid G hc
  intro post
  induction post with
  | nil =>
    intro pre _ k
    rw [countedRows, solveRows, next_nil]
    simp only [Prog.ok_bind, withCount, tried, List.map_nil, List.sum_nil, Nat.add_zero]
    rw [uncoverColumn_eq (toHeader_hdr M.live (by rw [F.header]; exact o.core.hdr0 c hc)),
      o.uncover_exec G hc]
    rfl
  | cons q post ihp =>
    intro pre hV k
    have hq : q ∈ t.V c := by rw [hV]; simp
    have Nq := o.core.isN c hc q hq
    have Rq := o.rowIn G hc hq
    have o1 := o.cover G hc
    have nd := G.cols_nodup Nq
    have ecol : (q :: L.oth q).map L.colOf = c :: (L.oth q).map L.colOf := by
      rw [List.map_cons, o.core.col c hc q hq]
    have P1 := covers_spec G [c] t o (by simp) (by simpa using hc)
    have R1 : RowIn L (t.cover L c) q := Rq.seq P1
    have hs1 : ∀ x ∈ L.oth q, L.colOf x ∈ (t.cover L c).HR := by
      intro x hx
      refine (List.mem_erase_of_ne ?_).2 (o.closed hc hq (by simp [hx])).1
      have := G.col_ne Nq hx
      rwa [o.core.col c hc q hq] at this
    have P := covers_spec G ((q :: L.oth q).map L.colOf) t o nd (by
      intro d hd; simp only [List.mem_map] at hd
      obtain ⟨x, hx, rfl⟩ := hd; exact (o.closed hc hq hx).1)
    have et : (t.cover L c).covers L ((L.oth q).map L.colOf) = t.covers L ((q :: L.oth q).map L.colOf) := by
      rw [ecol]; rfl
    have hlt : (t.covers L ((q :: L.oth q).map L.colOf)).HR.length < t.HR.length := by
      have := P.len; simp only [List.map_cons, List.length_cons] at this ⊢; omega
    have hcpost : c ∉ post := by
      have := (List.nodup_cons.1 (o.core.vnodup hc)).1
      rw [hV] at this; simp at this; tauto
    have hnx := next_cons (R1.live q (by simp)) (G.nz q Nq) (by
        have := M.ring; rw [hV] at this; exact this.next) hcpost
    rw [countedRows, solveRows, hnx]
    simp only [Prog.ok_bind]
    rw [read_ok (R1.live q (by simp))]
    simp only [Prog.ok_bind]
    rw [coverRow_exec G o1 R1 hs1, et]
    simp only [Prog.ok_bind]
    rw [ih q hq]
    generalize ((t.cover L c).h.node q).row = r
    rcases solveHelper_spec G _ _ P.ok rfl (ps ++ [r]) with ⟨S, h', e, E, Fr, Sr⟩ | ⟨e, _, Sr⟩
    · have hs := Sr n (by omega)
      rw [abs_covers G o hc hq] at hs
      rw [e]
      simp only [withCount, Prog.ok_bind, Prog.pure_eq, if_true, List.map_cons, tried, hs, Option.isSome_some,
        List.map_nil, List.sum_cons, List.sum_nil, Nat.add_zero, bind_assoc]
    · have hs := Sr n (by omega)
      rw [abs_covers G o hc hq] at hs
      rw [e]
      simp only [withCount, Prog.ok_bind, Prog.pure_eq, Bool.false_eq_true, if_false]
      rw [← et, uncoverRow_exec G o1 R1 hs1]
      simp only [Prog.ok_bind, List.dropLast_concat]
      rw [ihp (pre ++ [q]) (by simp [hV])]
      simp only [withCount, Nat.add_assoc, List.map_cons, tried, hs, Option.isSome_none, List.sum_cons, Bool.false_eq_true,
        if_false, Prog.pure_eq]

theorem countedHelper_eq (G : L.Good) : ∀ (n : Nat) (t : TS), t.Ok L → t.HR.length ≤ n → ∀ ps k,
    countedHelper L.root t.h ps k = withCount (k + visits n (t.abs L)) (solveHelper L.root t.h ps) := by
  intro n
  induction n with
  | zero =>
    intro t o hn ps k
    rw [countedHelper, solveHelper, isEmpty_spec o]
    have hE : t.HR = [] := List.length_eq_zero_iff.1 (by omega)
    simp only [Prog.ok_bind, hE, decide_true, if_true, visits]
    rfl
  | succ n ih =>
    intro t o hn ps k
    rw [countedHelper, solveHelper, isEmpty_spec o]
    simp only [Prog.ok_bind]
    by_cases hE : t.HR = []
    · simp only [hE, decide_true, if_true, visits, TS.abs, List.map_nil, firstShortest]
      rfl
    · simp only [hE, decide_false, Bool.false_eq_true, if_false]
      obtain ⟨c, e, hc, fs⟩ := chooseColumn_spec o hE
      rw [e]
      simp only [Prog.ok_bind]
      rw [coverColumn_eq (toHeader_hdr (o.core.liveH c hc) (o.core.hdr0 c hc)), o.cover_exec G hc]
      simp only [Prog.ok_bind]
      have M := o.mid G hc
      rw [iterSkip1_ok M.live (o.core.c_ne_zero hc) (List.nodup_cons.1 (o.core.vnodup hc)).1 M.ring.first]
      simp only [Prog.ok_bind]
      rw [countedRows_eq G o hc hn (fun q hq ps k => ?_) ps _ [] rfl]
      · simp only [visits, fs, Nat.add_assoc]
      · have Nq := o.core.isN c hc q hq
        have P := covers_spec G ((q :: L.oth q).map L.colOf) t o (G.cols_nodup Nq) (by
          intro d hd; simp only [List.mem_map] at hd
          obtain ⟨x, hx, rfl⟩ := hd; exact (o.closed hc hq hx).1)
        rw [ih _ P.ok ?_ ps k, abs_covers G o hc hq]
        have h1 := P.len
        simp only [List.map_cons, List.length_cons, List.length_map] at h1 ⊢
        omega

theorem countedSolve_hist {M : List (List Nat)} {log m h} (H : HInv M log m h) {n : Nat}
    (hn : (residual M (accepted log)).length ≤ n) :
    countedSolve m h = (do let r ← m.solve h; return (r, visits n (residual M (accepted log)))) := by
  obtain ⟨h0, rows0, HR0, V0, RW, B, C, t, I, rfl, hp⟩ := H
  have rt : m.root = (layOf h0 HR0 V0 RW).root := I.root
  unfold countedSolve Matrix.solve
  have ha := abs_hist B I
  rw [rt, countedHelper_eq B.good n t I.ok ?_, ha]
  · simp only [withCount, bind_assoc, Prog.pure_eq, Prog.ok_bind, Nat.zero_add]
    cases solveHelper (layOf h0 HR0 V0 RW).root t.h m.partialSolution with
    | ok r =>
      obtain ⟨f, h1, ps⟩ := r
      simp only [Prog.ok_bind]
      cases m.drop h1 with
      | ok h2 => cases f <;> rfl
      | _ => rfl
    | _ => rfl
  · have := congrArg List.length ha
    simp only [TS.abs, List.length_map] at this
    omega

end DancingLinks
