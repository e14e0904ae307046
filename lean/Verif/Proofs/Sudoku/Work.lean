import Verif.Proofs.DL.WorkAdd
import Verif.Proofs.DL.Session
import Verif.Proofs.Sudoku.Singles

/-!
The pointer-level work of `Drop` after any history, and of `solve_sudoku`.
-/
namespace DancingLinks
open DancingLinks.Spec

/-- The length of the table of rows, after any history. -/
theorem rows_le {M : List (List Nat)} {log m h} (H : HInv M log m h) (r : Nat) :
    m.rows.length ≤ r ↔ ∀ col ∈ M, ∀ x ∈ col, x < r := by
  obtain ⟨h0, rows0, HR0, V0, RW, B, C, t, I, rfl, hp⟩ := H
  rw [← not_iff_not, not_le, I.rlen, B.rlen]
  simp only [← B.occurs_iff (M := M), Occurs, not_forall, not_lt]
  constructor
  · rintro ⟨x, ⟨col, h1, h2⟩, h3⟩; exact ⟨col, h1, x, h2, h3⟩
  · rintro ⟨col, h1, x, h2, h3⟩; exact ⟨x, ⟨col, h1, h2⟩, h3⟩

theorem rows_eq {M : List (List Nat)} {log m h log' m' h'} (H : HInv M log m h) (H' : HInv M log' m' h') :
    m.rows.length = m'.rows.length :=
  Nat.le_antisymm ((rows_le H _).2 ((rows_le H' _).1 (Nat.le_refl _))) ((rows_le H' _).2 ((rows_le H _).1 (Nat.le_refl _)))

theorem workDrop_hist {M : List (List Nat)} {log m h} (H : HInv M log m h) (k : Nat) :
    ∃ h' k', m.drop h = .ok h' ∧ workDrop m (h, k) = .ok (h', k') ∧ k' ≤ k + 4 * nodes (residual M (accepted log)) := by
  obtain ⟨h0, rows0, HR0, V0, RW, B, C, t, I, rfl, hp⟩ := H
  have hW := W_abs t (layOf h0 HR0 V0 RW)
  rw [abs_hist B I] at hW
  obtain ⟨h', k', e1, e2, b⟩ := workDrop_spec B.good I.ok I.rootD m I.root k
  exact ⟨h', k', e1, e2, by rw [← hW]; exact b⟩

end DancingLinks

namespace Sudoku
open DancingLinks DancingLinks.Spec Sudoku.Spec

attribute [local irreducible] constraints

theorem workGivens_hist : ∀ (l : List (UInt8 × Nat)) {log m h} (_ : Hist constraints log m h) {go m' h'}
    (_ : addGivens l m h = .ok (go, m', h')) (k : Nat), ∃ k', workGivens l m (h, k) = .ok (go, m', (h', k')) ∧
      k' ≤ k + 2 * l.length + 11 * nodes (residual constraints (accepted log)) := by
  intro l
  induction l with
  | nil =>
    intro log m h H go m' h' e k
    simp only [addGivens, Prog.ok.injEq, Prod.mk.injEq] at e
    obtain ⟨rfl, rfl, rfl⟩ := e
    exact ⟨k, rfl, by omega⟩
  | cons x l ih =>
    obtain ⟨v, i⟩ := x
    intro log m h H go m' h' e k
    simp only [addGivens] at e
    simp only [workGivens, List.length_cons]
    by_cases hv : v = 0
    · rw [if_pos hv] at e ⊢
      obtain ⟨k', e', b⟩ := ih H e (k + 1)
      exact ⟨k', e', by omega⟩
    · rw [if_neg hv] at e ⊢
      simp only [Prog.bind_eq_ok] at e
      obtain ⟨⟨res, m1, h1⟩, e1, e2⟩ := e
      obtain ⟨k1, w1, b1⟩ := workAdd_hist (hist_inv constraints_nodup H) e1 (k + 1)
      rw [w1]
      simp only [Prog.ok_bind]
      have H1 := Hist.add H e1
      rcases res with (_ | _ | _) | _
      · obtain ⟨k', e', b⟩ := ih H1 e2 k1
        exact ⟨k', e', by omega⟩
      · simp only [Prog.ok.injEq, Prod.mk.injEq] at e2
        obtain ⟨rfl, rfl, rfl⟩ := e2
        exact ⟨k1, rfl, by omega⟩
      · obtain ⟨k', e', b⟩ := ih H1 e2 k1
        exact ⟨k', e', by omega⟩
      · obtain ⟨k', e', b⟩ := ih H1 e2 k1
        exact ⟨k', e', by omega⟩

/-- Whenever `solve_sudoku` returns, the counted copy returns the same and has made a bounded number of steps. -/
theorem workSudoku_le (p : List UInt8) {res : Except SudokuError (List UInt8)} {h : Heap}
    (e : solveSudoku p = .ok (res, h)) {n : Nat} (hn : countedSudoku p = .ok ((res, h), n)) :
    ∃ k, workSudoku p = .ok (res, (h, k)) ∧ k ≤ 48615 * n + 53000 := by
  by_cases hp : p.length = 81
  · obtain ⟨m, h0, e0, H, hps⟩ := Props.new_ok constraints constraints_nodup
    have key := addGivens_spec p.zipIdx (zipIdx_lt hp) [] [] m h0 (by simp) H rfl rfl
    have hlen : ¬ (p.length ≠ gridSize * gridSize) := by rw [hp]; decide
    have rl : m.rows.length ≤ 729 := (rows_le (hist_inv constraints_nodup H) _).2 (index_iff.2 (Nat.le_refl _))
    have nc := Alloc.nodes_constraints
    have nle := nodes_residual_le constraints
    have n0 := nle (accepted [])
    have hwn := workNew_eq e0
    rw [countedSudoku_eq, e] at hn
    simp only [Prog.ok_bind, Prog.pure_eq, Prog.ok.injEq, Prod.mk.injEq, true_and, hp] at hn
    simp only [solveSudoku, if_neg hlen, e0, Prog.ok_bind] at e
    simp only [workSudoku, if_neg hlen, hwn, Prog.ok_bind]
    have hc : (p.zipIdx.filterMap fun e => clue e.1 e.2) = clues p := rfl
    have hzl : p.zipIdx.length = 81 := by simpa using hp
    rw [List.nil_append, hc] at key
    cases hv : verdict [] (clues p) with
    | search =>
      rw [hv] at key hn
      rw [if_pos rfl] at hn
      obtain ⟨log', m', h', e', H', ha, hp', hw⟩ := key
      obtain ⟨k1, w1, b1⟩ := workGivens_hist _ H e' (nodes constraints + m.rows.length)
      obtain ⟨res2, h2, k2, e2, w2, b2⟩ := workSolve_hist (hist_inv constraints_nodup H') (n := 324)
        (residual_len_le _) k1
      obtain ⟨res3, h3, e3, fr, hr⟩ := solve_hist (hist_inv constraints_nodup H')
      rw [e2] at e3
      obtain ⟨rfl, rfl⟩ : res2 = res3 ∧ h2 = h3 := by simpa using e3
      rw [ha, hn] at b2
      have n1 := nle ((clues p).map num)
      have n2 : 15 * nodes (residual constraints ((clues p).map num)) * n ≤ 48615 * n :=
        Nat.mul_le_mul_right _ (by omega)
      simp only [e', Prog.ok_bind, e2, reduceCtorEq, if_false] at e
      simp only [w1, Prog.ok_bind, w2, reduceCtorEq, if_false]
      rw [hp', ha] at hr
      rcases hr with ⟨S, rfl, E⟩ | ⟨rfl, hn⟩
      · obtain ⟨f, G, hperm, hsort⟩ := exactCover_sel E
        simp only [Prog.ok.injEq, Prod.mk.injEq] at e ⊢
        obtain ⟨rfl, rfl⟩ := e
        refine ⟨_, ⟨rfl, rfl, rfl⟩, ?_⟩
        have : (((clues p).map num ++ S).mergeSort (· ≤ ·)).length = 81 := by
          rw [hsort]; simp [sel]
        omega
      · simp only [Prog.ok.injEq, Prod.mk.injEq] at e ⊢
        obtain ⟨rfl, rfl⟩ := e
        exact ⟨_, ⟨rfl, rfl, rfl⟩, by omega⟩
    | reject =>
      rw [hv] at key
      obtain ⟨log', m', h', e', H'⟩ := key
      obtain ⟨k1, w1, b1⟩ := workGivens_hist _ H e' (nodes constraints + m.rows.length)
      obtain ⟨h2, k2, e2, w2, b2⟩ := workDrop_hist (hist_inv constraints_nodup H') k1
      have n1 := nle (accepted log')
      simp only [e', Prog.ok_bind, e2, if_true] at e
      simp only [w1, Prog.ok_bind, w2, if_true]
      simp only [Prog.ok.injEq, Prod.mk.injEq] at e ⊢
      obtain ⟨rfl, rfl⟩ := e
      exact ⟨_, ⟨rfl, rfl, rfl⟩, by omega⟩
    | dangling =>
      rw [hv] at key
      simp only at key
      rw [key] at e
      cases e
  · have hlen : p.length ≠ gridSize * gridSize := fun h => hp (by rw [h]; decide)
    rw [solveSudoku, if_pos hlen] at e
    rw [workSudoku, if_pos hlen]
    simp only [Prog.ok.injEq, Prod.mk.injEq] at e ⊢
    obtain ⟨rfl, rfl⟩ := e
    exact ⟨0, ⟨rfl, rfl, rfl⟩, by omega⟩

end Sudoku
