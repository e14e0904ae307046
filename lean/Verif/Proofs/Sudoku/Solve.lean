import Verif.Proofs.Sudoku.Cover
import Verif.Props.DancingLinks

/-! `solve_sudoku` against the specification. -/
namespace Sudoku
open DancingLinks DancingLinks.Spec Sudoku.Spec

/-- Row of the matrix for a clue. -/
def num (x : Clue) : Nat := 9 * x.cell + x.digit - 1

def WF (x : Clue) : Prop := x.cell < 81 ∧ 1 ≤ x.digit ∧ x.digit ≤ 9

theorem num_lt {x : Clue} (h : WF x) : num x < 729 := by
  obtain ⟨h1, h2, h3⟩ := h; unfold num; omega

theorem num_facts {x : Clue} (h : WF x) : num x / 9 = x.cell ∧ num x % 9 + 1 = x.digit := by
  obtain ⟨h1, h2, h3⟩ := h; unfold num; omega

theorem num_div (x : Clue) (h : WF x) : num x / 81 = x.cell / 9 ∧ num x / 243 = x.cell / 27 ∧
    num x / 27 % 3 = x.cell % 9 / 3 := by
  have e := (num_facts h).1
  have h1 : num x / 81 = x.cell / 9 := by rw [← e, Nat.div_div_eq_div_mul]
  have h2 : num x / 243 = x.cell / 27 := by rw [← e, Nat.div_div_eq_div_mul]
  have h3 : num x / 27 = x.cell / 3 := by rw [← e, Nat.div_div_eq_div_mul]
  refine ⟨h1, h2, ?_⟩
  rw [h3]
  clear e h1 h2 h3
  generalize x.cell = c
  omega

theorem conflict_num {x a : Clue} (hx : WF x) (ha : WF a) :
    conflict constraints (num x) (num a) = clash x a := by
  rw [Bool.eq_iff_iff, conflict_iff (num_lt hx) (num_lt ha)]
  obtain ⟨e1, e2⟩ := num_facts hx
  obtain ⟨f1, f2⟩ := num_facts ha
  obtain ⟨g1, g2, g3⟩ := num_div x hx
  obtain ⟨k1, k2, k3⟩ := num_div a ha
  have hd : num x % 9 = num a % 9 ↔ x.digit = a.digit := by omega
  rw [g1, g2, g3, k1, k2, k3, e1, f1, hd]
  unfold clash
  rw [decide_eq_true_iff]
  rfl

theorem lastCol_num {x a : Clue} (hx : WF x) (ha : WF a) :
    num x ∈ lastCol constraints (num a) ↔ x.digit = a.digit ∧ sameBox x a := by
  rw [mem_lastCol (num_lt ha)]
  obtain ⟨e1, e2⟩ := num_facts hx
  obtain ⟨f1, f2⟩ := num_facts ha
  obtain ⟨g1, g2, g3⟩ := num_div x hx
  obtain ⟨k1, k2, k3⟩ := num_div a ha
  have hd : num x % 9 = num a % 9 ↔ x.digit = a.digit := by omega
  rw [g2, g3, k2, k3, hd]
  simp [sameBox]

theorem find_map_num {seen : List Clue} (hs : ∀ a ∈ seen, WF a) {x : Clue} (hx : WF x) :
    (seen.map num).find? (conflict constraints (num x)) = (seen.find? (clash x)).map num := by
  induction seen with
  | nil => rfl
  | cons a l ih =>
    have h1 := conflict_num hx (hs a (by simp))
    have h2 := ih (fun b hb => hs b (by simp [hb]))
    simp only [List.map_cons, List.find?_cons, h1, h2]
    cases clash x a <;> rfl

theorem index_iff {r : Nat} : (∀ col ∈ constraints, ∀ x ∈ col, x < r) ↔ 729 ≤ r := by
  constructor
  · intro h
    have := h (cellCol 80) (mem_constraints.2 ⟨80, by omega, .inl rfl⟩) 728 (mem_cellCol.2 (by omega))
    omega
  · intro h col hc x hx
    have := occurs_iff.1 ⟨col, hc, hx⟩
    omega

theorem expected_num {seen : List Clue} (hs : ∀ a ∈ seen, WF a) {x : Clue} (hx : WF x) :
    expected constraints (seen.map num) (num x) = match seen.find? (clash x) with
      | none => .accepted
      | some a => if x.digit = a.digit ∧ sameBox x a then .invalid else .dangling := by
  have hlt := num_lt hx
  unfold expected
  rw [if_neg (by rw [index_iff]; omega), if_neg (by
    intro h; obtain ⟨col, h1, h2⟩ := occurs_iff.2 hlt; exact h col h1 h2), find_map_num hs hx]
  cases hf : seen.find? (clash x) with
  | none => rfl
  | some a =>
    have ha := hs a (List.mem_of_find?_eq_some hf)
    simp only [Option.map_some, lastCol_num hx ha]

theorem clue_cases {v : UInt8} {i : Nat} (hv : v ≠ 0) (hi : i < 81) :
    (∃ x, clue v i = some x ∧ WF x ∧ num x = i * 9 + v.toNat - 1) ∨
    (clue v i = none ∧ 729 ≤ i * 9 + v.toNat - 1) := by
  have hv' : v.toNat ≠ 0 := by
    intro h; apply hv; exact UInt8.toNat_inj.1 (by simpa using h)
  unfold clue
  rw [if_neg hv]
  by_cases h9 : v.toNat ≤ 9
  · rw [if_pos h9]
    exact .inl ⟨_, rfl, ⟨hi, by dsimp; omega, h9⟩, by simp only [num]; omega⟩
  · rw [if_neg h9]
    by_cases h : 9 * i + v.toNat - 1 < 729
    · rw [if_pos h]
      refine .inl ⟨_, rfl, ⟨?_, ?_, ?_⟩, ?_⟩
      · dsimp; omega
      · dsimp; omega
      · dsimp; omega
      · simp only [num]; omega
    · rw [if_neg h]
      exact .inr ⟨rfl, by omega⟩

attribute [local irreducible] constraints

theorem addGivens_spec (l : List (UInt8 × Nat)) (hl : ∀ e ∈ l, e.2 < 81) :
    ∀ (seen : List Clue) (log) (m : Matrix) (h : Heap), (∀ a ∈ seen, WF a) → Hist constraints log m h →
    accepted log = seen.map num → pushed log = seen.map num →
    match verdict seen (l.filterMap fun e => clue e.1 e.2) with
    | .search => ∃ log' m' h', addGivens l m h = .ok (true, m', h') ∧ Hist constraints log' m' h' ∧
        accepted log' = (seen ++ l.filterMap fun e => clue e.1 e.2).map num ∧ pushed log' = accepted log' ∧
        (∀ a ∈ seen ++ l.filterMap fun e => clue e.1 e.2, WF a)
    | .reject => ∃ log' m' h', addGivens l m h = .ok (false, m', h') ∧ Hist constraints log' m' h'
    | .dangling => addGivens l m h = .ub := by
  induction l with
  | nil =>
    intro seen log m h hs H ha hp
    exact ⟨log, m, h, rfl, H, by simpa using ha, by rw [ha, hp], by simpa using hs⟩
  | cons e l ih =>
    obtain ⟨v, i⟩ := e
    have hi : i < 81 := hl (v, i) (by simp)
    replace ih := ih (fun e he => hl e (by simp [he]))
    intro seen log m h hs H ha hp
    by_cases hv : v = 0
    · have hc : clue v i = none := by simp [clue, hv]
      simp only [List.filterMap_cons, hc, addGivens, if_pos hv]
      exact ih seen log m h hs H ha hp
    · have key := (Props.C16_add_outcome constraints constraints_nodup log m h H (i * 9 + v.toNat - 1)).2
      simp only [List.filterMap_cons, addGivens, if_neg hv]
      rcases clue_cases hv hi with ⟨x, hc, hx, hn⟩ | ⟨hc, hn⟩
      · rw [← hn, ha, expected_num hs hx] at key
        simp only [hc, verdict]
        cases hf : seen.find? (clash x) with
        | none =>
          rw [hf] at key
          obtain ⟨m', h', e, hp'⟩ := key
          rw [← hn, e]
          simp only [Prog.ok_bind]
          have := ih (seen ++ [x]) (log ++ [(num x, .ok ())]) m' h' (by
              intro a ha'; rcases List.mem_append.1 ha' with h1 | h1
              · exact hs a h1
              · rw [List.mem_singleton.1 h1]; exact hx) (Hist.add H e) (by
              simp only [accepted, List.filterMap_append] at ha ⊢; rw [ha]; simp) (by
              simp only [pushed, List.filterMap_append] at hp ⊢; rw [hp]; simp)
          simpa only [List.append_assoc, List.singleton_append] using this
        | some a =>
          rw [hf] at key
          by_cases hb : x.digit = a.digit ∧ sameBox x a
          · simp only [if_pos hb] at key ⊢
            rw [← hn, key]
            exact ⟨_, _, _, rfl, Hist.add H key⟩
          · simp only [if_neg hb] at key ⊢
            rw [← hn, key]; rfl
      · have he : expected constraints (accepted log) (i * 9 + v.toNat - 1) = .index := by
          unfold expected; exact if_pos (index_iff.2 hn)
        rw [he] at key
        simp only at key
        simp only [hc, key, Prog.ok_bind]
        exact ih seen _ m h hs (Hist.add H key) (by
          simp only [accepted, List.filterMap_append] at ha ⊢; rw [ha]; simp) (by
          simp only [pushed, List.filterMap_append] at hp ⊢; rw [hp]; simp)

theorem ofNat_inj9 : ∀ a < 9, ∀ b < 10, UInt8.ofNat a + 1 = UInt8.ofNat b → a + 1 = b := by decide +kernel
theorem ofNat_succ9 : ∀ a < 9, UInt8.ofNat a + 1 = UInt8.ofNat (a + 1) := by decide +kernel

theorem meets_iff {f : Nat → Nat} (hf : ∀ c < 81, f c < 9) {cs : List Clue} (hcs : ∀ a ∈ cs, WF a) :
    Meets (gridOf f) cs ↔ ∀ r ∈ cs.map num, r ∈ sel f := by
  simp only [Meets, List.mem_map, forall_exists_index, and_imp, forall_apply_eq_imp_iff₂]
  apply forall₂_congr
  intro x hx
  have w := hcs x hx
  obtain ⟨e1, e2⟩ := num_facts w
  rw [mem_sel hf, e1, gridOf_get w.1, Option.some.injEq]
  have := hf _ w.1
  constructor
  · intro h
    have := ofNat_inj9 _ this _ (by have := w.2.2; omega) h
    exact ⟨w.1, by omega⟩
  · rintro ⟨_, h⟩
    rw [h, ← e2]
    exact ofNat_succ9 _ (Nat.mod_lt _ (by omega))

theorem zipIdx_lt {p : List UInt8} (hp : p.length = 81) : ∀ e ∈ p.zipIdx, e.2 < 81 := by
  intro e he
  have := List.mem_zipIdx' (x := e.1) (i := e.2) (by simpa using he)
  omega

/-- The complete behaviour of `solve_sudoku` on inputs of the right size. -/
theorem solveSudoku_spec (p : List UInt8) (hp : p.length = 81) :
    match verdict [] (clues p) with
    | .search => ∃ res h, solveSudoku p = .ok (res, h) ∧ AllFreed h ∧
        ((∃ g, res = .ok g ∧ Valid g ∧ Meets g (clues p)) ∨
         (res = .error .noSolution ∧ ¬ ∃ g, Valid g ∧ Meets g (clues p)))
    | .reject => ∃ h, solveSudoku p = .ok (.error .noSolution, h) ∧ AllFreed h
    | .dangling => solveSudoku p = .ub := by
  obtain ⟨m, h, e, H, hps⟩ := Props.new_ok constraints constraints_nodup
  have key := addGivens_spec p.zipIdx (zipIdx_lt hp) [] [] m h (by simp) H rfl rfl
  have hlen : ¬ (p.length ≠ gridSize * gridSize) := by rw [hp]; decide
  simp only [solveSudoku, if_neg hlen, e, Prog.ok_bind]
  have hc : (p.zipIdx.filterMap fun e => clue e.1 e.2) = clues p := rfl
  rw [List.nil_append, hc] at key
  cases hv : verdict [] (clues p) with
  | search =>
    rw [hv] at key
    obtain ⟨log', m', h', e', H', ha, hp', hw⟩ := key
    obtain ⟨res, h2, e2, fr, hr⟩ := solve_hist (hist_inv constraints_nodup H')
    simp only [e', Prog.ok_bind, e2]
    rw [hp', ha] at hr
    rcases hr with ⟨S, rfl, E⟩ | ⟨rfl, hn⟩
    · obtain ⟨f, G, hperm, hsort⟩ := exactCover_sel E
      refine ⟨.ok (gridOf f), h2, ?_, fr, .inl ⟨_, rfl, G.valid, ?_⟩⟩
      · simp only [reduceCtorEq, if_false, hsort, out_sel G.lt]
      · rw [meets_iff G.lt hw]
        intro r hr
        exact hperm.mem_iff.1 (by simp [hr])
    · refine ⟨.error .noSolution, h2, by simp, fr, .inr ⟨rfl, ?_⟩⟩
      rintro ⟨g, V, M⟩
      obtain ⟨f, G, rfl⟩ := valid_good V
      exact hn ⟨sel f, G.exactCover, (meets_iff G.lt hw).1 M⟩
  | reject =>
    rw [hv] at key
    obtain ⟨log', m', h', e', H'⟩ := key
    obtain ⟨h2, e2, fr⟩ := drop_hist (hist_inv constraints_nodup H')
    exact ⟨h2, by simp [e', e2], fr⟩
  | dangling =>
    rw [hv] at key
    simp only at key
    rw [key]; rfl

end Sudoku
