import Verif.Proofs.Sudoku.Clues

/-! `solve_sudoku` against solving by hand (`Spec.fill`). -/
namespace DancingLinks
open DancingLinks.Spec

theorem conflict_comm (M : List (List Nat)) (x y : Nat) : conflict M x y = conflict M y x := by
  simp only [conflict, and_comm]

theorem mem_residual {M : List (List Nat)} {A : List Nat} {col' : List Nat} (h : col' ∈ residual M A) :
    ∃ col ∈ M, (∀ a ∈ A, a ∉ col) ∧ col' = col.filter fun x => A.all fun a => !conflict M x a := by
  simp only [residual, List.mem_map, List.mem_filter, List.all_eq_true, decide_eq_true_eq] at h
  obtain ⟨col, ⟨h1, h2⟩, h3⟩ := h
  exact ⟨col, h1, h2, h3.symm⟩

/-- Rows left over are in conflict in the residual matrix exactly if they are in the whole. -/
theorem conflict_residual {M : List (List Nat)} {A : List Nat} {x r : Nat}
    (hx : ∀ a ∈ A, conflict M x a = false) (hr : ∀ a ∈ A, conflict M r a = false) :
    conflict (residual M A) x r = conflict M x r := by
  rw [Bool.eq_iff_iff]
  simp only [conflict, List.any_eq_true, decide_eq_true_eq]
  constructor
  · rintro ⟨col', h1, h2, h3⟩
    obtain ⟨col, g1, g2, rfl⟩ := mem_residual h1
    exact ⟨col, g1, (List.mem_filter.1 h2).1, (List.mem_filter.1 h3).1⟩
  · rintro ⟨col, g1, g2, g3⟩
    refine ⟨col.filter fun x => A.all fun a => !conflict M x a, ?_, ?_, ?_⟩
    · simp only [residual, List.mem_map, List.mem_filter, List.all_eq_true, decide_eq_true_eq]
      refine ⟨col, ⟨g1, fun a ha hac => ?_⟩, rfl⟩
      have := hx a ha
      simp only [conflict, List.any_eq_false, decide_eq_true_eq] at this
      exact this col g1 ⟨g2, hac⟩
    · simp only [List.mem_filter, List.all_eq_true]
      exact ⟨g2, fun a ha => by rw [hx a ha]; rfl⟩
    · simp only [List.mem_filter, List.all_eq_true]
      exact ⟨g3, fun a ha => by rw [hr a ha]; rfl⟩

/-- Taking rows one by one or together leaves the same matrix. -/
theorem residual_residual {M : List (List Nat)} {A : List Nat} {r : Nat}
    (hr : ∀ a ∈ A, conflict M r a = false) :
    residual (residual M A) [r] = residual M (A ++ [r]) := by
  conv_lhs => rw [residual]
  simp only [List.all_cons, List.all_nil, Bool.and_true]
  conv_lhs => rw [show residual M A = (M.filter fun col => A.all fun a => decide (a ∉ col)).map
    fun col => col.filter fun x => A.all fun a => !conflict M x a from rfl]
  rw [List.filter_map, List.map_map, List.filter_filter, residual]
  have e1 : ∀ col : List Nat, (decide (r ∉ col.filter fun x => A.all fun a => !conflict M x a) &&
      A.all fun a => decide (a ∉ col)) = ((A ++ [r]).all fun a => decide (a ∉ col)) := by
    intro col
    have : (r ∉ col.filter fun x => A.all fun a => !conflict M x a) ↔ r ∉ col := by
      simp only [List.mem_filter, List.all_eq_true, not_and]
      constructor
      · intro h hc
        exact h hc fun a ha => by rw [hr a ha]; rfl
      · intro h hc; exact absurd hc h
    rw [Bool.eq_iff_iff, Bool.and_eq_true, decide_eq_true_iff, this]
    simp [and_comm]
  simp only [Function.comp_def, e1]
  apply List.map_congr_left
  intro col hc
  rw [List.filter_filter]
  apply List.filter_congr
  intro x hx
  rw [List.all_append]
  by_cases h : A.all (fun a => !conflict M x a) = true
  · rw [h]
    simp only [List.all_cons, List.all_nil, Bool.and_true, Bool.true_and]
    congr 1
    refine conflict_residual ?_ hr
    simpa using h
  · simp only [Bool.not_eq_true] at h
    rw [h]; simp

end DancingLinks

namespace Sudoku
open DancingLinks DancingLinks.Spec Sudoku.Spec

set_option maxRecDepth 100000 in
theorem questions_num : questions.map (List.map num) = constraints := by
  rw [constraints_eq]
  decide +kernel

theorem wf_questions : ∀ q ∈ questions, ∀ x ∈ q, WF x := by
  intro q hq x hx
  simp only [questions, List.mem_append, List.mem_map, List.mem_flatMap, List.mem_range] at hq
  rcases hq with ((⟨c, hc, rfl⟩ | ⟨i, hi, d, hd, rfl⟩) | ⟨i, hi, d, hd, rfl⟩) | ⟨a, ha, b, hb, d, hd, rfl⟩ <;>
  · simp only [List.mem_map, List.mem_range] at hx
    obtain ⟨k, hk, rfl⟩ := hx
    refine ⟨?_, ?_, ?_⟩ <;> dsimp only <;> omega

theorem num_inj {x y : Clue} (hx : WF x) (hy : WF y) (h : num x = num y) : x = y := by
  obtain ⟨h1, h2⟩ := num_facts hx
  obtain ⟨h3, h4⟩ := num_facts hy
  cases x; cases y
  simp only [Clue.mk.injEq]
  simp only at h1 h2 h3 h4
  constructor
  · rw [← h1, ← h3, h]
  · rw [← h2, ← h4, h]

theorem mem_map_num {q : List Clue} (hq : ∀ x ∈ q, WF x) {a : Clue} (ha : WF a) :
    num a ∈ q.map num ↔ a ∈ q := by
  constructor
  · intro h
    obtain ⟨x, hx, e⟩ := List.mem_map.1 h
    rw [← num_inj (hq x hx) ha e]; exact hx
  · exact List.mem_map_of_mem

theorem shortest_num (Q : List (List Clue)) :
    firstShortest (Q.map (List.map num)) = (shortest Q).map (List.map num) := by
  induction Q with
  | nil => rfl
  | cons q Q ih =>
    simp only [List.map_cons, firstShortest, shortest, ih]
    cases shortest Q with
    | none => rfl
    | some q' =>
      simp only [Option.map_some, List.length_map]
      by_cases h : q'.length < q.length
      · rw [if_pos h, if_neg (by omega)]; rfl
      · rw [if_neg h, if_pos (by omega)]; rfl

attribute [local irreducible] questions constraints

theorem open_num {A : List Clue} (hA : ∀ a ∈ A, WF a) :
    residual constraints (A.map num) = (openQuestions A).map (List.map num) := by
  rw [residual]
  conv_lhs => rw [← questions_num]
  rw [openQuestions, List.filter_map, List.map_map, List.map_map]
  have e1 : ∀ q ∈ questions, ((A.map num).all fun a => decide (a ∉ q.map num)) = A.all fun a => decide (a ∉ q) := by
    intro q hq
    rw [List.all_map, Bool.eq_iff_iff]
    simp only [List.all_eq_true, Function.comp, decide_eq_true_eq]
    exact forall₂_congr fun a ha => not_congr (mem_map_num (wf_questions q hq) (hA a ha))
  rw [List.filter_congr (q := fun q => A.all fun a => decide (a ∉ q)) (by
    intro q hq; exact e1 q hq)]
  apply List.map_congr_left
  intro q hq
  have hq' := List.mem_of_mem_filter hq
  simp only [Function.comp]
  rw [List.filter_map]
  congr 1
  apply List.filter_congr
  intro x hx
  simp only [Function.comp]
  rw [questions_num, List.all_map, Bool.eq_iff_iff]
  simp only [List.all_eq_true, Function.comp]
  refine forall₂_congr fun a ha => ?_
  rw [conflict_num (wf_questions q hq' x hx) (hA a ha)]

theorem mem_open {A : List Clue} {q : List Clue} (hq : q ∈ openQuestions A) {x : Clue} (hx : x ∈ q) :
    WF x ∧ ∀ a ∈ A, clash x a = false := by
  simp only [openQuestions, List.mem_map, List.mem_filter] at hq
  obtain ⟨q0, ⟨h1, _⟩, rfl⟩ := hq
  simp only [List.mem_filter, List.all_eq_true, Bool.not_eq_true'] at hx
  exact ⟨wf_questions q0 h1 x hx.1, hx.2⟩

theorem shortest_mem {Q : List (List Clue)} {q : List Clue} (h : shortest Q = some q) : q ∈ Q := by
  induction Q generalizing q with
  | nil => simp [shortest] at h
  | cons p Q ih =>
    simp only [shortest] at h
    cases hs : shortest Q with
    | none => rw [hs] at h; simp at h; simp [h]
    | some q' =>
      rw [hs] at h
      simp only at h
      split at h
      · cases h; exact List.mem_cons_of_mem _ (ih hs)
      · cases h; simp

/-- Filling in by hand is the search on the matrix. -/
theorem fill_num : ∀ (n : Nat) (A : List Clue), (∀ a ∈ A, WF a) →
    (∀ A', fill n A = some A' → ∀ a ∈ A', WF a) ∧
    (fill n A).map (List.map num) = (search n (residual constraints (A.map num))).map (A.map num ++ ·) := by
  intro n
  induction n with
  | zero =>
    intro A hA
    simp only [fill, search, open_num hA, List.map_eq_nil_iff]
    by_cases h : openQuestions A = []
    · simp only [h, if_true, Option.some.injEq, Option.map_some, List.append_nil, and_true]
      rintro A' rfl
      exact hA
    · simp [h]
  | succ n ih =>
    intro A hA
    simp only [fill, search]
    conv in firstShortest _ => rw [open_num hA, shortest_num]
    cases hs : shortest (openQuestions A) with
    | none =>
      simp only [Option.some.injEq, Option.map_none, Option.map_some, List.append_nil, and_true]
      rintro A' rfl; exact hA
    | some q =>
      simp only [Option.map_some]
      have hq := shortest_mem hs
      have key : ∀ l : List Clue, (∀ x ∈ l, x ∈ q) →
          (∀ A', (l.findSome? fun x => fill n (A ++ [x])) = some A' → ∀ a ∈ A', WF a) ∧
          (l.findSome? fun x => fill n (A ++ [x])).map (List.map num) =
          ((l.map num).findSome? fun r =>
            (search n (residual (residual constraints (A.map num)) [r])).map (r :: ·)).map (A.map num ++ ·) := by
        intro l
        induction l with
        | nil => intro _; simp
        | cons x l ihl =>
          intro hl
          have ihl := ihl fun y hy => hl y (by simp [hy])
          obtain ⟨wx, cx⟩ := mem_open hq (hl x (by simp))
          obtain ⟨i1, i2⟩ := ih (A ++ [x]) (by
            intro a ha
            rcases List.mem_append.1 ha with h | h
            · exact hA a h
            · rw [List.mem_singleton.1 h]; exact wx)
          rw [List.map_append, List.map_singleton, ← residual_residual (by
            intro a ha
            obtain ⟨b, hb, rfl⟩ := List.mem_map.1 ha
            rw [conflict_num wx (hA b hb), cx b hb])] at i2
          rw [List.map_cons, List.findSome?_cons, List.findSome?_cons]
          cases hf : fill n (A ++ [x]) with
          | none =>
            rw [hf] at i2
            cases hg : search n (residual (residual constraints (A.map num)) [num x]) with
            | none => exact ihl
            | some S => rw [hg] at i2; simp at i2
          | some A' =>
            rw [hf] at i2
            cases hg : search n (residual (residual constraints (A.map num)) [num x]) with
            | none => rw [hg] at i2; simp at i2
            | some S =>
              rw [hg] at i2
              simp only [Option.map_some, Option.some.injEq] at i2 ⊢
              refine ⟨?_, by rw [i2]; simp⟩
              rintro A'' rfl
              exact i1 A' hf
      exact key q fun _ h => h

theorem constraints_length : constraints.length = 324 := by
  rw [constraints_eq]; simp

theorem residual_len_le (A : List Nat) : (residual constraints A).length ≤ 324 := by
  rw [residual, List.length_map, ← constraints_length]
  exact List.length_filter_le _ _

/-- The result of `solve_sudoku` in closed form when the clues do not exclude each other. -/
theorem solveSudoku_fill (p : List UInt8) (hp : p.length = 81) (hv : verdict [] (clues p) = .search)
    (n : Nat) (hn : 324 ≤ n) :
    ∃ h, (∃ A g, fill n (clues p) = some A ∧ Shows g A ∧ solveSudoku p = .ok (.ok g, h)) ∨
      (fill n (clues p) = none ∧ solveSudoku p = .ok (.error .noSolution, h)) := by
  obtain ⟨m, h, e, H, hps⟩ := Props.new_ok constraints constraints_nodup
  have key := addGivens_spec p.zipIdx (zipIdx_lt hp) [] [] m h (by simp) H rfl rfl
  have hlen : ¬ (p.length ≠ gridSize * gridSize) := by rw [hp]; decide
  simp only [solveSudoku, if_neg hlen, e, Prog.ok_bind]
  have hc : (p.zipIdx.filterMap fun e => clue e.1 e.2) = clues p := rfl
  rw [List.nil_append, hc, hv] at key
  obtain ⟨log', m', h', e', H', ha, hp', hw⟩ := key
  obtain ⟨res, h2, e2, fr, hr⟩ := solve_histX (hist_inv constraints_nodup H')
  simp only [e', Prog.ok_bind, e2]
  rw [hp', ha] at hr
  obtain ⟨w, F⟩ := fill_num n (clues p) hw
  have st := DancingLinks.Props.search_stable _ (residual constraints ((clues p).map num)) (Nat.le_refl _) n
    (Nat.le_trans (residual_len_le _) hn)
  rw [st] at F
  refine ⟨h2, ?_⟩
  rcases hr with ⟨S, rfl, E, X⟩ | ⟨rfl, _, X⟩
  · left
    rw [algorithmX] at X
    rw [X] at F
    cases hA : fill n (clues p) with
    | none => rw [hA] at F; simp at F
    | some A =>
      rw [hA] at F
      simp only [Option.map_some, Option.some.injEq] at F
      rw [← F] at E
      obtain ⟨f, G, hperm, hsort⟩ := exactCover_sel E
      rw [F] at hsort
      refine ⟨A, gridOf f, rfl, ⟨G.valid.size, ?_, ?_⟩, ?_⟩
      · exact (meets_iff G.lt (w A hA)).2 fun r hr => hperm.mem_iff.1 hr
      · intro c hc
        have : 9 * c + f c ∈ A.map num := hperm.mem_iff.2 ((mem_sel G.lt).2 (by
          have := G.lt c hc
          have e : (9 * c + f c) / 9 = c := by omega
          rw [e]; omega))
        obtain ⟨x, hx, ex⟩ := List.mem_map.1 this
        refine ⟨x, hx, ?_⟩
        have := (num_facts (w A hA x hx)).1
        have := G.lt c hc
        omega
      · simp only [reduceCtorEq, if_false, hsort, out_sel G.lt]
  · right
    rw [algorithmX] at X
    rw [X] at F
    refine ⟨by simpa using F, by simp⟩

end Sudoku
