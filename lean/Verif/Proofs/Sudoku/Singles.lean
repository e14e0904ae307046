import Verif.Proofs.DL.Calls
import Verif.Proofs.Sudoku.Refine

/-! Helper lemmas: sudokus that can be solved by singles. -/
namespace Sudoku
open DancingLinks DancingLinks.Spec Sudoku.Spec

theorem clash_comm' (x y : Clue) : clash x y = clash y x := by
  unfold clash sameRow sameCol sameBox
  rw [Bool.eq_iff_iff]
  simp only [decide_eq_true_eq]
  omega

/-- Two answers to one question clash. -/
theorem question_clash : ∀ q ∈ questions, ∀ x ∈ q, ∀ y ∈ q, clash x y = true := by
  intro q hq x hx y hy
  simp only [questions, List.mem_append, List.mem_map, List.mem_flatMap, List.mem_range] at hq
  unfold clash sameRow sameCol sameBox
  rcases hq with ((⟨c, hc, rfl⟩ | ⟨i, hi, d, hd, rfl⟩) | ⟨i, hi, d, hd, rfl⟩) | ⟨a, ha, b, hb, d, hd, rfl⟩ <;>
  · simp only [List.mem_map, List.mem_range] at hx hy
    obtain ⟨k, hk, rfl⟩ := hx
    obtain ⟨l, hl, rfl⟩ := hy
    simp only [decide_eq_true_eq, true_or, true_and]
    try omega

attribute [local irreducible] questions constraints

theorem mem_openQuestions {A : List Clue} {q : List Clue} : q ∈ openQuestions A ↔
    ∃ q0 ∈ questions, (∀ a ∈ A, a ∉ q0) ∧ q = q0.filter fun x => A.all fun a => !clash x a := by
  simp only [openQuestions, List.mem_map, List.mem_filter, List.all_eq_true, decide_eq_true_eq]
  exact ⟨fun ⟨q0, ⟨h1, h2⟩, e⟩ => ⟨q0, h1, h2, e.symm⟩, fun ⟨q0, h1, h2, e⟩ => ⟨q0, ⟨h1, h2⟩, e.symm⟩⟩

/-- A complete set of answers that do not clash. -/
structure Full (F : List Clue) : Prop where
  calm : ∀ x ∈ F, ∀ y ∈ F, x ≠ y → clash x y = false
  all : ∀ q ∈ questions, ∃ y ∈ F, y ∈ q

theorem openQuestions_nil {A : List Clue} : openQuestions A = [] ↔ ∀ q ∈ questions, ∃ y ∈ A, y ∈ q := by
  rw [List.eq_nil_iff_forall_not_mem]
  simp only [mem_openQuestions, not_exists, not_and]
  constructor
  · intro h q hq
    by_contra hn
    simp only [not_exists, not_and] at hn
    exact h _ q hq hn rfl
  · rintro h q q0 h1 h2 rfl
    obtain ⟨y, hy, hyq⟩ := h q0 h1
    exact h2 y hy hyq

/-- What is known about the entries made so far. -/
structure Fine (A : List Clue) : Prop where
  wf : ∀ a ∈ A, WF a
  calm : A.Pairwise fun a x => clash x a = false

theorem Fine.add {A : List Clue} (h : Fine A) {q : List Clue} (hq : q ∈ openQuestions A) {x : Clue} (hx : x ∈ q) :
    Fine (A ++ [x]) := by
  obtain ⟨h1, h2⟩ := mem_open hq hx
  refine ⟨?_, ?_⟩
  · intro a ha
    rcases List.mem_append.1 ha with ha | ha
    · exact h.wf a ha
    · rw [List.mem_singleton.1 ha]; exact h1
  · rw [List.pairwise_append]
    exact ⟨h.calm, List.pairwise_singleton _ _, fun a ha y hy => by rw [List.mem_singleton.1 hy]; exact h2 a ha⟩

theorem Fine.full {A : List Clue} (h : Fine A) (h0 : openQuestions A = []) : Full A := by
  refine ⟨?_, openQuestions_nil.1 h0⟩
  intro x hx y hy hne
  obtain ⟨i, hi, rfl⟩ := List.getElem_of_mem hx
  obtain ⟨j, hj, rfl⟩ := List.getElem_of_mem hy
  have hij : i ≠ j := by rintro rfl; exact hne rfl
  rcases Nat.lt_or_gt_of_ne hij with hlt | hlt
  · rw [clash_comm']; exact List.pairwise_iff_getElem.1 h.calm i j hi hj hlt
  · exact List.pairwise_iff_getElem.1 h.calm j i hj hi hlt

/-- The clues one gets by singles. -/
theorem Spec.Singles.full {A : List Clue} (s : Singles A) (h : Fine A) : ∃ F, Full F ∧ ∀ a ∈ A, a ∈ F := by
  induction s with
  | done h0 => exact ⟨_, h.full h0, fun _ h => h⟩
  | step hx _ ih =>
    obtain ⟨F, h1, h2⟩ := ih (h.add hx (by simp))
    exact ⟨F, h1, fun a ha => h2 a (by simp [ha])⟩

/-- A single is right in every completion. -/
theorem Full.single {F A : List Clue} (hF : Full F) (hA : ∀ a ∈ A, a ∈ F) {q : List Clue} (hq : q ∈ openQuestions A) :
    ∃ x ∈ q, x ∈ F := by
  obtain ⟨q0, h1, h2, rfl⟩ := mem_openQuestions.1 hq
  obtain ⟨y, hy, hyq⟩ := hF.all q0 h1
  refine ⟨y, ?_, hy⟩
  simp only [List.mem_filter, List.all_eq_true, Bool.not_eq_true']
  exact ⟨hyq, fun a ha => hF.calm y hy a (hA a ha) (by rintro rfl; exact h2 _ ha hyq)⟩

/-- Entering more of the completion does not spoil the singles. -/
theorem Spec.Singles.mono {F A : List Clue} (s : Singles A) (hF : Full F) : ∀ B, (∀ a ∈ A, a ∈ F) → (∀ a ∈ A, a ∈ B) →
    (∀ b ∈ B, b ∈ F) → Singles B := by
  induction s with
  | done h0 =>
    intro B _ h2 _
    refine .done (openQuestions_nil.2 fun q hq => ?_)
    obtain ⟨y, hy, hyq⟩ := openQuestions_nil.1 h0 q hq
    exact ⟨y, h2 y hy, hyq⟩
  | @step A x hx _ ih =>
    intro B h1 h2 h3
    obtain ⟨x', hx', hxF⟩ := hF.single h1 hx
    rw [List.mem_singleton] at hx'
    subst hx'
    have hAx : ∀ a ∈ A ++ [x'], a ∈ F := by
      intro a ha
      rcases List.mem_append.1 ha with ha | ha
      · exact h1 a ha
      · rw [List.mem_singleton.1 ha]; exact hxF
    by_cases hB : x' ∈ B
    · refine ih B hAx (fun a ha => ?_) h3
      rcases List.mem_append.1 ha with ha | ha
      · exact h2 a ha
      · rw [List.mem_singleton.1 ha]; exact hB
    · obtain ⟨q0, g1, g2, g3⟩ := mem_openQuestions.1 hx
      have hx0 : x' ∈ q0 := by
        have : x' ∈ q0.filter fun x => A.all fun a => !clash x a := by rw [← g3]; simp
        exact (List.mem_filter.1 this).1
      have hopen : ∀ b ∈ B, b ∉ q0 := by
        intro b hb hbq
        have hc := question_clash q0 g1 x' hx0 b hbq
        have hne : x' ≠ b := by rintro rfl; exact hB hb
        rw [hF.calm x' hxF b (h3 b hb) hne] at hc
        cases hc
      have hq' : (q0.filter fun x => B.all fun a => !clash x a) = [x'] := by
        have e : ∀ x, x ∈ (q0.filter fun x => B.all fun a => !clash x a) → x = x' := by
          intro x hx
          have : x ∈ q0.filter fun x => A.all fun a => !clash x a := by
            simp only [List.mem_filter, List.all_eq_true] at hx ⊢
            exact ⟨hx.1, fun a ha => hx.2 a (h2 a ha)⟩
          rw [← g3] at this
          exact List.mem_singleton.1 this
        have hlen : (q0.filter fun x => B.all fun a => !clash x a).length ≤ 1 := by
          have hs : (q0.filter fun x => B.all fun a => !clash x a).Sublist (q0.filter fun x => A.all fun a => !clash x a) := by
            have : (q0.filter fun x => B.all fun a => !clash x a) =
                (q0.filter fun x => A.all fun a => !clash x a).filter fun x => B.all fun a => !clash x a := by
              rw [List.filter_filter]
              apply List.filter_congr
              intro x _
              rw [Bool.eq_iff_iff, Bool.and_eq_true]
              constructor
              · intro h
                refine ⟨h, ?_⟩
                simp only [List.all_eq_true] at h ⊢
                exact fun a ha => h a (h2 a ha)
              · exact fun h => h.1
            rw [this]
            exact List.filter_sublist
          rw [← g3] at hs
          simpa using hs.length_le
        have hmem : x' ∈ (q0.filter fun x => B.all fun a => !clash x a) := by
          simp only [List.mem_filter, List.all_eq_true, Bool.not_eq_true']
          exact ⟨hx0, fun b hb => hF.calm x' hxF b (h3 b hb) (by rintro rfl; exact hB hb)⟩
        match hl : (q0.filter fun x => B.all fun a => !clash x a), hmem, hlen with
        | [y], hm, _ => rw [List.mem_singleton.1 hm]
        | _ :: _ :: _, _, hn => simp at hn
      refine .step (mem_openQuestions.2 ⟨q0, g1, hopen, hq'.symm⟩) (ih (B ++ [x']) hAx ?_ ?_)
      · intro a ha
        rcases List.mem_append.1 ha with ha | ha
        · simp [h2 a ha]
        · simp [List.mem_singleton.1 ha]
      · intro b hb
        rcases List.mem_append.1 hb with hb | hb
        · exact h3 b hb
        · rw [List.mem_singleton.1 hb]; exact hxF

theorem shortest_le {Q : List (List Clue)} {q : List Clue} (h : shortest Q = some q) : ∀ q' ∈ Q, q.length ≤ q'.length := by
  induction Q generalizing q with
  | nil => simp
  | cons p Q ih =>
    intro q' hq'
    simp only [shortest] at h
    cases hs : shortest Q with
    | none =>
      rw [hs] at h
      simp only [Option.some.injEq] at h
      subst h
      cases Q with
      | nil => simp at hq'; simp [hq']
      | cons r Q =>
        simp only [shortest] at hs
        split at hs
        · cases hs
        · split at hs <;> cases hs
    | some r =>
      rw [hs] at h
      have hr := ih hs
      simp only at h
      split at h
      · next hlt =>
        simp only [Option.some.injEq] at h
        subst h
        rcases List.mem_cons.1 hq' with rfl | hq'
        · omega
        · exact hr q' hq'
      · next hlt =>
        simp only [Option.some.injEq] at h
        subst h
        rcases List.mem_cons.1 hq' with rfl | hq'
        · exact Nat.le_refl _
        · have := hr q' hq'; omega

theorem shortest_none {Q : List (List Clue)} (h : shortest Q = none) : Q = [] := by
  cases Q with
  | nil => rfl
  | cons q Q =>
    simp only [shortest] at h
    split at h
    · cases h
    · split at h <;> cases h

/-- The solver's choice when singles suffice. -/
theorem Spec.Singles.choice {A : List Clue} (s : Singles A) (h : Fine A) (h0 : openQuestions A ≠ []) :
    ∃ x, shortest (openQuestions A) = some [x] ∧ [x] ∈ openQuestions A ∧ Singles (A ++ [x]) := by
  obtain ⟨F, hF, hA⟩ := s.full h
  have hex : ∃ x, [x] ∈ openQuestions A := by
    cases s with
    | done e => exact absurd e h0
    | step hx _ => exact ⟨_, hx⟩
  cases hs : shortest (openQuestions A) with
  | none => exact absurd (shortest_none hs) h0
  | some q =>
    obtain ⟨x, hx⟩ := hex
    have hle := shortest_le hs _ hx
    have hq := shortest_mem hs
    obtain ⟨y, hy, hyF⟩ := hF.single hA hq
    have : q = [y] := by
      match q, hle, hy with
      | [z], _, hy => rw [List.mem_singleton.1 hy]
      | _ :: _ :: _, hn, _ => simp at hn
    subst this
    refine ⟨y, rfl, hq, s.mono hF _ hA (fun a ha => by simp [ha]) ?_⟩
    intro b hb
    rcases List.mem_append.1 hb with hb | hb
    · exact hA b hb
    · rw [List.mem_singleton.1 hb]; exact hyF

theorem Fine.nodup {A : List Clue} (h : Fine A) : (A.map Clue.cell).Nodup := by
  refine List.pairwise_map.2 (h.calm.imp fun {a x} hc e => ?_)
  unfold clash at hc
  simp [e] at hc

theorem Fine.length_le {A : List Clue} (h : Fine A) : A.length ≤ 81 := by
  have := (List.subperm_of_subset h.nodup (l₂ := List.range 81) (by
    intro c hc
    obtain ⟨a, ha, rfl⟩ := List.mem_map.1 hc
    exact List.mem_range.2 (h.wf a ha).1)).length_le
  simpa using this

theorem cell_question : ∀ c < 81, ∃ q ∈ questions, ∀ x ∈ q, x.cell = c := by
  intro c hc
  refine ⟨(List.range 9).map fun d => ⟨c, d + 1⟩, ?_, ?_⟩
  · unfold questions
    simp only [List.mem_append, List.mem_map, List.mem_range]
    exact .inl (.inl (.inl ⟨c, hc, rfl⟩))
  · intro x hx
    obtain ⟨d, _, rfl⟩ := List.mem_map.1 hx
    rfl

theorem Fine.length_eq {A : List Clue} (h : Fine A) (h0 : openQuestions A = []) : A.length = 81 := by
  refine Nat.le_antisymm h.length_le ?_
  have := (List.subperm_of_subset (List.nodup_range (n := 81)) (l₂ := A.map Clue.cell) (by
    intro c hc
    obtain ⟨q, hq, hc'⟩ := cell_question c (List.mem_range.1 hc)
    obtain ⟨y, hy, hyq⟩ := openQuestions_nil.1 h0 q hq
    exact List.mem_map.2 ⟨y, hy, hc' y hyq⟩)).length_le
  simpa using this

/-- With singles the search tree is a path. -/
theorem Spec.Singles.visits : ∀ (n : Nat) (A : List Clue), Singles A → Fine A → 81 ≤ n + A.length →
    DancingLinks.Spec.visits n (residual constraints (A.map num)) + A.length = 82 := by
  intro n
  induction n with
  | zero =>
    intro A s h hn
    have := h.length_le
    simp only [DancingLinks.Spec.visits]
    omega
  | succ n ih =>
    intro A s h hn
    rw [DancingLinks.Spec.visits, open_num h.wf, shortest_num]
    by_cases h0 : openQuestions A = []
    · have := h.length_eq h0
      simp only [h0, shortest, Option.map_none]
      omega
    · obtain ⟨x, e, hx, s'⟩ := s.choice h h0
      have h' := h.add hx (x := x) (by simp)
      have := ih _ s' h' (by rw [List.length_append, List.length_singleton]; omega)
      obtain ⟨wx, cx⟩ := mem_open hx (x := x) (by simp)
      rw [List.map_append, List.map_singleton, ← residual_residual (by
            intro a ha
            obtain ⟨b, hb, rfl⟩ := List.mem_map.1 ha
            rw [conflict_num wx (h.wf b hb), cx b hb]), open_num h.wf, List.length_append, List.length_singleton] at this
      rw [e]
      simp only [Option.map_some, List.map_cons, List.map_nil, tried]
      split <;> simp only [List.map_cons, List.map_nil, List.sum_cons, List.sum_nil] <;> omega


/-- The answers given by a finished grid. -/
theorem Good.full {f : Nat → Nat} (G : Good f) : Full ((List.range 81).map fun c => ⟨c, f c + 1⟩) := by
  have E := G.exactCover
  have hwf : ∀ x ∈ (List.range 81).map (fun c => (⟨c, f c + 1⟩ : Clue)), WF x ∧ num x ∈ sel f := by
    intro x hx
    obtain ⟨c, hc, rfl⟩ := List.mem_map.1 hx
    have hc' := List.mem_range.1 hc
    have := G.lt c hc'
    refine ⟨⟨hc', by dsimp only; omega, by dsimp only; omega⟩, ?_⟩
    simp only [sel, List.mem_map]
    exact ⟨c, hc, by simp [num]⟩
  constructor
  · intro x hx y hy hne
    obtain ⟨wx, sx⟩ := hwf x hx
    obtain ⟨wy, sy⟩ := hwf y hy
    rw [← conflict_num wx wy]
    simp only [conflict, List.any_eq_false, decide_eq_true_eq, not_and]
    intro col hc h1 h2
    obtain ⟨r, _, _, hu⟩ := E.once col hc
    exact hne (num_inj wx wy ((hu _ sx h1).trans (hu _ sy h2).symm))
  · intro q hq
    have hc : q.map num ∈ constraints := by rw [← questions_num]; exact List.mem_map_of_mem hq
    obtain ⟨r, hr, hrq, _⟩ := E.once _ hc
    obtain ⟨x, hx, rfl⟩ := List.mem_map.1 hrq
    refine ⟨x, ?_, hx⟩
    have wx := wf_questions q hq x hx
    obtain ⟨e1, e2⟩ := num_facts wx
    rw [mem_sel G.lt, e1] at hr
    refine List.mem_map.2 ⟨x.cell, List.mem_range.2 wx.1, ?_⟩
    cases x
    simp only [Clue.mk.injEq, true_and]
    simp only at hr e2
    omega

theorem Spec.Singles.least {A : List Clue} (s : Singles A) (h : Fine A) : ∃ F, Fine F ∧ openQuestions F = [] ∧
    ∀ F', Full F' → (∀ a ∈ A, a ∈ F') → ∀ x ∈ F, x ∈ F' := by
  induction s with
  | @done A h0 => exact ⟨A, h, h0, fun F' _ h => h⟩
  | @step A x hx _ ih =>
    obtain ⟨F, h1, h2, h3⟩ := ih (h.add hx (by simp))
    refine ⟨F, h1, h2, fun F' hF hA => h3 F' hF fun a ha => ?_⟩
    rcases List.mem_append.1 ha with ha | ha
    · exact hA a ha
    · obtain ⟨y, hy, hyF⟩ := hF.single hA hx
      rw [List.mem_singleton.1 hy] at hyF
      rw [List.mem_singleton.1 ha]; exact hyF

/-- Puzzles that can be solved by singles have at most one completion. -/
theorem Spec.Singles.unique {A : List Clue} (s : Singles A) (h : Fine A) {g g' : List UInt8} (V : Valid g) (V' : Valid g')
    (hm : Meets g A) (hm' : Meets g' A) : g = g' := by
  obtain ⟨F, hF, h0, hl⟩ := s.least h
  obtain ⟨f, G, rfl⟩ := valid_good V
  obtain ⟨f', G', rfl⟩ := valid_good V'
  have key : ∀ f, Good f → Meets (gridOf f) A → ∀ x ∈ F, f x.cell + 1 = x.digit := by
    intro f G hm x hx
    have := hl _ G.full (fun a ha => ?_) x hx
    · obtain ⟨c, _, rfl⟩ := List.mem_map.1 this
      rfl
    · have wa := h.wf a ha
      obtain ⟨e1, e2⟩ := num_facts wa
      have := (meets_iff G.lt h.wf).1 hm (num a) (List.mem_map_of_mem ha)
      rw [mem_sel G.lt, e1] at this
      refine List.mem_map.2 ⟨a.cell, List.mem_range.2 wa.1, ?_⟩
      cases a
      simp only [Clue.mk.injEq, true_and]
      simp only at this e2
      omega
  unfold gridOf
  apply List.map_congr_left
  intro c hc
  obtain ⟨q, hq, hc'⟩ := cell_question c (List.mem_range.1 hc)
  obtain ⟨y, hy, hyq⟩ := openQuestions_nil.1 h0 q hq
  have e := hc' y hyq
  have h1 := key f G hm y hy
  have h2 := key f' G' hm' y hy
  rw [e] at h1 h2
  rw [show f c = f' c by omega]

/-- Filling in succeeds when singles suffice. -/
theorem Spec.Singles.fill : ∀ (n : Nat) (A : List Clue), Singles A → Fine A → 81 ≤ n + A.length →
    (fill n A).isSome = true := by
  intro n
  induction n with
  | zero =>
    intro A s h hn
    simp only [Spec.fill]
    by_cases h0 : openQuestions A = []
    · simp [h0]
    · exfalso
      obtain ⟨x, _, hx, _⟩ := s.choice h h0
      have := (h.add hx (x := x) (by simp)).length_le
      rw [List.length_append, List.length_singleton] at this
      omega
  | succ n ih =>
    intro A s h hn
    simp only [Spec.fill]
    by_cases h0 : openQuestions A = []
    · simp [h0, shortest]
    · obtain ⟨x, e, hx, s'⟩ := s.choice h h0
      have := ih _ s' (h.add hx (by simp)) (by rw [List.length_append, List.length_singleton]; omega)
      rw [e]
      simp only [List.findSome?_cons, List.findSome?_nil]
      obtain ⟨A', hA'⟩ := Option.isSome_iff_exists.1 this
      rw [hA']; rfl

/-- `solve_sudoku` with the counter. -/
theorem countedSudoku_eq (p : List UInt8) : countedSudoku p = (do
    let r ← solveSudoku p
    return (r, if p.length = 81 ∧ verdict [] (clues p) = .search then
      DancingLinks.Spec.visits 324 (residual constraints ((clues p).map num)) else 0)) := by
  by_cases hp : p.length = 81
  · obtain ⟨m, h, e, H, hps⟩ := Props.new_ok constraints constraints_nodup
    have key := addGivens_spec p.zipIdx (zipIdx_lt hp) [] [] m h (by simp) H rfl rfl
    have hlen : ¬ (p.length ≠ gridSize * gridSize) := by rw [hp]; decide
    simp only [countedSudoku, solveSudoku, if_neg hlen, e, Prog.ok_bind]
    have hc : (p.zipIdx.filterMap fun e => clue e.1 e.2) = clues p := rfl
    rw [List.nil_append, hc] at key
    cases hv : verdict [] (clues p) with
    | search =>
      rw [hv] at key
      obtain ⟨log', m', h', e', H', ha, hp', hw⟩ := key
      have hcs := countedSolve_hist (hist_inv constraints_nodup H') (n := 324) (by rw [ha]; exact residual_len_le _)
      simp only [e', Prog.ok_bind, reduceCtorEq, if_false, hcs, hp, and_self, if_true, ha]
      cases m'.solve h' with
      | ok r => obtain ⟨res, h2⟩ := r; cases res <;> rfl
      | _ => rfl
    | reject =>
      rw [hv] at key
      obtain ⟨log', m', h', e', H'⟩ := key
      simp only [e', Prog.ok_bind, if_true, reduceCtorEq, and_false, if_false]
      cases m'.drop h' <;> rfl
    | dangling =>
      rw [hv] at key
      simp only at key
      rw [key]
      rfl
  · have hlen : p.length ≠ gridSize * gridSize := fun h => hp (by rw [h]; decide)
    simp only [countedSudoku, solveSudoku, if_pos hlen, hp, false_and, if_false]
    rfl

/-- Entering singles as long as there are any. -/
def runSingles : Nat → List Clue → Bool
  | 0, A => openQuestions A = []
  | n + 1, A => match (openQuestions A).find? (fun q => q.length = 1) with
    | some (x :: _) => runSingles n (A ++ [x])
    | _ => openQuestions A = []

theorem runSingles_singles : ∀ n A, runSingles n A = true → Singles A := by
  intro n
  induction n with
  | zero => intro A h; exact .done (by simpa [runSingles] using h)
  | succ n ih =>
    intro A h
    rw [runSingles] at h
    split at h
    · next x l hf =>
      have h1 := List.find?_some hf
      have h2 := List.mem_of_find?_eq_some hf
      have : l = [] := by simpa using h1
      subst this
      exact .step h2 (ih _ h)
    · exact .done (by simpa using h)

end Sudoku
