import Verif.Proofs.DL.Final
import Mathlib.Data.List.Dedup

/-!
Property theorems C13-C19 and C65 (dancing links). A matrix `M` is a list of constraints; each constraint is the
list of distinct row indices that satisfy it. `Spec.Hist M log m h` says that `new(M)` followed by the
`add_solution` calls of `log` (with the results in `log`) leads to the matrix object `m` and memory `h`.
`.ok` rules out panics, undefined behaviour (use after free, double free, reads of uninitialised memory)
and non-termination.
-/
namespace DancingLinks.Props
open DancingLinks DancingLinks.Spec

/-- The matrix of Knuth's paper, the example of the theorems below. -/
def knuth : List (List Nat) := [[1, 3], [2, 4], [0, 2], [1, 3, 5], [0, 5], [0, 2], [1, 4, 5]]

theorem knuth_nodup : ∀ col ∈ knuth, col.Nodup := by decide

/-- Knuth's matrix has the exact cover {0, 3, 4}. -/
theorem knuth_cover : ExactCover knuth [0, 3, 4] := by
  refine ⟨by decide, ?_, by decide⟩
  intro r hr
  simp only [List.mem_cons, List.not_mem_nil, or_false] at hr
  rcases hr with rfl | rfl | rfl
  · exact ⟨[0, 2], by decide, by decide⟩
  · exact ⟨[1, 3], by decide, by decide⟩
  · exact ⟨[2, 4], by decide, by decide⟩

/-- `new` succeeds on every matrix, so histories exist for every matrix. -/
theorem new_ok (M : List (List Nat)) (hM : ∀ col ∈ M, col.Nodup) :
    ∃ m h, Matrix.new Heap.empty M = .ok (m, h) ∧ Hist M [] m h ∧ m.partialSolution = [] := by
  obtain ⟨h0, rows0, HR0, V0, RW, e, _, _⟩ := new_bld hM
  exact ⟨_, _, e, .new e, rfl⟩

/-- C13: `solve` on any matrix returns, and when it returns `Ok(rows)` the rows are distinct and every
constraint contains exactly one of them. -/
theorem C13_solve_sound (M : List (List Nat)) (hM : ∀ col ∈ M, col.Nodup) :
    ∃ m h res h', Matrix.new Heap.empty M = .ok (m, h) ∧ m.solve h = .ok (res, h') ∧
      ∀ rows, res = .ok rows → ExactCover M rows := by
  obtain ⟨m, h, e, H, _⟩ := new_ok M hM
  obtain ⟨res, h', e', _, hr⟩ := solve_hist (hist_inv hM H)
  refine ⟨m, h, res, h', e, e', ?_⟩
  rintro rows rfl
  rcases hr with ⟨S, h1, h2⟩ | ⟨h1, _⟩
  · simp only [pushed, List.filterMap_nil, List.nil_append, Except.ok.injEq] at h1
    subst h1; simpa [accepted] using h2
  · cases h1

/-- On Knuth's matrix `solve` finds a cover (it has one, `knuth_cover`). -/
example : ∃ m h rows h', Matrix.new Heap.empty knuth = .ok (m, h) ∧ m.solve h = .ok (.ok rows, h') ∧ ExactCover knuth rows := by
  obtain ⟨m, h, e, H, _⟩ := new_ok _ knuth_nodup
  obtain ⟨res, h', e', _, ⟨S, h1, h2⟩ | ⟨_, h1⟩⟩ := solve_hist (hist_inv knuth_nodup H)
  · exact ⟨m, h, _, h', e, h1 ▸ e', by simpa [accepted, pushed] using h2⟩
  · exact absurd ⟨_, knuth_cover, by simp [accepted]⟩ h1

/-- C14: if any collection of rows `S` (even with repetitions, or with rows the matrix does not mention)
meets every constraint in exactly one row, `solve` returns `Ok`; otherwise it returns `Err(NoSolution)`. -/
theorem C14_solve_complete (M : List (List Nat)) (hM : ∀ col ∈ M, col.Nodup) :
    ∃ m h res h', Matrix.new Heap.empty M = .ok (m, h) ∧ m.solve h = .ok (res, h') ∧
      ((∃ S : List Nat, ∀ col ∈ M, ∃ r ∈ S, r ∈ col ∧ ∀ r' ∈ S, r' ∈ col → r' = r) → ∃ rows, res = .ok rows) ∧
      ((¬ ∃ S : List Nat, ∀ col ∈ M, ∃ r ∈ S, r ∈ col ∧ ∀ r' ∈ S, r' ∈ col → r' = r) → res = .error .noSolution) := by
  obtain ⟨m, h, e, H, _⟩ := new_ok M hM
  obtain ⟨res, h', e', _, hr⟩ := solve_hist (hist_inv hM H)
  refine ⟨m, h, res, h', e, e', ?_, ?_⟩
  · rintro ⟨S, hS⟩
    rcases hr with ⟨S', h1, _⟩ | ⟨_, h1⟩
    · exact ⟨_, h1⟩
    · exfalso
      apply h1
      refine ⟨(S.filter (fun r => decide (∃ col ∈ M, r ∈ col))).dedup, ⟨List.nodup_dedup _, ?_, ?_⟩, by simp [accepted]⟩
      · intro r hr
        simp only [List.mem_dedup, List.mem_filter, decide_eq_true_eq] at hr
        exact hr.2
      · intro col hc
        obtain ⟨r, h1, h2, h3⟩ := hS col hc
        refine ⟨r, ?_, h2, ?_⟩
        · simp only [List.mem_dedup, List.mem_filter, decide_eq_true_eq]
          exact ⟨h1, col, hc, h2⟩
        · intro r' hr' hin
          simp only [List.mem_dedup, List.mem_filter] at hr'
          exact h3 r' hr'.1 hin
  · intro hn
    rcases hr with ⟨S', h1, h2⟩ | ⟨h1, _⟩
    · exfalso; exact hn ⟨_, h2.once⟩
    · exact h1

/-- A matrix with a cover and one without: `{0}` and `{0, 1}` both need row 0, which then meets `{0, 2}` and leaves
`{2, 1}` to rows 1 and 2 that meet the others. -/
example : (∃ S : List Nat, ∀ col ∈ knuth, ∃ r ∈ S, r ∈ col ∧ ∀ r' ∈ S, r' ∈ col → r' = r) ∧
    ¬ ∃ S : List Nat, ∀ col ∈ [[0], [0, 1], [0, 2], [2, 1]], ∃ r ∈ S, r ∈ col ∧ ∀ r' ∈ S, r' ∈ col → r' = r := by
  refine ⟨⟨_, knuth_cover.once⟩, ?_⟩
  rintro ⟨S, hS⟩
  simp only [List.mem_cons, List.not_mem_nil, or_false, forall_eq_or_imp, forall_eq, exists_eq_right_right] at hS
  obtain ⟨⟨_, h0, rfl, _⟩, ⟨_, _, _, h1⟩, ⟨_, _, _, h2⟩, ⟨r, h3, h4, _⟩⟩ := hS
  rcases h4 with rfl | rfl
  · have a := h2 0 h0 (.inl rfl); have b := h2 2 h3 (.inr rfl); omega
  · have a := h1 0 h0 (.inl rfl); have b := h1 1 h3 (.inr rfl); omega

/-- C16: after any history, the outcome of `add_solution(r)` is `Spec.expected`, which looks only at the
matrix and the rows accepted so far. -/
theorem C16_add_outcome (M : List (List Nat)) (hM : ∀ col ∈ M, col.Nodup) (log) (m : Matrix) (h : Heap)
    (H : Hist M log m h) (r : Nat) :
    m.partialSolution = pushed log ∧
    match expected M (accepted log) r with
    | .index => addSolution m h r = .ok (.error .indexError, m, h)
    | .invalid => addSolution m h r =
        .ok (.error .invalidRow, { m with partialSolution := m.partialSolution ++ [r] }, h)
    | .accepted => ∃ m' h', addSolution m h r = .ok (.ok (), m', h') ∧
        m'.partialSolution = m.partialSolution ++ [r]
    | .dangling => addSolution m h r = .ub := by
  obtain ⟨h0, rows0, HR0, V0, RW, B, C, t, I, rfl, hp⟩ := hist_inv hM H
  refine ⟨hp, ?_⟩
  have A := add_spec B I r
  revert A
  cases expected M (accepted log) r <;> intro A
  · exact A
  · exact A
  · obtain ⟨t', m', e, _, hp'⟩ := A; exact ⟨m', t'.h, e, hp'⟩
  · exact A

/-- A history with an accepted row, a rejected one and an out-of-range one. -/
theorem hist_example : ∃ m h, Hist knuth [(3, .ok ()), (1, .error .invalidRow), (9, .error .indexError)] m h := by
  have hM : ∀ col ∈ knuth, col.Nodup := by decide
  obtain ⟨m, h, _, H, _⟩ := new_ok _ hM
  have h1 := (C16_add_outcome _ hM _ m h H 3).2
  rw [show expected knuth (accepted []) 3 = .accepted by decide] at h1
  obtain ⟨m1, g1, e1, _⟩ := h1
  have H1 := Hist.add H e1
  have h2 := (C16_add_outcome _ hM _ m1 g1 H1 1).2
  rw [show expected knuth (accepted ([] ++ [(3, .ok ())])) 1 = .invalid by decide] at h2
  have H2 := Hist.add H1 h2
  have h3 := (C16_add_outcome _ hM _ _ _ H2 9).2
  rw [show expected knuth (accepted ([] ++ [(3, .ok ())] ++ [(1, .error .invalidRow)])) 9 = .index by decide] at h3
  exact ⟨_, _, Hist.add H2 h3⟩

/-- All four cases occur after row 3 of Knuth's matrix was accepted, the last one in a smaller matrix. -/
example : expected knuth [3] 9 = .index ∧ expected knuth [3] 1 = .invalid ∧ expected knuth [3] 4 = .accepted ∧
    expected [[0, 1], [0]] [0] 1 = .dangling := by decide

/-- The history in which row 3 of Knuth's matrix is accepted. -/
theorem hist_three : ∃ m h, Hist knuth [(3, .ok ())] m h := by
  obtain ⟨m, h, _, H, _⟩ := new_ok _ knuth_nodup
  have h1 := (C16_add_outcome _ knuth_nodup _ m h H 3).2
  rw [show expected knuth (accepted []) 3 = .accepted by decide] at h1
  obtain ⟨m1, g1, e1, _⟩ := h1
  exact ⟨m1, g1, Hist.add H e1⟩

/-- C15: after a history of successful `add_solution` calls for the rows `A`, `solve` returns `Ok` exactly
when `A` extends to an exact cover, and then the returned list is an exact cover that starts with `A`. -/
theorem C15_preselected (M : List (List Nat)) (hM : ∀ col ∈ M, col.Nodup) (A : List Nat) (m : Matrix) (h : Heap)
    (H : Hist M (A.map fun r => (r, .ok ())) m h) :
    ∃ res h', m.solve h = .ok (res, h') ∧
      ((∃ rows, res = .ok rows) ↔ ∃ S, ExactCover M S ∧ ∀ a ∈ A, a ∈ S) ∧
      (∀ rows, res = .ok rows → A <+: rows ∧ ExactCover M rows) ∧
      (∀ err, res = .error err → err = .noSolution) := by
  obtain ⟨res, h', e', _, hr⟩ := solve_hist (hist_inv hM H)
  have e1 : accepted (A.map fun r => (r, Except.ok ())) = A := by
    simp [accepted, List.filterMap_map]
  have e2 : pushed (A.map fun r => (r, Except.ok ())) = A := by
    simp [pushed, List.filterMap_map]
  rw [e1, e2] at hr
  refine ⟨res, h', e', ?_, ?_, ?_⟩
  · constructor
    · rintro ⟨rows, rfl⟩
      rcases hr with ⟨S, h1, h2⟩ | ⟨h1, _⟩
      · exact ⟨_, h2, fun a ha => by simp [ha]⟩
      · cases h1
    · intro hS
      rcases hr with ⟨S, h1, h2⟩ | ⟨_, h1⟩
      · exact ⟨_, h1⟩
      · exact absurd hS h1
  · rintro rows rfl
    rcases hr with ⟨S, h1, h2⟩ | ⟨h1, _⟩
    · simp only [Except.ok.injEq] at h1
      subst h1; exact ⟨List.prefix_append _ _, h2⟩
    · cases h1
  · rintro err rfl
    rcases hr with ⟨S, h1, _⟩ | ⟨h1, _⟩
    · cases h1
    · simpa using h1

/-- With row 3 selected first, Knuth's matrix is solved by a list starting with 3. -/
example : ∃ m h rows h', Hist knuth [(3, .ok ())] m h ∧ m.solve h = .ok (.ok rows, h') ∧ [3] <+: rows ∧
    ExactCover knuth rows := by
  obtain ⟨m, h, H⟩ := hist_three
  obtain ⟨res, h', e, h1, h2, _⟩ := C15_preselected knuth knuth_nodup [3] m h H
  obtain ⟨rows, rfl⟩ := h1.mpr ⟨_, knuth_cover, by decide⟩
  exact ⟨m, h, rows, h', H, e, h2 rows rfl⟩

/-- C15 for arbitrary histories, failed calls included: the returned list is the list of all rows pushed
(rows refused with `InvalidRow` stay in it) followed by rows completing the accepted ones. -/
theorem C15_any_history (M : List (List Nat)) (hM : ∀ col ∈ M, col.Nodup) (log) (m : Matrix) (h : Heap)
    (H : Hist M log m h) :
    ∃ res h', m.solve h = .ok (res, h') ∧
      ((∃ S, res = .ok (pushed log ++ S) ∧ ExactCover M (accepted log ++ S)) ∨
       (res = .error .noSolution ∧ ¬ ∃ S, ExactCover M S ∧ ∀ a ∈ accepted log, a ∈ S)) := by
  obtain ⟨res, h', e', _, hr⟩ := solve_hist (hist_inv hM H)
  exact ⟨res, h', e', hr⟩

/-- After the calls of `hist_example` (3 accepted, 1 refused, 9 out of range) the refused row 1 stays in the answer. -/
example : ∃ (m : Matrix) (h : Heap) (S : List Nat) (h' : Heap), m.solve h = .ok (.ok (3 :: 1 :: S), h') ∧ ExactCover knuth (3 :: S) := by
  obtain ⟨m, h, H⟩ := hist_example
  obtain ⟨res, h', e, ⟨S, h1, h2⟩ | ⟨_, h1⟩⟩ := C15_any_history knuth knuth_nodup _ m h H
  · exact ⟨m, h, S, h', h1 ▸ e, h2⟩
  · exact absurd ⟨_, knuth_cover, by decide⟩ h1

/-- C16, read off in the other direction: each possible result characterised by the history. -/
theorem C16_results (M : List (List Nat)) (hM : ∀ col ∈ M, col.Nodup) (log) (m : Matrix) (h : Heap)
    (H : Hist M log m h) (r : Nat) :
    ((∃ x, addSolution m h r = .ok (.error .indexError, x)) ↔ ∀ col ∈ M, ∀ x ∈ col, x < r) ∧
    ((∃ x, addSolution m h r = .ok (.ok (), x)) ↔
      Occurs M r ∧ ∀ a ∈ accepted log, ¬ ∃ col ∈ M, r ∈ col ∧ a ∈ col) ∧
    ((∃ x, addSolution m h r = .ok (.error .invalidRow, x)) ↔
      (¬ Occurs M r ∧ ∃ col ∈ M, ∃ x ∈ col, r ≤ x) ∨
      (Occurs M r ∧ ∃ a, (accepted log).find? (conflict M r) = some a ∧ r ∈ lastCol M a)) ∧
    (addSolution m h r = .ub ↔
      Occurs M r ∧ ∃ a, (accepted log).find? (conflict M r) = some a ∧ r ∉ lastCol M a) := by
  have key := (C16_add_outcome M hM log m h H r).2
  have hb : (∀ col ∈ M, r ∉ col) ↔ ¬ Occurs M r := by simp [Occurs]
  have ix : (∀ col ∈ M, ∀ x ∈ col, x < r) → ¬ Occurs M r := by
    rintro h1 ⟨col, h2, h3⟩; exact absurd (h1 col h2 r h3) (lt_irrefl _)
  have nix : ¬ (∀ col ∈ M, ∀ x ∈ col, x < r) ↔ ∃ col ∈ M, ∃ x ∈ col, r ≤ x := by simp
  have hc : (∀ a ∈ accepted log, ¬ ∃ col ∈ M, r ∈ col ∧ a ∈ col) ↔ (accepted log).find? (conflict M r) = none := by
    simp [List.find?_eq_none, conflict]
  rw [← nix, hc]
  unfold expected at key
  split_ifs at key with c1 c2
  · simp only at key
    have := ix c1
    simp only [key, this]; simp; exact c1
  · simp only at key
    rw [hb] at c2
    simp [key, c1, c2]
  · rw [hb, not_not] at c2
    cases hf : (accepted log).find? (conflict M r) with
    | none =>
      rw [hf] at key
      simp only at key
      obtain ⟨m', h', e, _⟩ := key
      simp [e, c1, c2]
    | some a =>
      rw [hf] at key
      simp only at key
      split_ifs at key with c3
      · simp only at key
        simp [key, c1, c2, c3]
      · simp only at key
        simp [key, c1, c2, c3]

/-- Row 4 is accepted after row 3 in Knuth's matrix, row 1 is refused. -/
example : ∃ m h, Hist knuth [(3, .ok ())] m h ∧ (∃ x, addSolution m h 4 = .ok (.ok (), x)) ∧
    ∃ x, addSolution m h 1 = .ok (.error .invalidRow, x) := by
  obtain ⟨m, h, H⟩ := hist_three
  refine ⟨m, h, H, (C16_results knuth knuth_nodup _ m h H 4).2.1.mpr ⟨⟨[2, 4], by decide, by decide⟩, ?_⟩,
    (C16_results knuth knuth_nodup _ m h H 1).2.2.1.mpr (.inr ⟨⟨[1, 3], by decide, by decide⟩, 3, by decide, by decide⟩)⟩
  decide

/-- C16, the failing case exists: with constraints `[0, 1]` and `[0]`, calling `add_solution(0)` and then
`add_solution(1)` dereferences a freed node. -/
theorem C16_use_after_free : ∃ m h, Hist [[0, 1], [0]] [(0, .ok ())] m h ∧ addSolution m h 1 = .ub := by
  have hM : ∀ col ∈ [[0, 1], [0]], col.Nodup := by decide
  obtain ⟨m, h, _, H, _⟩ := new_ok _ hM
  have h1 := (C16_add_outcome _ hM _ m h H 0).2
  have e1 : expected [[0, 1], [0]] (accepted []) 0 = .accepted := by decide
  rw [e1] at h1
  obtain ⟨m', h', e, _⟩ := h1
  have H' := Hist.add H e
  have h2 := (C16_add_outcome _ hM _ m' h' H' 1).2
  have e2 : expected [[0, 1], [0]] (accepted ([] ++ [(0, .ok ())])) 1 = .dangling := by decide
  rw [e2] at h2
  exact ⟨m', h', H', h2⟩

/-- Every non-empty matrix has a reachable memory with an active column. -/
theorem active_exists (M : List (List Nat)) (hM : ∀ col ∈ M, col.Nodup) (hne : M ≠ []) :
    ∃ root h p, Reach M root h ∧ ActiveCol h root p := by
  obtain ⟨h0, rows0, HR0, V0, RW, e, B, C⟩ := new_bld hM
  have o := B.ok C
  cases hHR : HR0 with
  | nil => have := B.mat; rw [hHR] at this; exact absurd this.symm hne
  | cons c l =>
    have hf := o.core.hring.first
    obtain ⟨n, hn⟩ := o.core.liveR
    simp only [layOf] at hf hn
    rw [node_of_mem hn, ] at hf
    simp only [hHR, List.cons_append, List.head_cons] at hf
    have hc := B.bndH c (by rw [hHR]; simp)
    refine ⟨1, h0, c, .hist (.new e) rfl, Or.inl ?_⟩
    rw [← hf]
    exact Walk.first hn (by rw [hf]; omega)

/-- C17: for every reachable memory and every active column, covering it succeeds and uncovering it
afterwards gives back the identical memory. -/
theorem C17_cover_uncover (M : List (List Nat)) (hM : ∀ col ∈ M, col.Nodup) (root : Nat) (h : Heap)
    (R : Reach M root h) (p : Nat) (hp : ActiveCol h root p) :
    ∃ h', coverColumn h p = .ok h' ∧ uncoverColumn h' p = .ok h := by
  obtain ⟨L, t, G, o, rfl, rfl⟩ := reach_inv hM R
  obtain ⟨c, hc, hpc⟩ := active_col o hp
  refine ⟨(t.cover L c).h, ?_, ?_⟩
  · rw [coverColumn_eq (toHeader_act o hc hpc), o.cover_exec G hc]
  · rw [uncoverColumn_eq (toHeader_after G o hc hpc), o.uncover_exec G hc]

example : ∃ root h p h', Reach knuth root h ∧ ActiveCol h root p ∧ coverColumn h p = .ok h' ∧ uncoverColumn h' p = .ok h := by
  obtain ⟨root, h, p, R, A⟩ := active_exists knuth knuth_nodup (by decide)
  obtain ⟨h', h1, h2⟩ := C17_cover_uncover knuth knuth_nodup root h R p A
  exact ⟨root, h, p, h', R, A, h1, h2⟩

/-- C18: from every reachable memory the search returns (no counter underflow, which would be a panic), and
when it returns `false` the memory and the partial solution are what they were on entry. -/
theorem C18_failed_search_pure (M : List (List Nat)) (hM : ∀ col ∈ M, col.Nodup) (root : Nat) (h : Heap)
    (R : Reach M root h) (ps : List Nat) :
    ∃ found h' ps', solveHelper root h ps = .ok (found, h', ps') ∧ (found = false → h' = h ∧ ps' = ps) := by
  obtain ⟨L, t, G, o, rfl, rfl⟩ := reach_inv hM R
  rcases solveHelper_spec G _ t o rfl ps with ⟨S, h1, e, _, _, _⟩ | ⟨e, _, _⟩
  · exact ⟨true, h1, _, e, by simp⟩
  · exact ⟨false, t.h, ps, e, by simp⟩

/-- Reachable memories exist for every matrix, and searches fail: `[[0], [0, 1], [1]]` has no cover. -/
example : ∃ root h, Reach [[0], [0, 1], [1]] root h ∧ algorithmX [[0], [0, 1], [1]] = none := by
  obtain ⟨root, h, _, R, _⟩ := active_exists [[0], [0, 1], [1]] (by decide) (by decide)
  exact ⟨root, h, R, by decide⟩

/-- C19: after any history that returned, both exits — `solve` and plain `drop` — complete without
touching freed memory and leave every node ever allocated freed. -/
theorem C19_no_leak (M : List (List Nat)) (hM : ∀ col ∈ M, col.Nodup) (log) (m : Matrix) (h : Heap)
    (H : Hist M log m h) :
    (∃ res h', m.solve h = .ok (res, h') ∧ AllFreed h') ∧ (∃ h', m.drop h = .ok h' ∧ AllFreed h') := by
  obtain ⟨res, h', e, f, _⟩ := solve_hist (hist_inv hM H)
  exact ⟨⟨res, h', e, f⟩, drop_hist (hist_inv hM H)⟩

example : ∃ (m : Matrix) (h : Heap), (∃ res h', m.solve h = .ok (res, h') ∧ AllFreed h') ∧ (∃ h', m.drop h = .ok h' ∧ AllFreed h') ∧
    m.partialSolution = [3, 1] := by
  obtain ⟨m, h, H⟩ := hist_example
  have := C19_no_leak knuth knuth_nodup _ m h H
  exact ⟨m, h, this.1, this.2, (C16_add_outcome knuth knuth_nodup _ m h H 0).1⟩

/-! ### Refinement to Algorithm X -/

theorem residual_length {M : List (List Nat)} {col : List Nat} {r : Nat} (hc : col ∈ M) (hr : r ∈ col) :
    (residual M [r]).length < M.length := by
  simp only [residual, List.length_map]
  refine List.length_filter_lt_length_iff_exists.2 ⟨col, hc, ?_⟩
  simp [hr]

theorem firstShortest_mem {M : List (List Nat)} {d : List Nat} (h : firstShortest M = some d) :
    d ∈ M ∧ ∀ col ∈ M, d.length ≤ col.length := by
  induction M generalizing d with
  | nil => simp [firstShortest] at h
  | cons x p ih =>
    simp only [firstShortest] at h
    cases hf : firstShortest p with
    | none =>
      rw [hf] at h
      simp only [Option.some.injEq] at h
      subst h
      cases p with
      | nil => simp
      | cons y p =>
        simp only [firstShortest] at hf
        split at hf
        · cases hf
        · split at hf <;> cases hf
    | some y =>
      rw [hf] at h
      obtain ⟨h1, h2⟩ := ih hf
      simp only at h
      split at h <;> simp only [Option.some.injEq] at h <;> subst h
      · refine ⟨by simp, ?_⟩
        intro col hcol
        simp only [List.mem_cons] at hcol
        rcases hcol with rfl | hcol
        · exact Nat.le_refl _
        · exact Nat.le_trans ‹_› (h2 col hcol)
      · refine ⟨by simp [h1], ?_⟩
        intro col hcol
        simp only [List.mem_cons] at hcol
        rcases hcol with rfl | hcol
        · omega
        · exact h2 col hcol

theorem search_stable : ∀ (k : Nat) (M : List (List Nat)), M.length ≤ k → ∀ n, M.length ≤ n →
    search n M = search k M := by
  intro k
  induction k with
  | zero =>
    intro M hM n _
    have : M = [] := List.length_eq_zero_iff.1 (by omega)
    subst this
    cases n <;> simp [search, firstShortest]
  | succ k ih =>
    intro M hM n hn
    cases n with
    | zero =>
      have : M = [] := List.length_eq_zero_iff.1 (by omega)
      subst this
      simp [search, firstShortest]
    | succ n =>
      simp only [search]
      cases hf : firstShortest M with
      | none => rfl
      | some col =>
        have hc := (firstShortest_mem hf).1
        simp only
        have key : ∀ l : List Nat, (∀ r ∈ l, r ∈ col) →
            l.findSome? (fun r => (search n (residual M [r])).map (r :: ·)) =
            l.findSome? (fun r => (search k (residual M [r])).map (r :: ·)) := by
          intro l
          induction l with
          | nil => intro _; rfl
          | cons r l ihl =>
            intro hl
            have hlt := residual_length hc (hl r (by simp))
            rw [List.findSome?_cons, List.findSome?_cons, ihl fun x hx => hl x (by simp [hx]),
              ih (residual M [r]) (by omega) n (by omega)]
        exact key col fun _ h => h

/-- `algorithmX` is Algorithm X: nothing left to cover is success, otherwise the first shortest constraint is chosen
and its rows are tried in order, each on the matrix it leaves (a fact about the specification). -/
theorem algorithmX_eq (M : List (List Nat)) :
    algorithmX M = match firstShortest M with
      | none => some []
      | some col => col.findSome? fun r => (algorithmX (residual M [r])).map (r :: ·) := by
  unfold algorithmX
  rw [search_stable (M.length + 1) M (by omega) M.length (Nat.le_refl _)]
  simp only [search]
  cases hf : firstShortest M with
  | none => rfl
  | some col =>
    have hc := (firstShortest_mem hf).1
    simp only
    have key : ∀ l : List Nat, (∀ r ∈ l, r ∈ col) →
        l.findSome? (fun r => (search M.length (residual M [r])).map (r :: ·)) =
        l.findSome? (fun r => (search (residual M [r]).length (residual M [r])).map (r :: ·)) := by
      intro l
      induction l with
      | nil => intro _; rfl
      | cons r l ihl =>
        intro hl
        have hlt := residual_length hc (hl r (by simp))
        rw [List.findSome?_cons, List.findSome?_cons, ihl fun x hx => hl x (by simp [hx]),
          search_stable _ (residual M [r]) (Nat.le_refl _) M.length (by omega)]
    exact key col fun _ h => h

/-- C65: after any history of `add_solution` calls, `solve` returns exactly what Algorithm X finds on the matrix left
by the accepted rows, appended to the rows pushed. -/
theorem C65_algorithm_x (M : List (List Nat)) (hM : ∀ col ∈ M, col.Nodup) (log) (m : Matrix) (h : Heap)
    (H : Hist M log m h) :
    ∃ h', m.solve h = .ok ((match algorithmX (residual M (accepted log)) with
      | some S => .ok (pushed log ++ S)
      | none => .error .noSolution), h') := by
  obtain ⟨res, h', e, f, ⟨S, h1, h2, h3⟩ | ⟨h1, h2, h3⟩⟩ := solve_histX (hist_inv hM H)
  · exact ⟨h', by rw [e, h3, h1]⟩
  · exact ⟨h', by rw [e, h3, h1]⟩

/-- Algorithm X finds the cover of Knuth's matrix in the order 3, 0, 4 and, after row 3 was selected, 0, 4. -/
example : algorithmX knuth = some [3, 0, 4] ∧ algorithmX (residual knuth [3]) = some [0, 4] := by decide

/-- So that is what `solve` returns there. -/
example : ∃ m h h', Hist knuth [(3, .ok ())] m h ∧ m.solve h = .ok (.ok [3, 0, 4], h') := by
  obtain ⟨m, h, H⟩ := hist_three
  obtain ⟨h', e⟩ := C65_algorithm_x knuth knuth_nodup _ m h H
  rw [show algorithmX (residual knuth (accepted [(3, .ok ())])) = some [0, 4] by decide] at e
  exact ⟨m, h, h', H, e⟩

end DancingLinks.Props
