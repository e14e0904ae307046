import Verif.Proofs.DL.Session

/-! C98, C99: the allocator and the rest of the memory. -/
namespace DancingLinks.Props
open DancingLinks DancingLinks.Spec DancingLinks.Alloc

/-- C98. Wherever the allocator puts the nodes and whatever else is in memory: making a matrix, adding rows to the partial
solution and solving gives the answers it gives over the addresses 1, 2, 3, ...; it panics, uses memory wrongly or runs forever
exactly if it does so there. No other cell of the memory is changed. Constraints with repetitions are included. -/
theorem C98_session (M : List (List Nat)) (rows : List Nat) (al : Nat → Nat) (h0 : Heap) (ha : Distinct al (nodes M))
    (hb : Before h0) :
    (Prod.fst <$> session (Matrix.newAt al h0 M) rows) = (Prod.fst <$> session (Matrix.new Heap.empty M) rows) ∧
    ∀ x h', session (Matrix.newAt al h0 M) rows = .ok (x, h') →
      ∀ q, (∀ k, 1 ≤ k → k ≤ nodes M → q ≠ al k) → h'.mem q = h0.mem q := by
  have R := session_rel M rows ha hb
  cases eo : session (Matrix.new Heap.empty M) rows with
  | ok r =>
    obtain ⟨y, h⟩ := r
    obtain ⟨⟨y', h''⟩, e', t1, S⟩ := Rel.of_ok R eo
    simp only at t1 S
    subst t1
    rw [e']
    refine ⟨rfl, fun x h' e => ?_⟩
    cases e
    exact sim_frame S
  | panic => rw [Rel.of_panic R eo]; exact ⟨rfl, nofun⟩
  | ub => rw [Rel.of_ub R eo]; exact ⟨rfl, nofun⟩
  | diverge => rw [Rel.of_diverge R eo]; exact ⟨rfl, nofun⟩

/-- C98, constraints without repetitions. If everything returns, every node that was allocated has been freed. -/
theorem C98_clean (M : List (List Nat)) (hM : ∀ col ∈ M, col.Nodup) (rows : List Nat) (al : Nat → Nat) (h0 : Heap)
    (ha : Distinct al (nodes M)) (hb : Before h0) (x h') (e : session (Matrix.newAt al h0 M) rows = .ok (x, h')) :
    ∀ k, 1 ≤ k → k ≤ nodes M → h'.mem (al k) = .freed := by
  have R := session_rel M rows ha hb
  rcases session_cases hM rows with hu | ⟨y, h, eo, f⟩
  · rw [Rel.of_ub R hu] at e; cases e
  · obtain ⟨⟨y', h''⟩, e', t1, S⟩ := Rel.of_ok R eo
    rw [e'] at e
    cases e
    exact sim_freed S f

/-- A constraint that names a row twice: freed memory is used wherever the nodes lie. -/
example : (Prod.fst <$> session (Matrix.newAt (fun k => 8 * k) ⟨fun _ => .unalloc, 1⟩ [[0, 1, 0]]) []) = .ub := by
  rw [(C98_session [[0, 1, 0]] [] (fun k => 8 * k) ⟨fun _ => .unalloc, 1⟩ (fun i h1 _ => ⟨by show 8 * i ≠ 0; omega, fun j _ _ e => by
    replace e : 8 * i = 8 * j := e; omega⟩) ⟨rfl, rfl⟩).1]
  have h := C82_false.2.2
  unfold solveNew at h
  unfold session
  cases e1 : Matrix.new Heap.empty [[0, 1, 0]] with
  | ok r =>
    obtain ⟨m, h'⟩ := r
    rw [e1] at h
    simp only [Prog.ok_bind, addRows] at h ⊢
    cases e2 : m.solve h' with
    | ok r => rw [e2] at h; cases h
    | panic => rw [e2] at h; cases h
    | ub => rfl
    | diverge => rw [e2] at h; cases h
  | panic => rw [e1] at h; cases h
  | ub => rfl
  | diverge => rw [e1] at h; cases h

/-- Two matrices after each other: the second one is put where the nodes of the first one were freed, in reverse order; it
gives the same answers as the first. -/
example : ∃ x h1 h2, session (Matrix.newAt (fun k => 60 - 2 * k) ⟨fun _ => .unalloc, 1⟩ knuth) [] = .ok (x, h1) ∧
    session (Matrix.newAt (fun k => 2 * k) { h1 with next := 1 } knuth) [] = .ok (x, h2) := by
  have hM : ∀ col ∈ knuth, (col : List Nat).Nodup := by decide
  obtain ⟨m, h, res, h', e1, e2, _⟩ := C13_solve_sound knuth hM
  have e : session (Matrix.new Heap.empty knuth) [] = .ok (([], res), h') := by
    unfold session
    simp only [e1, Prog.ok_bind, addRows, e2]
    rfl
  have d1 : Distinct (fun k => 60 - 2 * k) (nodes knuth) := fun i h1 h2 => by
    have : i ≤ 25 := Nat.le_trans h2 (by decide)
    refine ⟨by show 60 - 2 * i ≠ 0; omega, fun j h3 h4 h5 => ?_⟩
    replace h5 : 60 - 2 * i = 60 - 2 * j := h5
    have : j ≤ 25 := Nat.le_trans h4 (by decide)
    omega
  have d2 : Distinct (fun k => 2 * k) (nodes knuth) := fun i h1 h2 => ⟨by show 2 * i ≠ 0; omega, fun j h3 h4 h5 => by
    replace h5 : 2 * i = 2 * j := h5; omega⟩
  have ret : ∀ {p : Prog ((List (Except DLError Unit) × Except DLError (List Nat)) × Heap)} {x},
      (Prod.fst <$> p) = Prog.ok x → ∃ h, p = .ok (x, h) := fun {p x} e => by
    cases p with
    | ok r => obtain ⟨y, h⟩ := r; cases e; exact ⟨h, rfl⟩
    | panic => cases e
    | ub => cases e
    | diverge => cases e
  have e0 : (Prod.fst <$> session (Matrix.new Heap.empty knuth) []) = .ok ([], res) := by rw [e]; rfl
  obtain ⟨g1, f1⟩ := C98_session knuth [] _ ⟨fun _ => .unalloc, 1⟩ d1 ⟨rfl, rfl⟩
  obtain ⟨h1, s1⟩ := ret (g1.trans e0)
  replace f1 := f1 _ _ s1
  have b2 : Before { h1 with next := 1 } := ⟨rfl, f1 0 fun k h3 h4 => by
    have : k ≤ 25 := Nat.le_trans h4 (by decide)
    omega⟩
  obtain ⟨h2, s2⟩ := ret ((C98_session knuth [] _ _ d2 b2).1.trans e0)
  exact ⟨_, h1, h2, s1, s2⟩

/-- C99. Let the allocator return different addresses, or null. `DancingMatrix::new` makes `nodes M` calls of `alloc` and does
not look at the results: it returns if none of them is null, and writes through the null pointer otherwise. -/
theorem C99_null (M : List (List Nat)) (al : Nat → Nat) (h0 : Heap) (hb : Before h0)
    (ha : ∀ i j, 1 ≤ i → i ≤ nodes M → 1 ≤ j → j ≤ nodes M → al i = al j → al i = 0 ∨ i = j) :
    ((∀ k, 1 ≤ k → k ≤ nodes M → al k ≠ 0) → ∃ m h, Matrix.newAt al h0 M = .ok (m, h)) ∧
    ((∃ k, 1 ≤ k ∧ k ≤ nodes M ∧ al k = 0) → Matrix.newAt al h0 M = .ub) := by
  constructor
  · intro hne
    have hd : Distinct al (nodes M) := fun i h1 h2 => ⟨hne i h1 h2, fun j h3 h4 e =>
      (ha i j h1 h2 h3 h4 e).resolve_left (hne i h1 h2)⟩
    obtain ⟨m, h, e, _⟩ := new_all M
    obtain ⟨⟨m', h'⟩, e', _⟩ := Rel.of_ok (new_rel (place_map hd) (place_al al _) M hb.1 hb.2 rfl) e
    exact ⟨m', h', e'⟩
  · rintro ⟨k, h1, h2, h3⟩
    obtain ⟨N, hN, hz, hlt⟩ : ∃ N, N + 1 ≤ nodes M ∧ al (N + 1) = 0 ∧ ∀ i, 1 ≤ i → i ≤ N → al i ≠ 0 := by
      induction k using Nat.strongRecOn with
      | ind k ih =>
        by_cases hk : ∃ i, 1 ≤ i ∧ i < k ∧ al i = 0
        · obtain ⟨i, i1, i2, i3⟩ := hk
          exact ih i i2 i1 (by omega) i3
        · exact ⟨k - 1, by omega, by rw [Nat.sub_add_cancel h1]; exact h3, fun i i1 i2 i3 => hk ⟨i, i1, by omega, i3⟩⟩
    have hd : Distinct al N := fun i h1 h2 => ⟨hlt i h1 h2, fun j h3 h4 e =>
      (ha i j h1 (by omega) h3 (by omega) e).resolve_left (hlt i h1 h2)⟩
    have P := place_map hd
    have hal := place_al al N
    have S := empty_sim hb.1 hb.2 (place al) N
    unfold Matrix.newAt
    by_cases h0' : N = 0
    · subst h0'
      rw [newHeader_null hb.2 (by rw [hb.1]; exact hz)]
      rfl
    · have w0 : Whole Heap.empty := ⟨by simp [Heap.empty], fun p h1 h2 => by simp [Heap.empty] at h2; omega⟩
      obtain ⟨h, e, w, hnx⟩ := newHeader_whole w0 (pv := 0) (num := 0) (by simp [Heap.empty])
      have := S.newHeader P (hal 1 Nat.one_pos (by omega)) (by omega) (prev := 0) Nat.one_pos 0
      rw [P.zero] at this
      obtain ⟨⟨y1, y2⟩, e', e1, e2, S⟩ := Rel.of_ok this e
      simp only at e1 e2 S
      subst e2
      rw [e', Prog.ok_bind]
      simp only
      have hnx' : h.next = 2 := hnx
      rw [newColumns_null P hal hz M 2 (h, [], 1) (y2, [], place al 1) ⟨S, nofun, by simp only; omega, rfl, rfl⟩
        ⟨w, nofun, by simp only; omega⟩ (by unfold nodes at hN; omega)]
      rfl

/-- The third of the five allocations for two constraints on two rows fails. -/
example : Matrix.newAt (fun k => if k = 3 then 0 else 10 * k) ⟨fun _ => .unalloc, 1⟩ [[0], [1]] = .ub :=
  (C99_null [[0], [1]] _ _ ⟨rfl, rfl⟩ fun i j h1 h2 h3 h4 e => by
    replace e : (if i = 3 then 0 else 10 * i) = if j = 3 then 0 else 10 * j := e
    show (if i = 3 then 0 else 10 * i) = 0 ∨ i = j
    split at e <;> split at e <;> simp_all).2 ⟨3, by decide, by decide, rfl⟩

end DancingLinks.Props

namespace Sudoku.Props
open DancingLinks DancingLinks.Spec DancingLinks.Alloc Sudoku Sudoku.Spec Sudoku.Alloc

/-- C98, sudoku. The answer of `solve_sudoku`, and whether it uses freed memory, does not depend on the allocator and the
other contents of the memory. If it returns, the nodes it has allocated are freed and all other cells are as before. -/
theorem C98_sudoku (p : List UInt8) (al : Nat → Nat) (h0 : Heap) (ha : Distinct al 3241) (hb : Before h0) :
    (Prod.fst <$> solveSudokuAt al h0 p) = (Prod.fst <$> solveSudoku p) ∧
    ∀ res h', solveSudokuAt al h0 p = .ok (res, h') →
      (∀ k, 1 ≤ k → k ≤ 3241 → h'.mem (al k) = if p.length = 81 then .freed else h0.mem (al k)) ∧
      (∀ q, (∀ k, 1 ≤ k → k ≤ 3241 → q ≠ al k) → h'.mem q = h0.mem q) := by
  by_cases hp : p.length = 81
  · have R := solveSudoku_rel p hp (nodes_constraints.symm.trans (nodes_def _)) ha hb
    have key : solveSudoku p = .ub ∨ ∃ res h, solveSudoku p = .ok (res, h) := by
      have key := solveSudoku_spec p hp
      cases hv : verdict [] (clues p) with
      | search => rw [hv] at key; obtain ⟨res, h', e, _⟩ := key; exact .inr ⟨_, _, e⟩
      | reject => rw [hv] at key; obtain ⟨h', e, _⟩ := key; exact .inr ⟨_, _, e⟩
      | dangling => rw [hv] at key; exact .inl key
    rcases key with hu | ⟨res, h, e⟩
    · rw [Rel.of_ub R hu, hu]; exact ⟨rfl, nofun⟩
    · have f := C06_no_leak p res h e
      obtain ⟨⟨y', h''⟩, e', t1, S⟩ := Rel.of_ok R e
      simp only at t1 S
      subst t1
      rw [e', e]
      refine ⟨rfl, fun x h' e => ?_⟩
      cases e
      simp only [hp, if_true]
      exact ⟨sim_freed S f, sim_frame S⟩
  · unfold solveSudokuAt solveSudoku
    rw [if_pos (by simpa [gridSize] using hp), if_pos (by simpa [gridSize] using hp)]
    refine ⟨rfl, fun res h' e => ?_⟩
    cases e
    simp [hp]

/-- C99, sudoku. `solve_sudoku` allocates 3241 nodes for a puzzle of 81 entries. If one of these allocations fails, it writes
through the null pointer. -/
theorem C99_sudoku (p : List UInt8) (hp : p.length = 81) (al : Nat → Nat) (h0 : Heap) (hb : Before h0)
    (ha : ∀ i j, 1 ≤ i → i ≤ 3241 → 1 ≤ j → j ≤ 3241 → al i = al j → al i = 0 ∨ i = j)
    (h : ∃ k, 1 ≤ k ∧ k ≤ 3241 ∧ al k = 0) : solveSudokuAt al h0 p = .ub := by
  unfold solveSudokuAt
  rw [if_neg (by simp [gridSize, hp]), (DancingLinks.Props.C99_null constraints al h0 hb (by rw [nodes_constraints]; exact ha)).2
    (by rw [nodes_constraints]; exact h)]
  rfl

/-- Something else lies at address 5 and stays there while a filled-in grid is checked. -/
example (n : Node) (g : List UInt8) (V : Valid g) :
    ∃ h', solveSudokuAt (fun k => 7 * k + 1000) ⟨fun q => if q = 5 then .live n else .unalloc, 1⟩ g = .ok (.ok g, h') ∧
      h'.mem 5 = .live n := by
  have ha : Distinct (fun k => 7 * k + 1000) 3241 := fun i h1 h2 => ⟨by show 7 * i + 1000 ≠ 0; omega, fun j h3 h4 e => by
    replace e : 7 * i + 1000 = 7 * j + 1000 := e; omega⟩
  obtain ⟨h, e⟩ := C04_fixed_point g V
  obtain ⟨e1, e2⟩ := C98_sudoku g _ ⟨fun q => if q = 5 then .live n else .unalloc, 1⟩ ha ⟨rfl, rfl⟩
  rw [e] at e1
  rcases hr : solveSudokuAt (fun k => 7 * k + 1000) ⟨fun q => if q = 5 then .live n else .unalloc, 1⟩ g with ⟨r, h'⟩ | _ | _ | _
  · rw [hr] at e1
    have : r = .ok g := by injection e1
    subst this
    exact ⟨h', rfl, (e2 _ _ hr).2 5 fun k _ _ => by omega⟩
  all_goals rw [hr] at e1; exact nomatch e1

end Sudoku.Props
