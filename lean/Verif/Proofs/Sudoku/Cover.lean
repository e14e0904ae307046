import Verif.Proofs.Sudoku.Table
import Verif.Spec.Sudoku
import Verif.Spec.DancingLinks
import Mathlib.Data.List.Sort
import Mathlib.Data.List.Perm.Subperm
import Mathlib.Data.List.Nodup
import Mathlib.Tactic.IntervalCases

/-! The sudoku exact-cover matrix: constraints by arithmetic, exact covers = finished grids. -/
namespace Sudoku
open DancingLinks.Spec Sudoku.Spec

/-- Digits of a row number in the mixed base 3, 3, 3, 3, 9. -/
theorem decomp (r : Nat) : ∃ A x B y d, r = 243 * A + 81 * x + 27 * B + 9 * y + d ∧ x < 3 ∧ B < 3 ∧ y < 3 ∧ d < 9 := by
  refine ⟨r / 9 / 3 / 3 / 3, r / 9 / 3 / 3 % 3, r / 9 / 3 % 3, r / 9 % 3, r % 9, ?_, ?_, ?_, ?_, ?_⟩ <;> omega
theorem decomp_facts {r A x B y d : Nat} (h : r = 243 * A + 81 * x + 27 * B + 9 * y + d) (hx : x < 3)
    (hB : B < 3) (hy : y < 3) (hd : d < 9) :
    r / 243 = A ∧ r / 81 = 3 * A + x ∧ r / 27 = 9 * A + 3 * x + B ∧ r / 9 = 27 * A + 9 * x + 3 * B + y ∧
    r % 9 = d ∧ r / 27 % 3 = B ∧ r / 9 % 9 = 3 * B + y ∧ r % 81 = 27 * B + 9 * y + d ∧ r / 81 % 3 = x ∧
    r / 9 % 3 = y := by
  have e1 : r / 9 = 27 * A + 9 * x + 3 * B + y := by omega
  have e2 : r / 27 = 9 * A + 3 * x + B := by omega
  have e3 : r / 81 = 3 * A + x := by omega
  have e4 : r / 243 = A := by omega
  rw [e1, e2, e3, e4]
  refine ⟨rfl, rfl, rfl, rfl, ?_, ?_, ?_, ?_, ?_, ?_⟩ <;> clear e1 e2 e3 e4
  · omega
  · omega
  · omega
  · omega
  · omega
  · omega

theorem mem_cellCol {k r : Nat} : r ∈ cellCol k ↔ r / 9 = k := by
  simp only [cellCol, List.mem_map, List.mem_range]
  constructor
  · rintro ⟨i, hi, rfl⟩; omega
  · rintro rfl; exact ⟨r % 9, by omega, by omega⟩

theorem mem_rowCol {k r : Nat} : r ∈ rowCol k ↔ r % 9 = k % 9 ∧ r / 81 = k / 9 := by
  simp only [rowCol, List.mem_map, List.mem_range]
  constructor
  · rintro ⟨i, hi, rfl⟩; omega
  · rintro ⟨h1, h2⟩; exact ⟨r / 9 % 9, by omega, by omega⟩

theorem mem_colCol {k r : Nat} (hk : k < 81) : r ∈ colCol k ↔ r % 81 = k ∧ r < 729 := by
  simp only [colCol, List.mem_map, List.mem_range]
  constructor
  · rintro ⟨i, hi, rfl⟩; omega
  · rintro ⟨h1, h2⟩; exact ⟨r / 81, by omega, by omega⟩

theorem mem_boxCol' {A B d r : Nat} (hB : B < 3) (hd : d < 9) :
    r ∈ boxCol (27 * A + 9 * B + d) ↔ ∃ x < 3, ∃ y < 3, r = 243 * A + 81 * x + 27 * B + 9 * y + d := by
  have e1 : (27 * A + 9 * B + d) % 9 = d := by omega
  have e2 : (27 * A + 9 * B + d) % 27 / 9 = B := by
    have : (27 * A + 9 * B + d) % 27 = 9 * B + d := by omega
    omega
  have e3 : (27 * A + 9 * B + d) / 27 = A := by omega
  simp only [boxCol, List.mem_map, List.mem_range, e1, e2, e3]
  constructor
  · rintro ⟨i, hi, rfl⟩
    exact ⟨i / 3, by omega, i % 3, by omega, by omega⟩
  · rintro ⟨x, hx, y, hy, rfl⟩
    refine ⟨3 * x + y, by omega, ?_⟩
    have f1 : (3 * x + y) % 3 = y := by omega
    have f2 : (3 * x + y) / 3 = x := by omega
    rw [f1, f2]; omega

theorem kdecomp (k : Nat) : ∃ A B d, k = 27 * A + 9 * B + d ∧ B < 3 ∧ d < 9 := by
  refine ⟨k / 27, k / 9 % 3, k % 9, ?_, by omega, by omega⟩
  have h1 : k / 27 = k / 9 / 3 := by rw [Nat.div_div_eq_div_mul]
  omega

theorem nodup_map9 (f : Nat → Nat) (h : ∀ i < 9, ∀ j < 9, f i = f j → i = j) : ((List.range 9).map f).Nodup := by
  apply List.Nodup.map_on _ List.nodup_range
  intro x hx y hy e
  exact h x (List.mem_range.1 hx) y (List.mem_range.1 hy) e

theorem mem_constraints {col : List Nat} : col ∈ constraints ↔
    ∃ k < 81, col = cellCol k ∨ col = rowCol k ∨ col = colCol k ∨ col = boxCol k := by
  rw [constraints_eq]
  simp only [List.mem_append, List.mem_map, List.mem_range]
  constructor
  · rintro (((⟨k, h, rfl⟩ | ⟨k, h, rfl⟩) | ⟨k, h, rfl⟩) | ⟨k, h, rfl⟩)
    all_goals exact ⟨k, h, by simp⟩
  · rintro ⟨k, h, rfl | rfl | rfl | rfl⟩
    · exact .inl (.inl (.inl ⟨k, h, rfl⟩))
    · exact .inl (.inl (.inr ⟨k, h, rfl⟩))
    · exact .inl (.inr ⟨k, h, rfl⟩)
    · exact .inr ⟨k, h, rfl⟩

theorem constraints_nodup : ∀ col ∈ constraints, col.Nodup := by
  intro col h
  obtain ⟨k, hk, rfl | rfl | rfl | rfl⟩ := mem_constraints.1 h
  · apply nodup_map9; intro i hi j hj e; omega
  · apply nodup_map9; intro i hi j hj e; omega
  · apply nodup_map9; intro i hi j hj e; omega
  · apply nodup_map9; intro i hi j hj e
    generalize k % 27 / 9 = u at e
    generalize k / 27 = v at e
    generalize k % 9 = w at e
    have : i = 3 * (i / 3) + i % 3 := by omega
    have : j = 3 * (j / 3) + j % 3 := by omega
    omega

theorem occurs_iff {r : Nat} : Occurs constraints r ↔ r < 729 := by
  constructor
  · rintro ⟨col, h, hr⟩
    obtain ⟨k, hk, rfl | rfl | rfl | rfl⟩ := mem_constraints.1 h
    · rw [mem_cellCol] at hr; omega
    · rw [mem_rowCol] at hr; omega
    · rw [mem_colCol hk] at hr; omega
    · obtain ⟨A, B, d, rfl, hB, hd⟩ := kdecomp k
      obtain ⟨x, hx, y, hy, rfl⟩ := (mem_boxCol' hB hd).1 hr
      omega
  · intro h
    exact ⟨cellCol (r / 9), mem_constraints.2 ⟨r / 9, by omega, .inl rfl⟩, mem_cellCol.2 rfl⟩

/-- Two rows of the matrix share a constraint. -/
theorem conflict_iff {r a : Nat} (hr : r < 729) (ha : a < 729) : conflict constraints r a = true ↔
    r / 9 = a / 9 ∨ (r % 9 = a % 9 ∧ (r / 81 = a / 81 ∨ r / 9 % 9 = a / 9 % 9 ∨
      (r / 243 = a / 243 ∧ r / 27 % 3 = a / 27 % 3))) := by
  simp only [conflict, List.any_eq_true, decide_eq_true_eq]
  constructor
  · rintro ⟨col, h, h1, h2⟩
    obtain ⟨k, hk, rfl | rfl | rfl | rfl⟩ := mem_constraints.1 h
    · rw [mem_cellCol] at h1 h2; left; omega
    · rw [mem_rowCol] at h1 h2; right; exact ⟨by omega, .inl (by omega)⟩
    · rw [mem_colCol hk] at h1 h2; right
      refine ⟨by omega, .inr (.inl ?_)⟩
      have e1 : r / 9 % 9 = r % 81 / 9 := by omega
      have e2 : a / 9 % 9 = a % 81 / 9 := by omega
      rw [e1, e2, h1.1, h2.1]
    · obtain ⟨A, B, d, rfl, hB, hd⟩ := kdecomp k
      obtain ⟨x, hx, y, hy, e⟩ := (mem_boxCol' hB hd).1 h1
      obtain ⟨x', hx', y', hy', e'⟩ := (mem_boxCol' hB hd).1 h2
      obtain ⟨f1, _, _, _, f2, f3, _⟩ := decomp_facts e hx hB hy hd
      obtain ⟨g1, _, _, _, g2, g3, _⟩ := decomp_facts e' hx' hB hy' hd
      right; rw [f1, f2, f3, g1, g2, g3]; simp
  · rintro (h | ⟨h, h' | h' | h'⟩)
    · exact ⟨cellCol (a / 9), mem_constraints.2 ⟨a / 9, by omega, .inl rfl⟩, by rw [mem_cellCol, mem_cellCol]; exact ⟨h, rfl⟩⟩
    · exact ⟨rowCol (a / 81 * 9 + a % 9), mem_constraints.2 ⟨_, by omega, .inr (.inl rfl)⟩, by
        rw [mem_rowCol, mem_rowCol]; omega⟩
    · refine ⟨colCol (a % 81), mem_constraints.2 ⟨a % 81, by omega, .inr (.inr (.inl rfl))⟩, ?_⟩
      rw [mem_colCol (by omega), mem_colCol (by omega)]
      have e1 : r % 81 = 9 * (r / 9 % 9) + r % 9 := by omega
      have e2 : a % 81 = 9 * (a / 9 % 9) + a % 9 := by omega
      omega
    · obtain ⟨A, x, B, y, d, e, hx, hB, hy, hd⟩ := decomp r
      have hk : 27 * A + 9 * B + d < 81 := by omega
      obtain ⟨A', x', B', y', d', e', hx', hB', hy', hd'⟩ := decomp a
      obtain ⟨f1, _, _, _, f2, f3, _⟩ := decomp_facts e hx hB hy hd
      obtain ⟨g1, _, _, _, g2, g3, _⟩ := decomp_facts e' hx' hB' hy' hd'
      rw [f2, g2] at h
      rw [f1, f3, g1, g3] at h'
      obtain ⟨rfl, rfl⟩ := h'
      subst h
      exact ⟨boxCol (27 * A + 9 * B + d), mem_constraints.2 ⟨_, hk, .inr (.inr (.inr rfl))⟩,
        (mem_boxCol' hB hd).2 ⟨x, hx, y, hy, e⟩, (mem_boxCol' hB hd).2 ⟨x', hx', y', hy', e'⟩⟩

theorem lastCol_append {L D : List (List Nat)} {a : Nat} {c : List Nat} (hc : c ∈ D) (ha : a ∈ c)
    (hu : ∀ x ∈ D, a ∈ x → x = c) : lastCol (L ++ D) a = c := by
  have hne : D.filter (fun col => decide (a ∈ col)) ≠ [] :=
    List.ne_nil_of_mem (List.mem_filter.2 ⟨hc, by simpa using ha⟩)
  unfold lastCol
  rw [List.filter_append, List.getLast?_append_of_ne_nil _ hne, List.getLast?_eq_getLast_of_ne_nil hne,
    Option.getD_some]
  have := List.mem_filter.1 (List.getLast_mem hne)
  exact hu _ this.1 (by simpa using this.2)

theorem boxCol_inj {a k k' : Nat} (h : a ∈ boxCol k) (h' : a ∈ boxCol k') : k = k' := by
  obtain ⟨A, B, d, rfl, hB, hd⟩ := kdecomp k
  obtain ⟨A', B', d', rfl, hB', hd'⟩ := kdecomp k'
  obtain ⟨x, hx, y, hy, e⟩ := (mem_boxCol' hB hd).1 h
  obtain ⟨x', hx', y', hy', e'⟩ := (mem_boxCol' hB' hd').1 h'
  obtain ⟨f1, _, _, _, f2, f3, _⟩ := decomp_facts e hx hB hy hd
  obtain ⟨g1, _, _, _, g2, g3, _⟩ := decomp_facts e' hx' hB' hy' hd'
  rw [← f1, ← f2, ← f3, ← g1, ← g2, ← g3]

/-- The last constraint of a row is its box constraint. -/
theorem mem_lastCol {r a : Nat} (ha : a < 729) :
    r ∈ lastCol constraints a ↔ r % 9 = a % 9 ∧ r / 243 = a / 243 ∧ r / 27 % 3 = a / 27 % 3 := by
  obtain ⟨A', x', B', y', d', e', hx', hB', hy', hd'⟩ := decomp a
  have hk : 27 * A' + 9 * B' + d' < 81 := by omega
  have hmem : a ∈ boxCol (27 * A' + 9 * B' + d') := (mem_boxCol' hB' hd').2 ⟨x', hx', y', hy', e'⟩
  have key : lastCol constraints a = boxCol (27 * A' + 9 * B' + d') := by
    rw [constraints_eq]
    apply lastCol_append (List.mem_map.2 ⟨_, List.mem_range.2 hk, rfl⟩) hmem
    intro x hx h
    obtain ⟨k, hk', rfl⟩ := List.mem_map.1 hx
    rw [boxCol_inj h hmem]
  obtain ⟨A, x, B, y, d, e, hx, hB, hy, hd⟩ := decomp r
  obtain ⟨f1, _, _, _, f2, f3, _⟩ := decomp_facts e hx hB hy hd
  obtain ⟨g1, _, _, _, g2, g3, _⟩ := decomp_facts e' hx' hB' hy' hd'
  rw [key, mem_boxCol' hB' hd', f1, f2, f3, g1, g2, g3]
  constructor
  · rintro ⟨x2, hx2, y2, hy2, e2⟩
    obtain ⟨k1, _, _, _, k2, k3, _⟩ := decomp_facts e2 hx2 hB' hy2 hd'
    exact ⟨f2.symm.trans k2, f1.symm.trans k1, f3.symm.trans k3⟩
  · rintro ⟨rfl, rfl, rfl⟩
    exact ⟨x, hx, y, hy, e⟩

/-! ### Exact covers and digit functions -/

/-- `f c` is the digit (0-based) of cell `c`; no digit twice in a row, column or box. -/
structure Good (f : Nat → Nat) : Prop where
  lt : ∀ c < 81, f c < 9
  row : ∀ i < 9, ∀ j < 9, ∀ k < 9, f (9 * i + j) = f (9 * i + k) → j = k
  col : ∀ j < 9, ∀ i < 9, ∀ k < 9, f (9 * i + j) = f (9 * k + j) → i = k
  box : ∀ a < 3, ∀ b < 3, ∀ j < 9, ∀ k < 9,
    f (9 * (3 * a + j / 3) + (3 * b + j % 3)) = f (9 * (3 * a + k / 3) + (3 * b + k % 3)) → j = k

/-- Rows of the matrix selected by a digit function. -/
def sel (f : Nat → Nat) : List Nat := (List.range 81).map fun c => 9 * c + f c

theorem perm_range9 (F : Nat → Nat) (hb : ∀ j < 9, F j < 9) (inj : ∀ j < 9, ∀ k < 9, F j = F k → j = k) :
    ((List.range 9).map F).Perm (List.range 9) := by
  have h1 : ((List.range 9).map F).Nodup := nodup_map9 F inj
  have h2 : ((List.range 9).map F) ⊆ List.range 9 := by
    intro x hx
    obtain ⟨j, hj, rfl⟩ := List.mem_map.1 hx
    exact List.mem_range.2 (hb j (List.mem_range.1 hj))
  exact (h1.subperm h2).perm_of_length_le (by simp)

theorem surj9 (F : Nat → Nat) (hb : ∀ j < 9, F j < 9) (inj : ∀ j < 9, ∀ k < 9, F j = F k → j = k) (d : Nat)
    (hd : d < 9) : ∃ j < 9, F j = d := by
  have := (perm_range9 F hb inj).mem_iff (a := d)
  simp only [List.mem_map, List.mem_range] at this
  exact this.2 hd

theorem mem_sel {f : Nat → Nat} (hf : ∀ c < 81, f c < 9) {r : Nat} :
    r ∈ sel f ↔ r / 9 < 81 ∧ f (r / 9) = r % 9 := by
  simp only [sel, List.mem_map, List.mem_range]
  constructor
  · rintro ⟨c, hc, rfl⟩
    have := hf c hc
    have e : (9 * c + f c) / 9 = c := by omega
    rw [e]; omega
  · rintro ⟨h1, h2⟩; exact ⟨r / 9, h1, by omega⟩

theorem sel_nodup {f : Nat → Nat} (hf : ∀ c < 81, f c < 9) : (sel f).Nodup := by
  apply List.Nodup.map_on _ List.nodup_range
  intro x hx y hy e
  have := hf x (List.mem_range.1 hx)
  have := hf y (List.mem_range.1 hy)
  omega

theorem sel_sorted {f : Nat → Nat} (hf : ∀ c < 81, f c < 9) : (sel f).Pairwise (· ≤ ·) := by
  unfold sel
  rw [List.pairwise_map]
  refine List.Pairwise.imp_of_mem ?_ List.pairwise_lt_range
  intro x y hx hy e
  have := hf x (List.mem_range.1 hx)
  omega

theorem Good.exactCover {f : Nat → Nat} (G : Good f) : ExactCover constraints (sel f) := by
  refine ⟨sel_nodup G.lt, ?_, ?_⟩
  · intro r hr
    rw [mem_sel G.lt] at hr
    rw [occurs_iff]; omega
  · intro col h
    obtain ⟨k, hk, rfl | rfl | rfl | rfl⟩ := mem_constraints.1 h
    · have := G.lt k hk
      have e : (9 * k + f k) / 9 = k := by omega
      refine ⟨9 * k + f k, ?_, ?_, ?_⟩
      · rw [mem_sel G.lt, e]; omega
      · rw [mem_cellCol]; exact e
      · intro r hr hc
        rw [mem_sel G.lt] at hr
        rw [mem_cellCol] at hc
        subst hc
        omega
    · obtain ⟨j, hj, e⟩ := surj9 (fun j => f (9 * (k / 9) + j)) (fun j hj => G.lt _ (by omega))
        (fun i hi j hj e => G.row (k / 9) (by omega) i hi j hj e) (k % 9) (by omega)
      have e1 : (9 * (9 * (k / 9) + j) + k % 9) / 9 = 9 * (k / 9) + j := by omega
      refine ⟨9 * (9 * (k / 9) + j) + k % 9, ?_, ?_, ?_⟩
      · rw [mem_sel G.lt, e1, e]; omega
      · rw [mem_rowCol]; omega
      · intro r hr hc
        rw [mem_sel G.lt] at hr
        rw [mem_rowCol] at hc
        have e2 : r / 9 = 9 * (k / 9) + r / 9 % 9 := by omega
        have := G.row (k / 9) (by omega) (r / 9 % 9) (by omega) j hj (by rw [← e2, hr.2, e]; exact hc.1)
        omega
    · obtain ⟨j, hj, e⟩ := surj9 (fun i => f (9 * i + k / 9)) (fun j hj => G.lt _ (by omega))
        (fun i hi j hj e => G.col (k / 9) (by omega) i hi j hj e) (k % 9) (by omega)
      have e1 : (9 * (9 * j + k / 9) + k % 9) / 9 = 9 * j + k / 9 := by omega
      refine ⟨9 * (9 * j + k / 9) + k % 9, ?_, ?_, ?_⟩
      · rw [mem_sel G.lt, e1, e]; omega
      · rw [mem_colCol hk]; omega
      · intro r hr hc
        rw [mem_sel G.lt] at hr
        rw [mem_colCol hk] at hc
        have e2 : r / 9 = 9 * (r / 81) + k / 9 := by omega
        have := G.col (k / 9) (by omega) (r / 81) (by omega) j hj (by rw [← e2, hr.2, e]; omega)
        omega
    · obtain ⟨A, B, d, rfl, hB, hd⟩ := kdecomp k
      have hA : A < 3 := by omega
      obtain ⟨j, hj, e⟩ := surj9 (fun i => f (9 * (3 * A + i / 3) + (3 * B + i % 3)))
        (fun j hj => G.lt _ (by omega))
        (fun i hi j hj e => G.box A hA B hB i hi j hj e) d hd
      have e1 : (9 * (9 * (3 * A + j / 3) + (3 * B + j % 3)) + d) / 9
          = 9 * (3 * A + j / 3) + (3 * B + j % 3) := by omega
      refine ⟨9 * (9 * (3 * A + j / 3) + (3 * B + j % 3)) + d, ?_, ?_, ?_⟩
      · rw [mem_sel G.lt, e1, e]; omega
      · rw [mem_boxCol' hB hd]; exact ⟨j / 3, by omega, j % 3, by omega, by omega⟩
      · intro r hr hc
        rw [mem_sel G.lt] at hr
        obtain ⟨x, hx, y, hy, rfl⟩ := (mem_boxCol' hB hd).1 hc
        have e3 : (3 * x + y) / 3 = x := by omega
        have e4 : (3 * x + y) % 3 = y := by omega
        have e5 : (243 * A + 81 * x + 27 * B + 9 * y + d) / 9 = 9 * (3 * A + x) + (3 * B + y) := by omega
        rw [e5] at hr
        have := G.box A hA B hB (3 * x + y) (by omega) j hj (by rw [e3, e4, hr.2, e]; omega)
        subst this
        rw [e3, e4]; omega

theorem good_of_exactCover {f : Nat → Nat} (hf : ∀ c < 81, f c < 9) (E : ExactCover constraints (sel f)) :
    Good f := by
  have uniq : ∀ col ∈ constraints, ∀ c < 81, ∀ c' < 81, 9 * c + f c ∈ col → 9 * c' + f c' ∈ col → c = c' := by
    intro col h c hc c' hc' h1 h2
    obtain ⟨r, _, _, hu⟩ := E.once col h
    have a1 := hu _ (List.mem_map.2 ⟨c, List.mem_range.2 hc, rfl⟩) h1
    have a2 := hu _ (List.mem_map.2 ⟨c', List.mem_range.2 hc', rfl⟩) h2
    have := hf c hc
    have := hf c' hc'
    omega
  refine ⟨hf, ?_, ?_, ?_⟩
  · intro i hi j hj k hk e
    have l1 := hf (9 * i + j) (by omega)
    have l2 := hf (9 * i + k) (by omega)
    have := uniq (rowCol (9 * i + f (9 * i + j))) (mem_constraints.2 ⟨_, by omega, .inr (.inl rfl)⟩)
      (9 * i + j) (by omega) (9 * i + k) (by omega) (by rw [mem_rowCol]; omega) (by rw [mem_rowCol]; omega)
    omega
  · intro j hj i hi k hk e
    have l1 := hf (9 * i + j) (by omega)
    have l2 := hf (9 * k + j) (by omega)
    have hb : 9 * j + f (9 * i + j) < 81 := by omega
    have := uniq (colCol (9 * j + f (9 * i + j))) (mem_constraints.2 ⟨_, hb, .inr (.inr (.inl rfl))⟩)
      (9 * i + j) (by omega) (9 * k + j) (by omega) (by rw [mem_colCol hb]; omega) (by rw [mem_colCol hb]; omega)
    omega
  · intro a ha b hb j hj k hk e
    have l1 := hf (9 * (3 * a + j / 3) + (3 * b + j % 3)) (by omega)
    have l2 := hf (9 * (3 * a + k / 3) + (3 * b + k % 3)) (by omega)
    generalize hd : f (9 * (3 * a + j / 3) + (3 * b + j % 3)) = d at *
    have hb' : 27 * a + 9 * b + d < 81 := by omega
    have := uniq (boxCol (27 * a + 9 * b + d)) (mem_constraints.2 ⟨_, hb', .inr (.inr (.inr rfl))⟩)
      (9 * (3 * a + j / 3) + (3 * b + j % 3)) (by omega) (9 * (3 * a + k / 3) + (3 * b + k % 3)) (by omega)
      (by rw [mem_boxCol' hb l1, hd]; exact ⟨j / 3, by omega, j % 3, by omega, by omega⟩)
      (by rw [mem_boxCol' hb l1, ← e]; exact ⟨k / 3, by omega, k % 3, by omega, by omega⟩)
    omega

/-- Every exact cover, sorted, is the selection of a good digit function. -/
theorem exactCover_sel {S : List Nat} (E : ExactCover constraints S) :
    ∃ f, Good f ∧ S.Perm (sel f) ∧ S.mergeSort (· ≤ ·) = sel f := by
  have hc : ∀ c, ∃ d, c < 81 → d < 9 ∧ 9 * c + d ∈ S ∧ ∀ r ∈ S, r / 9 = c → r = 9 * c + d := by
    intro c
    by_cases hc : c < 81
    · obtain ⟨r, h1, h2, h3⟩ := E.once (cellCol c) (mem_constraints.2 ⟨c, hc, .inl rfl⟩)
      rw [mem_cellCol] at h2
      refine ⟨r % 9, fun _ => ⟨by omega, ?_, ?_⟩⟩
      · have : 9 * c + r % 9 = r := by omega
        rwa [this]
      · intro r' hr' e
        have := h3 r' hr' (mem_cellCol.2 e)
        omega
    · exact ⟨0, fun h => absurd h hc⟩
  choose f hf using hc
  have hlt : ∀ c < 81, f c < 9 := fun c h => (hf c h).1
  have hp : S.Perm (sel f) := by
    rw [List.perm_ext_iff_of_nodup E.nodup (sel_nodup hlt)]
    intro r
    rw [mem_sel hlt]
    constructor
    · intro hr
      have h1 := occurs_iff.1 (E.occurs r hr)
      have h2 := (hf (r / 9) (by omega)).2.2 r hr rfl
      omega
    · rintro ⟨h1, h2⟩
      have := (hf (r / 9) h1).2.1
      have e : 9 * (r / 9) + f (r / 9) = r := by omega
      rwa [e] at this
  have E' : ExactCover constraints (sel f) := by
    refine ⟨sel_nodup hlt, fun r hr => E.occurs r (hp.mem_iff.2 hr), ?_⟩
    intro col h
    obtain ⟨r, h1, h2, h3⟩ := E.once col h
    exact ⟨r, hp.mem_iff.1 h1, h2, fun r' hr' => h3 r' (hp.mem_iff.2 hr')⟩
  refine ⟨f, good_of_exactCover hlt E', hp, ?_⟩
  have hs : (S.mergeSort (· ≤ ·)).Pairwise (· ≤ ·) := by
    have := List.pairwise_mergeSort (le := fun a b : Nat => decide (a ≤ b)) (by intro a b c; simp; omega)
      (by intro a b; simp; omega) S
    simpa using this
  exact ((List.mergeSort_perm S _).trans hp).eq_of_pairwise (by intro a b _ _ h1 h2; omega) hs (sel_sorted hlt)

/-! ### Digit functions and finished grids -/

/-- The grid of a digit function. -/
def gridOf (f : Nat → Nat) : List UInt8 := (List.range 81).map fun c => UInt8.ofNat (f c) + 1

theorem gridOf_get {f : Nat → Nat} {c : Nat} (h : c < 81) : (gridOf f)[c]? = some (UInt8.ofNat (f c) + 1) := by
  simp [gridOf, h]

theorem out_sel {f : Nat → Nat} (hf : ∀ c < 81, f c < 9) :
    ((sel f).map fun num => UInt8.ofNat (num % 9) + 1) = gridOf f := by
  simp only [sel, gridOf, List.map_map]
  apply List.map_congr_left
  intro c hc
  have := hf c (List.mem_range.1 hc)
  simp only [Function.comp]
  congr 2; omega

theorem perm_digits (F : Nat → Nat) (hb : ∀ j < 9, F j < 9) (inj : ∀ j < 9, ∀ k < 9, F j = F k → j = k) :
    ((List.range 9).map fun j => some (UInt8.ofNat (F j) + 1)).Perm (digits.map some) := by
  have := (perm_range9 F hb inj).map (fun n => some (UInt8.ofNat n + 1))
  rw [List.map_map] at this
  exact this

theorem Good.valid {f : Nat → Nat} (G : Good f) : Valid (gridOf f) := by
  refine ⟨by simp [gridOf], ?_, ?_, ?_⟩
  · intro i hi
    have := perm_digits (fun j => f (9 * i + j)) (fun j hj => G.lt _ (by omega)) (G.row i hi)
    refine List.Perm.trans (List.Perm.of_eq ?_) this
    apply List.map_congr_left
    intro j hj
    have := List.mem_range.1 hj
    exact gridOf_get (by omega)
  · intro j hj
    have := perm_digits (fun i => f (9 * i + j)) (fun i hi => G.lt _ (by omega)) (G.col j hj)
    refine List.Perm.trans (List.Perm.of_eq ?_) this
    apply List.map_congr_left
    intro i hi
    have := List.mem_range.1 hi
    exact gridOf_get (by omega)
  · intro a ha b hb
    have := perm_digits (fun k => f (9 * (3 * a + k / 3) + (3 * b + k % 3))) (fun k hk => G.lt _ (by omega))
      (G.box a ha b hb)
    refine List.Perm.trans (List.Perm.of_eq ?_) this
    apply List.map_congr_left
    intro k hk
    have := List.mem_range.1 hk
    exact gridOf_get (by omega)

theorem inj_of_perm {α : Type} {G : Nat → α} {l : List α} (hl : l.Nodup) (h : ((List.range 9).map G).Perm l) :
    ∀ j < 9, ∀ k < 9, G j = G k → j = k := by
  intro j hj k hk e
  have hn := (h.nodup_iff).2 hl
  have := List.inj_on_of_nodup_map hn (List.mem_range.2 hj) (List.mem_range.2 hk) e
  exact this

theorem valid_good {g : List UInt8} (V : Valid g) :
    ∃ f, Good f ∧ g = gridOf f := by
  have hd : (digits.map some).Nodup := by decide
  have ent : ∀ c (h : c < 81), ∃ v, g[c]? = some v ∧ v ∈ digits := by
    intro c h
    have h1 := (V.rows (c / 9) (by omega)).mem_iff (a := g[c]?)
    have h2 : g[c]? ∈ row g (c / 9) := by
      simp only [row, List.mem_map, List.mem_range]
      exact ⟨c % 9, by omega, by congr 1; omega⟩
    obtain ⟨v, hv, e⟩ := List.mem_map.1 (h1.1 h2)
    exact ⟨v, e.symm, hv⟩
  have dig : ∀ v ∈ digits, v.toNat - 1 < 9 ∧ UInt8.ofNat (v.toNat - 1) + 1 = v := by decide
  let f : Nat → Nat := fun c => (g[c]?.getD 1).toNat - 1
  have hget : ∀ c < 81, f c < 9 ∧ g[c]? = some (UInt8.ofNat (f c) + 1) := by
    intro c h
    obtain ⟨v, hv, hm⟩ := ent c h
    have := dig v hm
    simp only [f, hv, Option.getD_some, this]
    simp
  have feq : ∀ c < 81, ∀ c' < 81, f c = f c' → g[c]? = g[c']? := by
    intro c h c' h' e
    rw [(hget c h).2, (hget c' h').2, e]
  refine ⟨f, ⟨fun c h => (hget c h).1, ?_, ?_, ?_⟩, ?_⟩
  · intro i hi j hj k hk e
    exact inj_of_perm hd (V.rows i hi) j hj k hk (feq _ (by omega) _ (by omega) e)
  · intro j hj i hi k hk e
    exact inj_of_perm hd (V.cols j hj) i hi k hk (feq _ (by omega) _ (by omega) e)
  · intro a ha b hb j hj k hk e
    exact inj_of_perm hd (V.boxes a ha b hb) j hj k hk (feq _ (by omega) _ (by omega) e)
  · apply List.ext_getElem?
    intro c
    by_cases h : c < 81
    · rw [gridOf_get h, (hget c h).2]
    · rw [List.getElem?_eq_none (by rw [V.size]; omega), List.getElem?_eq_none (by simp [gridOf]; omega)]

end Sudoku
