import Verif.Proofs.Sudoku.Refine
import Verif.Spec.Calls
import Mathlib.Algebra.BigOperators.Ring.Finset
import Mathlib.Algebra.Order.BigOperators.Group.Finset

/-! Helper lemmas: the size of the search tree of Algorithm X. -/
namespace DancingLinks.TreeSize
open DancingLinks.Spec

/-- A row that is left over keeps its constraints. -/
theorem countP_residual {M : List (List Nat)} {A : List Nat} {x : Nat} (hx : ∀ a ∈ A, conflict M x a = false) :
    (residual M A).countP (fun col => decide (x ∈ col)) = M.countP (fun col => decide (x ∈ col)) := by
  unfold residual
  rw [List.countP_map, List.countP_filter]
  refine List.countP_congr fun col hc => ?_
  simp only [Function.comp_apply, Bool.and_eq_true, decide_eq_true_eq, List.mem_filter, List.all_eq_true]
  constructor
  · rintro ⟨⟨h, _⟩, _⟩; exact h
  · intro h
    refine ⟨⟨h, fun a ha => by rw [hx a ha]; rfl⟩, fun a ha hac => ?_⟩
    have := hx a ha
    simp only [conflict, List.any_eq_false, decide_eq_true_eq] at this
    exact this col hc ⟨h, hac⟩

theorem length_residual_one (M : List (List Nat)) (r : Nat) :
    (residual M [r]).length + M.countP (fun col => decide (r ∈ col)) = M.length := by
  unfold residual
  rw [List.length_map, ← List.countP_eq_length_filter, Nat.add_comm]
  have := List.length_eq_countP_add_countP (fun col : List Nat => decide (r ∈ col)) (l := M)
  rw [this]
  congr 1
  refine List.countP_congr fun col _ => by simp

/-- Every row that occurs lies in at least `q` constraints, no constraint has more than `b` rows. -/
structure Dense (M : List (List Nat)) (q b : Nat) : Prop where
  short : ∀ col ∈ M, col.length ≤ b
  wide : ∀ col ∈ M, ∀ x ∈ col, q ≤ M.countP (fun col => decide (x ∈ col))

theorem Dense.residual {M : List (List Nat)} {q b : Nat} (h : Dense M q b) (A : List Nat) : Dense (residual M A) q b := by
  refine ⟨fun col hc => ?_, fun col hc x hx => ?_⟩
  · obtain ⟨col, g1, _, rfl⟩ := mem_residual hc
    exact Nat.le_trans (List.length_filter_le ..) (h.short col g1)
  · obtain ⟨col, g1, _, rfl⟩ := mem_residual hc
    obtain ⟨hx1, hx2⟩ := List.mem_filter.1 hx
    rw [countP_residual fun a ha => by simpa using (List.all_eq_true.1 hx2 a ha)]
    exact h.wide col g1 x hx1

theorem firstShortest_mem {M : List (List Nat)} {col : List Nat} (h : firstShortest M = some col) : col ∈ M := by
  induction M generalizing col with
  | nil => cases h
  | cons c M ih =>
    simp only [firstShortest] at h
    cases hf : firstShortest M with
    | none => rw [hf] at h; simp at h; simp [h]
    | some best =>
      rw [hf] at h
      simp only at h
      split at h
      · simp at h; simp [h]
      · obtain rfl := Option.some.inj h
        exact List.mem_cons_of_mem _ (ih hf)

theorem tried_sub {α : Type} (p : α → Bool) (l : List α) : (tried p l).Sublist l := by
  induction l with
  | nil => exact .slnil
  | cons x l ih =>
    simp only [tried]
    split
    · exact (List.nil_sublist l).cons_cons x
    · exact ih.cons_cons x

theorem sum_le {α : Type} (l : List α) (f : α → Nat) (k b : Nat) (hf : ∀ x ∈ l, f x ≤ k) (hl : l.length ≤ b) :
    (l.map f).sum ≤ b * k := by
  refine Nat.le_trans ?_ (Nat.mul_le_mul_right k hl)
  induction l with
  | nil => simp
  | cons x l ih =>
    have := ih (fun y hy => hf y (by simp [hy])) (Nat.le_trans (by simp) hl)
    have h1 := hf x (by simp)
    simp only [List.map_cons, List.sum_cons, List.length_cons, Nat.add_mul, Nat.one_mul]
    omega

theorem geom (b d : Nat) : 1 + b * ∑ i ∈ Finset.range (d + 1), b ^ i = ∑ i ∈ Finset.range (d + 2), b ^ i := by
  rw [Finset.sum_range_succ' _ (d + 1), Finset.mul_sum, Nat.add_comm, Nat.pow_zero]
  congr 1
  exact Finset.sum_congr rfl fun i _ => by rw [Nat.pow_succ, Nat.mul_comm]

/-- If each row covers at least `q` constraints, `q * d` constraints allow `d` levels. -/
theorem visits_le {q b : Nat} : ∀ (n : Nat) (M : List (List Nat)) (d : Nat), Dense M q b →
    M.length ≤ q * d → visits n M ≤ ∑ i ∈ Finset.range (d + 1), b ^ i := by
  intro n
  induction n with
  | zero =>
    intro M d _ _
    rw [Finset.sum_range_succ']
    simp [visits]
  | succ n ih =>
    intro M d hD hl
    have hone : 1 ≤ ∑ i ∈ Finset.range (d + 1), b ^ i := by rw [Finset.sum_range_succ']; simp
    unfold visits
    cases hf : firstShortest M with
    | none => exact hone
    | some col =>
      have hm := firstShortest_mem hf
      cases d with
      | zero =>
        simp at hl
        rw [hl] at hm; cases hm
      | succ d =>
        rw [← geom]
        refine Nat.add_le_add_left (sum_le _ _ _ _ (fun r hr => ?_) (Nat.le_trans (tried_sub _ _).length_le (hD.short col hm))) 1
        have hr' := (tried_sub _ _).subset hr
        have h1 := hD.wide col hm r hr'
        have h2 := length_residual_one M r
        exact ih _ d (hD.residual _) (by rw [Nat.mul_succ] at hl; omega)

/-- Rows that do not conflict remove different constraints. -/
theorem length_residual {M : List (List Nat)} {q : Nat} : ∀ (A : List Nat), (∀ a ∈ A, q ≤ M.countP (fun col => decide (a ∈ col))) →
    A.Pairwise (fun a x => conflict M x a = false) → (residual M A).length + q * A.length ≤ M.length := by
  intro A
  induction A using List.reverseRecOn with
  | nil => intro _ _; simp [residual]
  | append_singleton A r ih =>
    intro h1 h2
    rw [List.pairwise_append] at h2
    have hr : ∀ a ∈ A, conflict M r a = false := fun a ha => h2.2.2 a ha r (by simp)
    have h3 := ih (fun a ha => h1 a (by simp [ha])) h2.1
    have h4 := length_residual_one (residual M A) r
    rw [residual_residual hr, countP_residual hr] at h4
    have h5 := h1 r (by simp)
    simp only [List.length_append, List.length_singleton, Nat.mul_add, Nat.mul_one]
    omega

/-- All constraints of the same length: the first one is chosen. -/
theorem firstShortest_head {c : List Nat} {M : List (List Nat)} (h : ∀ d ∈ M, c.length ≤ d.length) :
    firstShortest (c :: M) = some c := by
  simp only [firstShortest]
  cases hf : firstShortest M with
  | none => rfl
  | some best => simp [h best (firstShortest_mem hf)]

end DancingLinks.TreeSize
