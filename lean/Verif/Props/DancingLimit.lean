import Verif.Proofs.DL.Limit

/-!
# C128: row numbers too large for `DancingMatrix::new`

The main model lets the vector `rows` grow without limit. Here the capacity of that vector and the unwinding of a panic are part of the
program (`Model/DancingLimit.lean`).
-/
namespace DancingLinks.Props

open Limit (Word)

/-- For all row numbers, in both build modes and on every target: `new` is exactly what the main model says when the capacity that
`rows` needs is within `isize::MAX` bytes. Otherwise it panics, and the memory then holds at least two nodes that nobody frees (every
address ever handed out is still a live node). -/
theorem C128_exact {ws : Nat} (hws : Word ws) (oc : Bool) (cs : List (List Nat)) (hu : ∀ l ∈ cs, ∀ i ∈ l, i < 2 ^ (8 * ws)) :
    (Capacity.after cs.flatten * ws < 2 ^ (8 * ws - 1) →
      ∃ r, Matrix.new Heap.empty cs = .ok r ∧ Matrix.newL ws oc Heap.empty cs = .ok (.ok r)) ∧
    (2 ^ (8 * ws - 1) ≤ Capacity.after cs.flatten * ws →
      ∃ h, Matrix.newL ws oc Heap.empty cs = .ok (.error h) ∧ 2 ≤ h.next - 1 ∧
        ∀ p, 1 ≤ p → p < h.next → ∃ nd, h.mem p = .live nd) := by
  rcases Limit.new_cases hws oc cs hu with ⟨h, h1, h2, h3, h4⟩ | ⟨r, h1, h2, h3⟩
  · exact ⟨fun h => by omega, fun _ => ⟨h, h1, by omega, h2⟩⟩
  · exact ⟨fun _ => ⟨r, h1, h2⟩, fun h => by omega⟩

/-- Row numbers below half of what a vector can hold (2^59 on 64-bit targets): in both build modes `new` is exactly what the main
model says. -/
theorem C128_small {ws : Nat} (hws : Word ws) (oc : Bool) (cs : List (List Nat))
    (hi : ∀ l ∈ cs, ∀ i ∈ l, i * (2 * ws) < 2 ^ (8 * ws - 1)) :
    ∃ r, Matrix.new Heap.empty cs = .ok r ∧ Matrix.newL ws oc Heap.empty cs = .ok (.ok r) := by
  have hu : ∀ l ∈ cs, ∀ i ∈ l, i < 2 ^ (8 * ws) := fun l hl i h => by
    have := hi l hl i h
    rcases hws with rfl | rfl | rfl <;> omega
  refine (C128_exact hws oc cs hu).1 (Limit.capacity_small hws _ (by simpa using Nat.two_pow_pos _) fun i h => ?_)
  obtain ⟨l, hl, h⟩ := List.mem_flatten.mp h
  exact hi l hl i h

/-- A row number for which `rows` would exceed `isize::MAX` bytes (from 2^60 − 1 on, on 64-bit targets): in both build modes `new`
panics, and the memory then holds at least two nodes that nobody frees (every address ever handed out is still a live node). -/
theorem C128_large {ws : Nat} (hws : Word ws) (oc : Bool) (cs : List (List Nat)) (hu : ∀ l ∈ cs, ∀ i ∈ l, i < 2 ^ (8 * ws))
    (hb : ∃ l ∈ cs, ∃ i ∈ l, 2 ^ (8 * ws - 1) ≤ (i + 1) * ws) :
    ∃ h, Matrix.newL ws oc Heap.empty cs = .ok (.error h) ∧ 2 ≤ h.next - 1 ∧ ∀ p, 1 ≤ p → p < h.next → ∃ nd, h.mem p = .live nd := by
  obtain ⟨l, hl, i, hi, hb⟩ := hb
  refine (C128_exact hws oc cs hu).2 (Nat.le_trans hb (Nat.mul_le_mul_right ws ?_))
  exact (Limit.capacity_foldl cs.flatten 0).2 i (List.mem_flatten.mpr ⟨l, hl, hi⟩)

/-- The number of nodes leaked, where `i` is the first row number for which `rows` would exceed `isize::MAX` bytes: the root, one header
for each column begun, one node for each cell before `i`. -/
theorem C128_leak {ws : Nat} (hws : Word ws) (oc : Bool) (pre : List (List Nat)) (p : List Nat) (i : Nat) (q : List Nat)
    (post : List (List Nat)) (hu : ∀ l ∈ pre, ∀ j ∈ l, j < 2 ^ (8 * ws)) (hu' : ∀ j ∈ p, j < 2 ^ (8 * ws)) (hi' : i < 2 ^ (8 * ws))
    (hp : Capacity.after (pre.flatten ++ p) * ws < 2 ^ (8 * ws - 1))
    (hi : 2 ^ (8 * ws - 1) ≤ Capacity.after (pre.flatten ++ p ++ [i]) * ws) :
    ∃ h, Matrix.newL ws oc Heap.empty (pre ++ (p ++ i :: q) :: post) = .ok (.error h) ∧
      (∀ a, 1 ≤ a → a < h.next → ∃ nd, h.mem a = .live nd) ∧
      h.next - 1 = 1 + (pre.length + 1) + (pre.flatten.length + p.length) := by
  obtain ⟨h, h1, h2, h3⟩ := Limit.new_leak hws oc pre p i q post hu hu' hi' hp hi
  exact ⟨h, h1, h2, by omega⟩

/-- Three columns, the row number 2^60 in the second one: six nodes are leaked (root, two headers, three cells). -/
example : ∃ h, Matrix.newL 8 false Heap.empty [[0, 1], [1, 2 ^ 60, 0], [2]] = .ok (.error h) ∧
    (∀ a, 1 ≤ a → a < h.next → ∃ nd, h.mem a = .live nd) ∧ h.next - 1 = 6 :=
  C128_leak (.inr (.inr rfl)) false [[0, 1]] [1] (2 ^ 60) [0] [[2]] (by simp) (by simp) (by simp)
    (by simp [Capacity.after, Capacity.grow]) (by simp [Capacity.after, Capacity.grow])

/-- Between the two bounds the answer depends on the order of the row numbers: 2^59 + 1 alone is fine, after 2^59 it is not (the
capacity 2^59 + 1 would be doubled). -/
example (oc : Bool) : (∃ r, Matrix.newL 8 oc Heap.empty [[2 ^ 59 + 1], [2 ^ 59]] = .ok (.ok r)) ∧
    ∃ h, Matrix.newL 8 oc Heap.empty [[2 ^ 59], [2 ^ 59 + 1]] = .ok (.error h) := by
  constructor
  · obtain ⟨r, _, h⟩ := (C128_exact (ws := 8) (.inr (.inr rfl)) oc [[2 ^ 59 + 1], [2 ^ 59]] (by simp)).1
      (by simp [Capacity.after, Capacity.grow])
    exact ⟨r, h⟩
  · obtain ⟨h, e, _⟩ := (C128_exact (ws := 8) (.inr (.inr rfl)) oc [[2 ^ 59], [2 ^ 59 + 1]] (by simp)).2
      (by simp [Capacity.after, Capacity.grow])
    exact ⟨h, e⟩

/-- The last `usize` value, where `index + 1` wraps without overflow checks. -/
example : ∃ h, Matrix.newL 8 false Heap.empty [[2 ^ 64 - 1]] = .ok (.error h) ∧ 2 ≤ h.next - 1 ∧
    ∀ p, 1 ≤ p → p < h.next → ∃ nd, h.mem p = .live nd :=
  C128_large (.inr (.inr rfl)) false _ (by simp) ⟨_, List.mem_singleton.2 rfl, _, List.mem_singleton.2 rfl, by simp⟩

/-- The row number 2^29 on a 32-bit target. -/
example (oc : Bool) : ∃ h, Matrix.newL 4 oc Heap.empty [[0], [2 ^ 29]] = .ok (.error h) ∧ 2 ≤ h.next - 1 ∧
    ∀ p, 1 ≤ p → p < h.next → ∃ nd, h.mem p = .live nd :=
  C128_large (.inr (.inl rfl)) oc _ (by simp) ⟨[2 ^ 29], by simp, _, List.mem_singleton.2 rfl, by simp⟩

/-- Small row numbers. -/
example : ∃ r, Matrix.new Heap.empty [[0, 2], [1], []] = .ok r ∧ Matrix.newL 8 true Heap.empty [[0, 2], [1], []] = .ok (.ok r) :=
  C128_small (.inr (.inr rfl)) true _ (by simp)

end DancingLinks.Props
