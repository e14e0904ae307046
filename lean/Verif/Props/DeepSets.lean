import Verif.Proofs.DeepSets

/-! C101: the bound for the depth of the trees is attained. -/
namespace DisjointSet.Props
open DisjointSet DisjointSet.Spec

/-- C101. For every number n of elements there are unions (fewer than n) after which `find` for some element needs
log n + 1 nested calls of `find_helper`, and no fewer: the bounds in C23 and C89 cannot be improved. -/
theorem C101_depth_attained (n : Nat) (hn : 0 < n) :
    ∃ ops s a, (∀ op ∈ ops, ∃ i j, op = .union i j) ∧ ops.length < n ∧ run (List.replicate n Element.new) ops = .ok s ∧
      a < n ∧ Chain s a (Nat.log2 n) 0 ∧ boundedFind (Nat.log2 n) s a = .panic ∧
      ∃ s', boundedFind (Nat.log2 n + 1) s a = .ok (0, s') := by
  have hle : 2 ^ Nat.log2 n ≤ n := Nat.log2_self_le (by omega)
  have hp : 0 < 2 ^ Nat.log2 n := Nat.two_pow_pos _
  obtain ⟨s, e, r, _, c⟩ := tournament_spec (Nat.log2 n) 0 (List.replicate n Element.new) fun j _ h => by
    rw [List.getElem?_replicate, if_pos (by omega)]
  have c' := c s fun _ _ _ => rfl
  rw [Nat.zero_add] at c'
  have hb := boundedFind_chain c' (by rw [r]; rfl)
  have hl := tournament_length 0 (Nat.log2 n)
  refine ⟨_, s, _, tournament_unions _ _, by omega, e, ?_, c', hb.2, ?_⟩
  · omega
  · rw [hb.1]
    obtain ⟨s', e', _⟩ := findHelper_chain c' (by rw [r]; rfl)
    exact ⟨s', e'⟩

/-- With 1000 elements there is a history after which one `find` needs ten frames and not nine. -/
example : ∃ ops s a s', ops.length < 1000 ∧ run (List.replicate 1000 Element.new) ops = .ok s ∧
    boundedFind 9 s a = .panic ∧ boundedFind 10 s a = .ok (0, s') := by
  obtain ⟨ops, s, a, _, h1, h2, _, _, h3, s', h4⟩ := C101_depth_attained 1000 (by omega)
  have : Nat.log2 1000 = 9 := by decide
  rw [this] at h3 h4
  exact ⟨ops, s, a, s', h1, h2, h3, h4⟩

end DisjointSet.Props
