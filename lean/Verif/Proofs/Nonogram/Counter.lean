import Verif.Proofs.Nonogram.Stable

/-! The block counters of the line step beyond the range of `i32`. -/
namespace Nonogram
open Nonogram.Spec

/-- The leftmost completion reaches `2^31` boundaries: the step panics with overflow checks. -/
theorem loop_overflow {L R : List Bool} {line : List Square} (hL : L.length = line.length) (hR : R.length = line.length)
    (hle : ∀ i < line.length, blk R i ≤ blk L i) {i : Nat} (hi : i < line.length) (ho : 2 ^ 31 ≤ blk L i) :
    _root_.forIn' (List.range L.length) (stateAt L R line 0) (lineBody true L R.reverse) = .panic := by
  have hex : ∃ k, k < line.length ∧ 2 ^ 31 ≤ blk L k := ⟨i, hi, ho⟩
  obtain ⟨k, ⟨hk, hk1⟩, hmin⟩ : ∃ k, (k < line.length ∧ 2 ^ 31 ≤ blk L k) ∧ ∀ j < k, ¬ (j < line.length ∧ 2 ^ 31 ≤ blk L j) :=
    ⟨Nat.find hex, Nat.find_spec hex, fun j hj => Nat.find_min hex hj⟩
  have hsplit : List.range L.length = List.range k ++ k :: (List.range (L.length - k - 1)).map (k + 1 + ·) := by
    rw [show L.length = k + (1 + (L.length - k - 1)) by omega, List.range_add, Nat.add_comm 1, List.range_succ_eq_map,
      List.map_cons, List.map_map, Nat.add_zero]
    congr 2
    simp only [show k + (L.length - k - 1 + 1) - k - 1 = L.length - k - 1 by omega]
    apply List.map_congr_left
    intro a _
    simp only [Function.comp]; omega
  have hpre : _root_.forIn' (List.range k) (stateAt L R line 0) (lineBody true L R.reverse) = .ok (stateAt L R line k) := by
    have : ∀ j ≤ k, _root_.forIn' (List.range j) (stateAt L R line 0) (lineBody true L R.reverse) = .ok (stateAt L R line j) := by
      intro j
      induction j with
      | zero => intro _; rfl
      | succ j ih =>
        intro hj
        have h1 : ¬ 2 ^ 31 ≤ blk L j := fun h => hmin j (by omega) ⟨by omega, h⟩
        have h2 := hle j (by omega)
        rw [List.range_succ, forIn'_append, ih (by omega), Prog.ok_bind, forIn'_cons,
          lineBody_step true hL hR (by omega) (fun _ => ⟨by omega, by omega⟩), Prog.ok_bind]
        rfl
    exact this k (Nat.le_refl _)
  have hiL : k < L.length := by omega
  have hiR : k < R.length := by omega
  have hrev : R.reverse[R.reverse.length - 1 - k]? = some R[k] := by
    rw [List.getElem?_reverse (by simp; omega), List.length_reverse,
      show R.length - 1 - (R.length - 1 - k) = k by omega, List.getElem?_eq_getElem hiR]
  have tL : L.take (k + 1) = L.take k ++ [L[k]] := List.take_succ_eq_append_getElem hiL
  have bL : blk L k = changes false (L.take k) + if L[k] = lastB false (L.take k) then 0 else 1 := by
    rw [blk, tL, changes_snoc]
  have hsmall : changes false (L.take k) < 2 ^ 31 := by
    cases k with
    | zero => simp [changes]
    | succ k =>
      have : ¬ 2 ^ 31 ≤ blk L k := fun h => hmin k (by omega) ⟨by omega, h⟩
      unfold blk at this
      omega
  have hne : L[k] ≠ lastB false (L.take k) := by
    intro h; rw [if_pos h] at bL; omega
  rw [if_neg hne] at bL
  have hstep : lineBody true L R.reverse (stateAt L R line k) k = .panic := by
    unfold lineBody
    rw [getP_ok hiL, Prog.ok_bind, subW_ok (by rw [List.length_reverse]; omega), Prog.ok_bind,
      subW_ok (by rw [List.length_reverse]; omega), Prog.ok_bind, getP_of hrev, Prog.ok_bind]
    rw [if_pos (show L[k] ≠ (stateAt L R line k).leftState from hne)]
    have : incI32 true (stateAt L R line k).leftBlock = .panic := by
      unfold incI32
      refine if_pos ⟨rfl, ?_⟩
      show changes false (L.take k) % 2 ^ 32 + 1 = 2 ^ 31
      rw [Nat.mod_eq_of_lt (by omega)]
      omega
    rw [this]
    rfl
  rw [hsplit, forIn'_append, hpre, Prog.ok_bind, forIn'_cons, hstep]
  rfl

/-- The number of boundaries of a completion. -/
theorem blk_last {xs : List Bool} (h : xs ≠ []) :
    blk xs (xs.length - 1) = 2 * (runs xs).length - if xs.getLast? = some true then 1 else 0 := by
  have hl := List.length_pos_iff.mpr h
  have := changes_total xs
  rw [changes_snoc] at this
  rw [blk, List.take_of_length_le (by omega), ← this]
  have hb : lastB false xs = xs.getLast?.getD false := rfl
  cases hx : xs.getLast? with
  | none => exact absurd (List.getLast?_eq_none_iff.mp hx) h
  | some b =>
    rw [hb, hx]
    cases b <;> simp

theorem blk_mono {xs : List Bool} {i j : Nat} (h : i ≤ j) : blk xs i ≤ blk xs j := by
  unfold blk
  have : xs.take (j + 1) = xs.take (i + 1) ++ (xs.drop (i + 1)).take (j - i) := by
    rw [show j + 1 = (i + 1) + (j - i) by omega, List.take_add]
  rw [this, changes_append]
  omega

theorem runs_count {line : List Square} {rule : List Nat} {xs : List Bool} (h : Completes line rule xs) :
    (runs xs).length = blockCount rule := by rw [h.2.runs]; rfl

/-- When the counters overflow. -/
theorem overflow_iff {line : List Square} {rule : List Nat} {L R : List Bool} (he : Extremes line rule L R) :
    (∃ i < line.length, 2 ^ 31 ≤ blk L i) ↔
      2 ^ 30 < blockCount rule ∨ blockCount rule = 2 ^ 30 ∧ ∃ xs, Completes line rule xs ∧ xs.getLast? = some false := by
  have hl : L.length = line.length := he.left.1.1
  by_cases h0 : L = []
  · have hk := runs_count he.left
    subst h0
    rw [show (runs []).length = 0 from rfl] at hk
    constructor
    · rintro ⟨i, hi, _⟩; simp at hl; omega
    · omega
  · have hpos := List.length_pos_iff.mpr h0
    have hb := blk_last h0
    rw [runs_count he.left, hl] at hb
    have hl1 : line.length - 1 < line.length := by omega
    constructor
    · rintro ⟨i, hi, h⟩
      have hm := blk_mono (xs := L) (i := i) (j := line.length - 1) (by omega)
      by_cases ht : L.getLast? = some true
      · rw [if_pos ht] at hb; omega
      · rw [if_neg ht] at hb
        by_cases hk : 2 ^ 30 < blockCount rule
        · exact .inl hk
        · refine .inr ⟨by omega, L, he.left, ?_⟩
          cases hx : L.getLast? with
          | none => exact absurd (List.getLast?_eq_none_iff.mp hx) h0
          | some b => cases b <;> simp_all
    · rintro (h | ⟨h, xs, hx, hxl⟩)
      · refine ⟨_, hl1, ?_⟩
        split at hb <;> omega
      · refine ⟨_, hl1, ?_⟩
        have := he.hi xs hx _ hl1
        have hn : xs ≠ [] := by rintro rfl; simp at hxl
        have hb' := blk_last hn
        rw [runs_count hx, hx.1.1, hxl] at hb'
        simp at hb'
        omega

theorem extremes_le {line : List Square} {rule : List Nat} {L R : List Bool} (he : Extremes line rule L R) :
    ∀ i < line.length, blk R i ≤ blk L i := fun i hi => he.lo _ he.left i hi

/-- Blocks of length one, each with a gap behind it. -/
def packed : Nat → List Bool
  | 0 => []
  | k + 1 => true :: false :: packed k

theorem packed_length (k : Nat) : (packed k).length = 2 * k := by
  induction k with
  | zero => rfl
  | succ k ih => simp only [packed, List.length_cons, ih]; omega

theorem packed_runs (k b : Nat) : runs (packed k ++ List.replicate b false) = List.replicate k 1 := by
  induction k with
  | zero =>
    simp only [packed, List.nil_append, List.replicate_zero]
    induction b with
    | zero => rfl
    | succ b ih => rw [List.replicate_succ]; simpa [runs] using ih
  | succ k ih => simp only [packed, List.cons_append, List.replicate_succ, ← ih]; rfl

theorem runs_gap (a : Nat) (xs : List Bool) : runs (List.replicate a false ++ xs) = runs xs := by
  induction a with
  | zero => rfl
  | succ a ih => rw [List.replicate_succ, List.cons_append]; simpa [runs] using ih

theorem packed_changes (k : Nat) (xs : List Bool) : changes false (packed k ++ xs) = 2 * k + changes false xs := by
  induction k with
  | zero => simp [packed]
  | succ k ih => simp only [packed, List.cons_append, changes, ih]; simp; omega

theorem packed_add (j k : Nat) : packed (j + k) = packed j ++ packed k := by
  induction j with
  | zero => simp [packed]
  | succ j ih => rw [Nat.add_right_comm]; simp only [packed, ih, List.cons_append]

/-- Gap, packed blocks, gap. -/
def shifted (a k b : Nat) : List Bool := List.replicate a false ++ (packed k ++ List.replicate b false)

theorem shifted_completes {a k b n : Nat} (h : a + 2 * k + b = n) :
    Completes (List.replicate n .Blank) (List.replicate k 1) (shifted a k b) := by
  refine ⟨⟨?_, fun i q c hq _ => ?_⟩, ?_⟩
  · simp only [shifted, List.length_append, List.length_replicate, packed_length]; omega
  · have := List.eq_of_mem_replicate (List.mem_of_getElem? hq)
    subst this
    exact ⟨nofun, nofun⟩
  · rw [follows_runs (fun a ha => by rw [List.eq_of_mem_replicate ha]; decide)]
    rw [shifted, runs_gap, packed_runs]

theorem changes_gap (a : Nat) : changes false (List.replicate a false) = 0 := by
  induction a with
  | zero => rfl
  | succ a ih => rw [List.replicate_succ]; simp [changes, ih]

/-- The counters differ by `2 * N` at square `2 * N - 1`. -/
theorem shifted_apart {N k n : Nat} (hN : 0 < N) (hk : N ≤ k) (hn : 2 * N + 2 * k ≤ n) {L R : List Bool}
    (he : Extremes (List.replicate n .Blank) (List.replicate k 1) L R) :
    blk L (2 * N - 1) = 2 * N ∧ blk R (2 * N - 1) = 0 := by
  have hi : 2 * N - 1 < (List.replicate n Square.Blank).length := by rw [List.length_replicate]; omega
  constructor
  · apply Nat.le_antisymm
    · have := changes_le false (L.take (2 * N - 1 + 1))
      rw [List.length_take] at this
      unfold blk; omega
    · have h := he.hi _ (shifted_completes (a := 0) (k := k) (b := n - 2 * k) (by omega)) _ hi
      refine Nat.le_trans (Nat.le_of_eq ?_) h
      obtain ⟨j, rfl⟩ := Nat.exists_eq_add_of_le hk
      rw [blk, shifted, List.replicate_zero, List.nil_append, packed_add, List.append_assoc,
        List.take_append_of_le_length (by rw [packed_length]; omega), List.take_of_length_le (by rw [packed_length]; omega)]
      have := packed_changes N []
      rw [List.append_nil] at this
      rw [this]; rfl
  · have h := he.lo _ (shifted_completes (a := 2 * N) (k := k) (b := n - 2 * k - 2 * N) (by omega)) _ hi
    have h0 : blk (shifted (2 * N) k (n - 2 * k - 2 * N)) (2 * N - 1) = 0 := by
      rw [blk, shifted, List.take_append_of_le_length (by rw [List.length_replicate]; omega), List.take_replicate, changes_gap]
    omega

end Nonogram
