import Verif.Proofs.Nonogram.Stable
import Verif.Proofs.Nonogram.Passes
import Verif.Spec.NonogramChain

/-! Lemmas for C127: the passes over the puzzle `chain k`. -/
namespace Nonogram.Chain
open Spec

/-! ### The lines -/

theorem bars_length (n : Nat) : (bars n).length = 4 * n := by
  induction n with
  | zero => rfl
  | succ n ih => simp only [bars, List.length_cons, ih]; omega

theorem bars_add (m n : Nat) : bars (m + n) = bars m ++ bars n := by
  induction m with
  | zero => simp [bars]
  | succ m ih => rw [show m + 1 + n = m + n + 1 by omega, bars, ih, bars]; rfl

theorem bars_shift (n : Nat) : bars n ++ [true, true] = true :: true :: (bars n).map not := by
  induction n with
  | zero => rfl
  | succ n ih => simp only [bars, List.cons_append, ih, List.map_cons, Bool.not_true, Bool.not_false]

theorem runs_bars (n : Nat) (l : List Bool) : runs (bars n ++ l) = List.replicate n 2 ++ runs l := by
  induction n with
  | zero => rfl
  | succ n ih =>
    have h : ∀ xs : List Bool, runs (true :: true :: false :: false :: xs) = 2 :: runs xs := fun _ => rfl
    simp only [bars, List.cons_append, h, ih, List.replicate_succ]

theorem runs_not_bars (n : Nat) : runs ((bars n).map not) = List.replicate n 2 := by
  cases n with
  | zero => rfl
  | succ n =>
    have h : (bars (n + 1)).map not = false :: false :: (bars n ++ [true, true]) := by rw [bars_shift]; rfl
    rw [h, runs_false, runs_false, runs_bars, List.replicate_succ']
    rfl

theorem bottom_eq (k : Nat) : chainBottom k = bars k ++ [true, true] := (bars_shift k).symm

theorem top_length (k : Nat) : (chainTop k).length = 4 * k + 2 := by simp [chainTop, bars_length]
theorem bottom_length (k : Nat) : (chainBottom k).length = 4 * k + 2 := by simp [chainBottom, bars_length]

theorem pos_top (k : Nat) : Positive (1 :: List.replicate k 2) := by
  intro a ha
  rcases List.mem_cons.mp ha with rfl | ha
  · decide
  · rw [(List.mem_replicate.mp ha).2]; decide
theorem pos_bottom (k : Nat) : Positive (List.replicate k 2) := by
  intro a ha
  rw [(List.mem_replicate.mp ha).2]; decide

theorem runs_top (k : Nat) : runs (chainTop k) = 1 :: List.replicate k 2 := by
  have := runs_bars k []
  rw [List.append_nil] at this
  rw [chainTop, runs_true_false, this]; simp
theorem runs_bottom (k : Nat) : runs (chainBottom k) = List.replicate (k + 1) 2 := by
  rw [bottom_eq, runs_bars, List.replicate_succ']; rfl

/-! ### Other lines with the same blocks -/

/-- The blocks of the upper row from number `q` on, two squares to the right. -/
def topRight (q j : Nat) : List Bool := true :: false :: (bars q ++ (bars (j + 1)).map not)
/-- One block of the upper row, one square to the left. -/
def topLeft (q j : Nat) : List Bool :=
  true :: false :: (bars q ++ (true :: true :: false :: true :: true :: false :: false :: false :: bars j))
/-- The blocks of the lower row after number `q`, one square to the left, all but the first two squares. -/
def bottomLeft (q j : Nat) : List Bool := bars q ++ (true :: true :: false :: true :: true :: false :: bars j)
/-- One block of the lower row, one square to the right. -/
def bottomRight (q j : Nat) : List Bool :=
  bars (q + 1) ++ (false :: true :: true :: false :: (bars j ++ [true, true]))

theorem runs_topRight (q j : Nat) : runs (topRight q j) = 1 :: List.replicate (q + 1 + j) 2 := by
  rw [topRight, runs_true_false, runs_bars, runs_not_bars, ← List.replicate_add]
  congr 2; omega
theorem runs_topLeft (q j : Nat) : runs (topLeft q j) = 1 :: List.replicate (q + 2 + j) 2 := by
  have h : ∀ xs : List Bool, runs (true :: true :: false :: true :: true :: false :: false :: false :: xs) = 2 :: 2 :: runs xs :=
    fun _ => rfl
  have := runs_bars j []
  rw [List.append_nil, runs_nil, List.append_nil] at this
  rw [topLeft, runs_true_false, runs_bars, h, this, ← List.replicate_succ, ← List.replicate_succ, ← List.replicate_add]
  congr 2; omega
theorem runs_bottomLeft (q j : Nat) : runs (bottomLeft q j) = List.replicate (q + 1 + j + 1) 2 := by
  have h : ∀ xs : List Bool, runs (true :: true :: false :: true :: true :: false :: xs) = 2 :: 2 :: runs xs := fun _ => rfl
  have := runs_bars j []
  rw [List.append_nil, runs_nil, List.append_nil] at this
  rw [bottomLeft, runs_bars, h, this, ← List.replicate_succ, ← List.replicate_succ, ← List.replicate_add]
  congr 1; omega
theorem runs_bottomRight (q j : Nat) : runs (bottomRight q j) = List.replicate (q + 2 + j + 1) 2 := by
  have h : ∀ xs : List Bool, runs (false :: true :: true :: false :: xs) = 2 :: runs xs := fun _ => rfl
  rw [bottomRight, runs_bars, h, runs_bars, show runs [true, true] = [2] from rfl, ← List.replicate_succ', ← List.replicate_succ,
    ← List.replicate_add]
  congr 1; omega

theorem topRight_length (q j : Nat) : (topRight q j).length = 4 * (q + 1 + j) + 2 := by
  simp [topRight, bars_length]; omega
theorem topLeft_length (q j : Nat) : (topLeft q j).length = 4 * (q + 2 + j) + 2 := by
  simp [topLeft, bars_length]; omega
theorem bottomLeft_length (q j : Nat) : (bottomLeft q j).length = 4 * (q + 1 + j) + 2 := by
  simp [bottomLeft, bars_length]; omega
theorem bottomRight_length (q j : Nat) : (bottomRight q j).length = 4 * (q + 2 + j) + 2 := by
  simp [bottomRight, bars_length]; omega

theorem top_split (q j : Nat) : chainTop (q + 1 + j) = true :: false :: (bars q ++ bars (j + 1)) := by
  rw [chainTop, show q + 1 + j = q + (j + 1) by omega, bars_add]
theorem bottom_split (q j : Nat) : chainBottom (q + 1 + j) = bars q ++ (true :: true :: false :: false :: true :: true :: (bars j).map not) := by
  rw [bottom_eq, show q + 1 + j = q + (j + 1) by omega, bars_add, List.append_assoc, bars, List.cons_append, List.cons_append,
    List.cons_append, List.cons_append, bars_shift]

theorem get_bars (q : Nat) (l : List Bool) (i : Nat) : (bars q ++ l)[4 * q + i]? = l[i]? := by
  rw [List.getElem?_append_right (by rw [bars_length]; omega), bars_length]
  congr 1; omega
theorem get_bars_lt {q i : Nat} (hi : i < 4 * q) (l l' : List Bool) : (bars q ++ l)[i]? = (bars q ++ l')[i]? := by
  rw [List.getElem?_append_left (by rw [bars_length]; omega), List.getElem?_append_left (by rw [bars_length]; omega)]

theorem ne_not (l : List Bool) {i : Nat} (hi : i < l.length) : l[i]? ≠ (l.map not)[i]? := by
  rw [List.getElem?_map, List.getElem?_eq_getElem hi]
  simp

/-- `topRight` agrees with the upper row up to a point and differs from it afterwards. -/
theorem topRight_same {q j x : Nat} (hx : x < 4 * q + 2) : (topRight q j)[x]? = (chainTop (q + 1 + j))[x]? := by
  rw [top_split, topRight]
  match x with
  | 0 => rfl
  | 1 => rfl
  | x + 2 =>
    simp only [List.getElem?_cons_succ]
    exact get_bars_lt (by omega) _ _
theorem topRight_ne {q j x : Nat} (h1 : 4 * q + 2 ≤ x) (h2 : x < 4 * (q + 1 + j) + 2) :
    (chainTop (q + 1 + j))[x]? ≠ (topRight q j)[x]? := by
  rw [top_split, topRight]
  obtain ⟨i, rfl⟩ : ∃ i, x = 4 * q + i + 2 := ⟨x - (4 * q + 2), by omega⟩
  simp only [List.getElem?_cons_succ]
  rw [get_bars, get_bars]
  exact ne_not _ (by rw [bars_length]; omega)

theorem topLeft_same {q j x : Nat} (hx : x < 4 * q + 5) : (topLeft q j)[x]? = (chainTop (q + 2 + j))[x]? := by
  rw [show q + 2 + j = q + 1 + (j + 1) by omega, top_split, topLeft]
  match x with
  | 0 => rfl
  | 1 => rfl
  | x + 2 =>
    simp only [List.getElem?_cons_succ]
    by_cases h : x < 4 * q
    · exact get_bars_lt h _ _
    · obtain ⟨i, rfl⟩ : ∃ i, x = 4 * q + i := ⟨x - 4 * q, by omega⟩
      rw [get_bars, get_bars]
      match i, hx with
      | 0, _ => rfl
      | 1, _ => rfl
      | 2, _ => rfl
      | i + 3, h => omega
theorem topLeft_ne (q j : Nat) : (chainTop (q + 2 + j))[4 * q + 5]? ≠ (topLeft q j)[4 * q + 5]? := by
  rw [show q + 2 + j = q + 1 + (j + 1) by omega, top_split, topLeft, show 4 * q + 5 = 4 * q + 3 + 2 by omega]
  simp only [List.getElem?_cons_succ]
  rw [get_bars, get_bars]
  simp [bars]

theorem bottomLeft_same {q j x : Nat} (hx : x < 4 * q + 3) : (bottomLeft q j)[x]? = (chainBottom (q + 1 + j))[x]? := by
  rw [bottom_split, bottomLeft]
  by_cases h : x < 4 * q
  · exact get_bars_lt h _ _
  · obtain ⟨i, rfl⟩ : ∃ i, x = 4 * q + i := ⟨x - 4 * q, by omega⟩
    rw [get_bars, get_bars]
    match i, hx with
    | 0, _ => rfl
    | 1, _ => rfl
    | 2, _ => rfl
    | i + 3, h => omega
theorem bottomLeft_ne {q j x : Nat} (h1 : 4 * q + 3 ≤ x) (h4 : x ≠ 4 * q + 4) (h2 : x < 4 * (q + 1 + j) + 2) :
    (chainBottom (q + 1 + j))[x]? ≠ (bottomLeft q j)[x]? := by
  rw [bottom_split, bottomLeft]
  obtain ⟨i, rfl⟩ : ∃ i, x = 4 * q + i := ⟨x - 4 * q, by omega⟩
  rw [get_bars, get_bars]
  match i, h1, h4, h2 with
  | 0, h, _, _ => omega
  | 1, h, _, _ => omega
  | 2, h, _, _ => omega
  | 3, _, _, _ => simp
  | 4, _, h, _ => omega
  | 5, _, _, _ => simp
  | i + 6, _, _, h =>
    simp only [List.getElem?_cons_succ]
    exact (ne_not _ (by rw [bars_length]; omega)).symm

theorem bottomRight_same {q j x : Nat} (hx : x < 4 * q + 4) : (bottomRight q j)[x]? = (chainBottom (q + 2 + j))[x]? := by
  rw [bottomRight, bottom_eq, show q + 2 + j = q + 1 + (j + 1) by omega, bars_add (q + 1), List.append_assoc]
  exact get_bars_lt (q := q + 1) (by omega) _ _
theorem bottomRight_ne (q j : Nat) : (chainBottom (q + 2 + j))[4 * q + 4]? ≠ (bottomRight q j)[4 * q + 4]? := by
  rw [bottomRight, bottom_eq, show q + 2 + j = q + 1 + (j + 1) by omega, bars_add (q + 1), List.append_assoc,
    show 4 * q + 4 = 4 * (q + 1) + 0 by omega, get_bars, get_bars]
  simp [bars]

/-- While `c` is far from the end, no square of the upper row beyond `c + 2` follows from those up to `c`. -/
theorem top_alt {k c x : Nat} (hc : c % 2 = 0) (hk : c + 6 ≤ 4 * k) (h1 : c + 2 < x) (h2 : x < 4 * k + 2) :
    ∃ l, l.length = 4 * k + 2 ∧ runs l = 1 :: List.replicate k 2 ∧ (∀ i ≤ c, l[i]? = (chainTop k)[i]?) ∧
      (chainTop k)[x]? ≠ l[x]? := by
  obtain ⟨q, hq | hq⟩ : ∃ q, c = 4 * q ∨ c = 4 * q + 2 := ⟨c / 4, by omega⟩
  · obtain ⟨j, rfl⟩ : ∃ j, k = q + 1 + j := ⟨k - q - 1, by omega⟩
    exact ⟨topRight q j, topRight_length q j, runs_topRight q j, fun i hi => topRight_same (by omega), topRight_ne (by omega) h2⟩
  · by_cases h5 : x = 4 * q + 5
    · obtain ⟨j, rfl⟩ : ∃ j, k = q + 2 + j := ⟨k - q - 2, by omega⟩
      subst h5
      exact ⟨topLeft q j, topLeft_length q j, runs_topLeft q j, fun i hi => topLeft_same (by omega), topLeft_ne q j⟩
    · obtain ⟨j, rfl⟩ : ∃ j, k = q + 1 + 1 + j := ⟨k - q - 2, by omega⟩
      exact ⟨topRight (q + 1) j, topRight_length _ j, runs_topRight _ j, fun i hi => topRight_same (by omega),
        topRight_ne (by omega) h2⟩

theorem bottom_alt {k c x : Nat} (hc : c % 2 = 0) (hk : c + 6 ≤ 4 * k) (h1 : c + 2 < x) (h2 : x < 4 * k + 2) :
    ∃ l, l.length = 4 * k + 2 ∧ runs l = List.replicate (k + 1) 2 ∧ (∀ i ≤ c, l[i]? = (chainBottom k)[i]?) ∧
      (chainBottom k)[x]? ≠ l[x]? := by
  obtain ⟨q, hq⟩ : ∃ q, c = 4 * q ∨ c = 4 * q + 2 := ⟨c / 4, by omega⟩
  by_cases h4 : x = 4 * q + 4
  · obtain ⟨j, rfl⟩ : ∃ j, k = q + 2 + j := ⟨k - q - 2, by omega⟩
    subst h4
    exact ⟨bottomRight q j, bottomRight_length q j, runs_bottomRight q j, fun i hi => bottomRight_same (by omega),
      bottomRight_ne q j⟩
  · obtain ⟨j, rfl⟩ : ∃ j, k = q + 1 + j := ⟨k - q - 1, by omega⟩
    exact ⟨bottomLeft q j, bottomLeft_length q j, runs_bottomLeft q j, fun i hi => bottomLeft_same (by omega),
      bottomLeft_ne (by omega) h4 h2⟩

/-! ### The grid -/

/-- Two rows of the same length. -/
theorem cell_top {w x : Nat} {r s : List Bool} (hr : r.length = w) (hx : x < w) : cell w (r ++ s) x 0 = r.getD x false := by
  rw [cell, Nat.mul_zero, Nat.zero_add, List.getD_eq_getElem?_getD, List.getD_eq_getElem?_getD, List.getElem?_append_left (by omega)]
theorem cell_bottom {w x : Nat} {r s : List Bool} (hr : r.length = w) : cell w (r ++ s) x 1 = s.getD x false := by
  rw [cell, Nat.mul_one, List.getD_eq_getElem?_getD, List.getD_eq_getElem?_getD, List.getElem?_append_right (by omega)]
  congr 2; omega

theorem range_getD {w : Nat} {r : List Bool} (hr : r.length = w) : (List.range w).map (fun x => r.getD x false) = r := by
  apply List.ext_getElem?
  intro i
  by_cases hi : i < w
  · rw [List.getElem?_map, List.getElem?_range hi, List.getElem?_eq_getElem (by omega)]
    simp [List.getD_eq_getElem?_getD, List.getElem?_eq_getElem (show i < r.length by omega)]
  · rw [List.getElem?_eq_none (by simp; omega), List.getElem?_eq_none (by omega)]

theorem row_top {w : Nat} {r s : List Bool} (hr : r.length = w) : rowOf w (r ++ s) 0 = r := by
  conv_rhs => rw [← range_getD hr]
  exact List.map_congr_left fun x hx => cell_top hr (List.mem_range.mp hx)
theorem row_bottom {w : Nat} {r s : List Bool} (hr : r.length = w) (hs : s.length = w) : rowOf w (r ++ s) 1 = s := by
  conv_rhs => rw [← range_getD hs]
  exact List.map_congr_left fun x _ => cell_bottom hr
theorem column_two {w x : Nat} {b : List Bool} : column w 2 b x = [cell w b x 0, cell w b x 1] := rfl

theorem get_top {w x : Nat} {r s : List Bool} (hr : r.length = w) (hx : x < w) : (r ++ s)[w * 0 + x]? = r[x]? := by
  rw [Nat.mul_zero, Nat.zero_add, List.getElem?_append_left (by omega)]
theorem get_bottom {w x : Nat} {r s : List Bool} (hr : r.length = w) : (r ++ s)[w * 1 + x]? = s[x]? := by
  rw [Nat.mul_one, List.getElem?_append_right (by omega)]
  congr 1; omega

theorem cols_length (k : Nat) : (chainCols k).length = 4 * k + 2 := by simp [chainCols]
theorem rows_length (k : Nat) : (chainRows k).length = 2 := rfl

theorem fits {k : Nat} (hk : 4 * k + 2 < 2 ^ 31) : Fits (chainCols k) (chainRows k) := by
  have hm : ∀ rule ∈ chainCols k ++ chainRows k, rule = [2] ∨ rule = [1] ∨ rule = 1 :: List.replicate k 2 ∨
      rule = List.replicate (k + 1) 2 := by
    intro rule hr
    simp only [chainCols, chainRows, List.mem_append, List.mem_cons, List.not_mem_nil, or_false, List.mem_replicate] at hr
    tauto
  refine ⟨⟨fun rule hr => ?_, by simp [rows_length], ?_, short_side (by rw [cols_length]; exact hk), short_side (by simp [rows_length])⟩, fun rule hr => ?_⟩
  · unfold Spec.Small
    rcases hm rule hr with rfl | rfl | rfl | rfl
    · decide
    · decide
    · simp only [List.map_cons, List.map_replicate, List.sum_cons, List.sum_replicate_nat]; omega
    · simp only [List.map_replicate, List.sum_replicate_nat]; omega
  · rw [cols_length, rows_length]; omega
  · have hp : Positive rule := by
      rcases hm rule hr with rfl | rfl | rfl | rfl
      · unfold Positive; decide
      · unfold Positive; decide
      · exact pos_top k
      · exact pos_bottom _
    exact ⟨fun h => absurd (hp 0 (List.mem_of_head? h)) (by decide), fun h => absurd (hp 0 (List.mem_of_getLast? h)) (by decide)⟩

/-- The squares of a column of the picture. -/
theorem column_chain {k x : Nat} (hx : x < 4 * k + 2) :
    column (4 * k + 2) 2 (chain k) x = [(chainTop k).getD x false, (chainBottom k).getD x false] := by
  rw [column_two, chain, cell_top (top_length k) hx, cell_bottom (top_length k)]

/-- From the second column on one of the two squares is filled. -/
theorem not_both {k x : Nat} (h0 : x ≠ 0) (hx : x < 4 * k + 2) :
    (chainBottom k).getD x false = !(chainTop k).getD x false := by
  match x, h0 with
  | 1, _ => rfl
  | x + 2, _ =>
    have : x < (bars k).length := by rw [bars_length]; omega
    simp [chainTop, chainBottom, List.getD_eq_getElem?_getD, List.getElem?_eq_getElem this]

theorem follows_one (a : Bool) : Follows [1] [a, !a] :=
  (follows_runs (by unfold Positive; decide)).mpr (by cases a <;> rfl)

theorem solves (k : Nat) : Solves (chainCols k) (chainRows k) (chain k) := by
  refine ⟨by rw [chain, List.length_append, top_length, bottom_length, cols_length, rows_length]; omega, ?_, ?_⟩
  · intro x rule hr
    have hx := (List.getElem?_eq_some_iff.mp hr).1
    rw [cols_length] at hx ⊢
    rw [rows_length, column_chain hx]
    cases x with
    | zero =>
      obtain rfl : [2] = rule := by simpa [chainCols] using hr
      exact (follows_runs (by unfold Positive; decide)).mpr rfl
    | succ x =>
      rw [chainCols, List.getElem?_cons_succ] at hr
      rw [(List.mem_replicate.mp (List.mem_of_getElem? hr)).2, not_both (by omega) hx]
      exact follows_one _
  · intro y rule hr
    rw [cols_length]
    match y, hr with
    | 0, hr =>
      obtain rfl : 1 :: List.replicate k 2 = rule := by simpa [chainRows] using hr
      rw [chain, row_top (top_length k)]
      exact (follows_runs (pos_top k)).mpr (runs_top k)
    | 1, hr =>
      obtain rfl : List.replicate (k + 1) 2 = rule := by simpa [chainRows] using hr
      rw [chain, row_bottom (top_length k) (bottom_length k)]
      exact (follows_runs (pos_bottom _)).mpr (runs_bottom k)
    | y + 2, hr => simp [chainRows] at hr

/-! ### How far a pass gets -/

theorem agrees_of_eq {g : List Square} {b b' : List Bool} (ha : Agrees g b) (hl : b'.length = b.length)
    (h : ∀ (p : Nat), g[p]? ≠ some .Blank → b'[p]? = b[p]?) : Agrees g b' := by
  refine ⟨hl.trans ha.1, fun i q v hq hv => ?_⟩
  by_cases hb : q = .Blank
  · subst hb; simp [Compat]
  · exact ha.2 i q v hq (by rw [← h i (by rw [hq]; simpa using hb)]; exact hv)

theorem blank_of_two {g : List Square} {b b' : List Bool} (h : Agrees g b) (h' : Agrees g b') {p : Nat} (hp : p < g.length)
    (hne : b[p]? ≠ b'[p]?) : g[p]? = some .Blank := by
  have h1 := List.getElem?_eq_getElem (l := b) (i := p) (by rw [h.1]; exact hp)
  have h2 := List.getElem?_eq_getElem (l := b') (i := p) (by rw [h'.1]; exact hp)
  have hg := List.getElem?_eq_getElem hp
  have c := h.2 p _ _ hg h1
  have c' := h'.2 p _ _ hg h2
  rw [h1, h2] at hne
  rw [hg]
  cases hq : g[p] with
  | Blank => rfl
  | Filled => rw [hq] at c c'; exact absurd (by rw [c.1 rfl, c'.1 rfl]) hne
  | Blocked => rw [hq] at c c'; exact absurd (by rw [c.2 rfl, c'.2 rfl]) hne

theorem ded_keep {j : Job} {g g' : List Square} (hd : Ded j g g') {p : Nat} (hp : p ∉ j.ps) : g'[p]? = g[p]? := by
  obtain ⟨L, R, _, rfl⟩ := hd
  exact writeAt_notMem hp

/-- Unknown squares at which two completions differ stay unknown. -/
theorem keep_blank {n : Nat} {j : Job} {g g' : List Square} {b b' : List Bool} (hj : j.Good n) (hg : g.length = n)
    (hd : Ded j g g') (ha : Agrees g b) (ha' : Agrees g b') (hf : Follows j.rule (j.vals b)) (hf' : Follows j.rule (j.vals b'))
    {p : Nat} (hp : p < n) (hne : b[p]? ≠ b'[p]?) : g'[p]? = some .Blank :=
  blank_of_two (Ded.sound hj hg hd ha hf) (Ded.sound hj hg hd ha' hf')
    (by rw [(Ded.le hj hg hd).1, hg]; exact hp) hne

/-- The known squares are right; in row 0 they lie in the columns up to `c`, in row 1 up to `d`. -/
structure Front (k c d : Nat) (g : List Square) : Prop where
  right : Agrees g (chain k)
  top : ∀ x < 4 * k + 2, c < x → g[x]? = some .Blank
  bottom : ∀ x < 4 * k + 2, d < x → g[4 * k + 2 + x]? = some .Blank

theorem chain_length (k : Nat) : (chain k).length = 2 * (4 * k + 2) := by
  rw [chain, List.length_append, top_length, bottom_length]; omega

theorem Front.length {k c d : Nat} {g : List Square} (h : Front k c d g) : g.length = (4 * k + 2) * 2 := by
  rw [← h.right.1, chain_length]; omega

/-- The picture with column `x` upside down. -/
def turned (k x : Nat) : List Bool := (chain k).mapIdx fun p v => if p % (4 * k + 2) = x then !v else v

theorem turned_get (k x p : Nat) : (turned k x)[p]? = (chain k)[p]?.map fun v => if p % (4 * k + 2) = x then !v else v := by
  rw [turned, List.getElem?_mapIdx]

/-- A column step finds nothing beyond the front. -/
theorem Front.col {k c : Nat} {g g' : List Square} (h : Front k c c g) {x : Nat} {rule : List Nat}
    (hr : (chainCols k)[x]? = some rule) (hj : Job.Good ((4 * k + 2) * 2) ⟨rule, colPs (4 * k + 2) 2 x⟩)
    (hd : Ded ⟨rule, colPs (4 * k + 2) 2 x⟩ g g') : Front k c c g' := by
  have hx : x < 4 * k + 2 := by rw [← cols_length]; exact (List.getElem?_eq_some_iff.mp hr).1
  have hps : ∀ p, p ∈ colPs (4 * k + 2) 2 x ↔ p = x ∨ p = 4 * k + 2 + x := by
    intro p
    simp [colPs, List.range_succ]
  have hfol : Follows rule (Job.vals ⟨rule, colPs (4 * k + 2) 2 x⟩ (chain k)) := by
    have := (solves k).2.1 x rule hr
    rw [← vals_col (rule := rule), cols_length, rows_length] at this
    exact this
  have hgood : ∀ p, p ∈ colPs (4 * k + 2) 2 x → c < x → g'[p]? = some .Blank := by
    intro p hp hcx
    have hb : ∀ p, p ∈ colPs (4 * k + 2) 2 x → g[p]? = some .Blank := by
      intro p hp
      rcases (hps p).mp hp with rfl | rfl
      · exact h.top _ hx hcx
      · exact h.bottom _ hx hcx
    have hmod : ∀ p, p < (4 * k + 2) * 2 → p % (4 * k + 2) = x → p ∈ colPs (4 * k + 2) 2 x := by
      intro p hp he
      rw [hps]
      have h1 := Nat.div_add_mod p (4 * k + 2)
      have h2 : p / (4 * k + 2) < 2 := Nat.div_lt_of_lt_mul hp
      obtain h3 | h3 : p / (4 * k + 2) = 0 ∨ p / (4 * k + 2) = 1 := by
        generalize p / (4 * k + 2) = d at h2 ⊢; clear h1; omega
      · rw [h3] at h1; omega
      · rw [h3] at h1; omega
    have hpl : p < (4 * k + 2) * 2 := hj.bound p hp
    have hpm : p % (4 * k + 2) = x := by
      rcases (hps p).mp hp with rfl | rfl
      · exact Nat.mod_eq_of_lt hx
      · rw [Nat.add_mod_left]; exact Nat.mod_eq_of_lt hx
    refine keep_blank (b := chain k) (b' := turned k x) hj h.length hd h.right ?_ hfol ?_ hpl ?_
    · refine agrees_of_eq h.right (by simp [turned]) fun p hp => ?_
      rw [turned_get]
      by_cases hpl : p < (chain k).length
      · rw [List.getElem?_eq_getElem hpl, Option.map_some, if_neg]
        intro he
        exact hp (hb p (hmod p (by rw [chain_length] at hpl; omega) he))
      · rw [List.getElem?_eq_none (by omega)]; rfl
    · have h0 : x ≠ 0 := by omega
      have hrule : rule = [1] := by
        cases x with
        | zero => exact absurd rfl h0
        | succ x =>
          rw [chainCols, List.getElem?_cons_succ] at hr
          exact (List.mem_replicate.mp (List.mem_of_getElem? hr)).2
      have hv : Job.vals ⟨rule, colPs (4 * k + 2) 2 x⟩ (turned k x) = [!(chainTop k).getD x false, !(chainBottom k).getD x false] := by
        have t1 : (turned k x).getD x false = !(chainTop k).getD x false := by
          have := get_top (s := chainBottom k) (top_length k) hx
          rw [Nat.mul_zero, Nat.zero_add] at this
          rw [List.getD_eq_getElem?_getD, List.getD_eq_getElem?_getD, turned_get, chain, this,
            List.getElem?_eq_getElem (by rw [top_length]; exact hx), Option.map_some, if_pos (Nat.mod_eq_of_lt hx)]
          rfl
        have t2 : (turned k x).getD (4 * k + 2 + x) false = !(chainBottom k).getD x false := by
          have := get_bottom (x := x) (s := chainBottom k) (top_length k)
          rw [Nat.mul_one] at this
          rw [List.getD_eq_getElem?_getD, List.getD_eq_getElem?_getD, turned_get, chain, this,
            List.getElem?_eq_getElem (by rw [bottom_length]; exact hx), Option.map_some,
            if_pos (by rw [Nat.add_mod_left]; exact Nat.mod_eq_of_lt hx)]
          rfl
        rw [← t1, ← t2]
        simp [Job.vals, colPs, List.range_succ]
      change Follows rule _
      rw [hv, hrule, not_both h0 hx]
      exact follows_one _
    · rw [turned_get, List.getElem?_eq_getElem (by rw [chain_length, Nat.mul_comm]; exact hpl), Option.map_some, if_pos hpm]
      simp
  refine ⟨Ded.sound hj h.length hd h.right hfol, fun y hy hcy => ?_, fun y hy hcy => ?_⟩
  · by_cases hp : y ∈ colPs (4 * k + 2) 2 x
    · refine hgood y hp ?_
      rcases (hps y).mp hp with rfl | e <;> omega
    · rw [ded_keep hd hp]; exact h.top y hy hcy
  · by_cases hp : 4 * k + 2 + y ∈ colPs (4 * k + 2) 2 x
    · refine hgood _ hp ?_
      rcases (hps _).mp hp with e | e <;> omega
    · rw [ded_keep hd hp]; exact h.bottom y hy hcy

theorem Front.cols {k c : Nat} {js : List Job} {g g' : List Square} (h : Front k c c g)
    (hj : ∀ j ∈ js, Job.Good ((4 * k + 2) * 2) j ∧ ∃ x, (chainCols k)[x]? = some j.rule ∧ j.ps = colPs (4 * k + 2) 2 x)
    (hr : Run js g (some g')) : Front k c c g' := by
  generalize he : some g' = o at hr
  induction hr with
  | nil => obtain rfl := Option.some.inj he; exact h
  | stuck => cases he
  | @step j js g g1 o hd _ ih =>
    obtain ⟨hgood, x, h1, h2⟩ := hj j (by simp)
    obtain ⟨rule, ps⟩ := j
    simp only at h1 h2
    subst h2
    exact ih (h.col h1 hgood hd) (fun j hj' => hj j (by simp [hj'])) he

/-- The step of the upper row finds at most two squares beyond the front. -/
theorem Front.rowTop {k c d : Nat} {g g' : List Square} (h : Front k c d g) (hc : c % 2 = 0) (hk : c + 6 ≤ 4 * k)
    (hj : Job.Good ((4 * k + 2) * 2) ⟨1 :: List.replicate k 2, rowPs (4 * k + 2) 0⟩)
    (hd : Ded ⟨1 :: List.replicate k 2, rowPs (4 * k + 2) 0⟩ g g') : Front k (c + 2) d g' := by
  have hvals : ∀ l : List Bool, l.length = 4 * k + 2 →
      Job.vals ⟨1 :: List.replicate k 2, rowPs (4 * k + 2) 0⟩ (l ++ chainBottom k) = l := by
    intro l hl
    have := vals_row (col := chainCols k) (b := l ++ chainBottom k) (y := 0) (rule := 1 :: List.replicate k 2)
    rw [cols_length] at this
    rw [this, row_top hl]
  have hfol : ∀ l : List Bool, l.length = 4 * k + 2 → runs l = 1 :: List.replicate k 2 → Follows (1 :: List.replicate k 2)
      (Job.vals ⟨1 :: List.replicate k 2, rowPs (4 * k + 2) 0⟩ (l ++ chainBottom k)) := by
    intro l hl hr
    rw [hvals l hl]
    exact (follows_runs (pos_top k)).mpr hr
  refine ⟨Ded.sound hj h.length hd h.right (hfol _ (top_length k) (runs_top k)), fun x hx hcx => ?_, fun x hx hdx => ?_⟩
  · obtain ⟨l, h1, h2, h3, h4⟩ := top_alt hc hk hcx hx
    refine keep_blank (b := chain k) (b' := l ++ chainBottom k) hj h.length hd h.right ?_ (hfol _ (top_length k) (runs_top k))
      (hfol l h1 h2) (by omega) ?_
    · refine agrees_of_eq h.right (by simp [chain, h1, top_length]) fun p hp => ?_
      by_cases hpt : p < 4 * k + 2
      · rw [chain, List.getElem?_append_left (by omega), List.getElem?_append_left (by rw [top_length]; exact hpt)]
        refine h3 p (Nat.le_of_not_lt fun hlt => hp (h.top p hpt hlt))
      · rw [chain, List.getElem?_append_right (by omega), List.getElem?_append_right (by rw [top_length]; omega), h1, top_length]
    · rw [chain, List.getElem?_append_left (by rw [top_length]; exact hx), List.getElem?_append_left (by omega)]
      exact h4
  · rw [ded_keep hd]
    · exact h.bottom x hx hdx
    · simp only [rowPs, List.mem_map, List.mem_range, not_exists, not_and]
      intro y hy; omega

theorem Front.rowBottom {k c d : Nat} {g g' : List Square} (h : Front k c d g) (hc : d % 2 = 0) (hk : d + 6 ≤ 4 * k)
    (hj : Job.Good ((4 * k + 2) * 2) ⟨List.replicate (k + 1) 2, rowPs (4 * k + 2) 1⟩)
    (hd : Ded ⟨List.replicate (k + 1) 2, rowPs (4 * k + 2) 1⟩ g g') : Front k c (d + 2) g' := by
  have hvals : ∀ l : List Bool, l.length = 4 * k + 2 →
      Job.vals ⟨List.replicate (k + 1) 2, rowPs (4 * k + 2) 1⟩ (chainTop k ++ l) = l := by
    intro l hl
    have := vals_row (col := chainCols k) (b := chainTop k ++ l) (y := 1) (rule := List.replicate (k + 1) 2)
    rw [cols_length] at this
    rw [this, row_bottom (top_length k) hl]
  have hfol : ∀ l : List Bool, l.length = 4 * k + 2 → runs l = List.replicate (k + 1) 2 → Follows (List.replicate (k + 1) 2)
      (Job.vals ⟨List.replicate (k + 1) 2, rowPs (4 * k + 2) 1⟩ (chainTop k ++ l)) := by
    intro l hl hr
    rw [hvals l hl]
    exact (follows_runs (pos_bottom _)).mpr hr
  refine ⟨Ded.sound hj h.length hd h.right (hfol _ (bottom_length k) (runs_bottom k)), fun x hx hcx => ?_, fun x hx hdx => ?_⟩
  · rw [ded_keep hd]
    · exact h.top x hx hcx
    · simp only [rowPs, List.mem_map, List.mem_range, not_exists, not_and]
      intro y hy; omega
  · obtain ⟨l, h1, h2, h3, h4⟩ := bottom_alt hc hk hdx hx
    refine keep_blank (b := chain k) (b' := chainTop k ++ l) hj h.length hd h.right ?_ (hfol _ (bottom_length k) (runs_bottom k))
      (hfol l h1 h2) (by omega) ?_
    · refine agrees_of_eq h.right (by simp [chain, h1, bottom_length]) fun p hp => ?_
      by_cases hpt : p < 4 * k + 2
      · rw [chain, List.getElem?_append_left (by rw [top_length]; omega), List.getElem?_append_left (by rw [top_length]; exact hpt)]
      · rw [chain, List.getElem?_append_right (by rw [top_length]; omega), List.getElem?_append_right (by rw [top_length]; omega),
          top_length]
        by_cases hpl : p - (4 * k + 2) < 4 * k + 2
        · refine h3 _ (Nat.le_of_not_lt fun hlt => hp ?_)
          have := h.bottom _ hpl hlt
          rwa [show 4 * k + 2 + (p - (4 * k + 2)) = p by omega] at this
        · rw [List.getElem?_eq_none (by omega), List.getElem?_eq_none (by rw [bottom_length]; omega)]
    · rw [chain, List.getElem?_append_right (by rw [top_length]; omega), List.getElem?_append_right (by rw [top_length]; omega),
        top_length, show 4 * k + 2 + x - (4 * k + 2) = x by omega]
      exact h4

theorem run_split {js ks : List Job} {g g' : List Square} (h : Run (js ++ ks) g (some g')) :
    ∃ g1, Run js g (some g1) ∧ Run ks g1 (some g') := by
  induction js generalizing g with
  | nil => exact ⟨g, .nil g, h⟩
  | cons j js ih =>
    rw [List.cons_append] at h
    cases h with
    | step hd ht =>
      obtain ⟨g1, h1, h2⟩ := ih ht
      exact ⟨g1, .step hd h1, h2⟩

theorem Front.pass {k c : Nat} (hk : 4 * k + 2 < 2 ^ 31) {g g' : List Square} (h : Front k c c g) (hc : c % 2 = 0)
    (hl : c + 6 ≤ 4 * k) (hr : Run (allJobs (chainCols k) (chainRows k)) g (some g')) : Front k (c + 2) (c + 2) g' := by
  have hgood := allJobs_good (fits hk)
  rw [cols_length, rows_length] at hgood
  obtain ⟨g1, h1, h2⟩ := run_split hr
  rw [cols_length, rows_length] at h1
  have f1 : Front k c c g1 := h.cols (fun j hj => by
    refine ⟨hgood j ?_, mem_jobs.mp hj⟩
    rw [allJobs, cols_length, rows_length]
    exact List.mem_append_left _ hj) h1
  have hrows : ∀ j ∈ jobs (rowPs (4 * k + 2)) (chainRows k) 0, Job.Good ((4 * k + 2) * 2) j := fun j hj => hgood j (by
    rw [allJobs, cols_length]
    exact List.mem_append_right _ hj)
  rw [cols_length] at h2
  have e : jobs (rowPs (4 * k + 2)) (chainRows k) 0 =
      [⟨1 :: List.replicate k 2, rowPs (4 * k + 2) 0⟩, ⟨List.replicate (k + 1) 2, rowPs (4 * k + 2) 1⟩] := rfl
  rw [e] at h2 hrows
  cases h2 with
  | step hd0 ht =>
    cases ht with
    | step hd1 ht =>
      cases ht with
      | nil =>
        exact (f1.rowTop hc hl (hrows _ (by simp)) hd0).rowBottom hc hl (hrows _ (by simp)) hd1

theorem Front.runs (oc : Bool) {k : Nat} (hk : 4 * k + 2 < 2 ^ 31) {cs rs : List RuleMachine}
    (hcm : List.Forall₂ IsMachine (chainCols k) cs) (hrm : List.Forall₂ IsMachine (chainRows k) rs) {n : Nat} {g t : List Square}
    (hr : Runs (passBody oc (chainCols k).length cs rs) n g t) : ∀ c, c % 2 = 0 → Front k c c g → c + 2 * n + 4 ≤ 4 * k →
      Front k (c + 2 * n) (c + 2 * n) t := by
  induction hr with
  | refl => intro c _ h _; exact h
  | @step n g g' t hb _ ih =>
    intro c hc h hl
    have hlen : g.length = (chainCols k).length * (chainRows k).length := by rw [h.length, cols_length, rows_length]
    rcases passBody_spec oc (fits hk) hcm hrm hlen with ⟨_, e⟩ | ⟨g1, hrun, e⟩
    · rw [e] at hb; cases Prog.ok.inj hb
    · rw [e] at hb
      split at hb
      · cases Prog.ok.inj hb
      · obtain rfl := Sum.inl.inj (Prog.ok.inj hb)
        have := ih (c + 2) (by omega) (h.pass hk hc (by omega) hrun) (by omega)
        rwa [show c + 2 * (n + 1) = c + 2 + 2 * n by omega]

/-! ### Everything is found in the end -/

/-- A block that has begun continues in the same way. -/
theorem next_forced : ∀ (p a b : List Bool), runs (p ++ a) = runs (p ++ b) → a.length = b.length → p.getLast? = some true →
    a.head? = b.head? := by
  intro p
  induction p with
  | nil => intro a b _ _ h; cases h
  | cons v p ih =>
    intro a b hr hl hp
    cases p with
    | nil =>
      obtain rfl : v = true := by simpa using hp
      match a, b, hl with
      | [], [], _ => rfl
      | x :: a, y :: b, _ =>
        cases x <;> cases y <;> try rfl
        · obtain ⟨n, ns, _, h2⟩ := runs_true_true b
          simp only [List.cons_append, List.nil_append] at hr
          rw [h2, runs_true_false] at hr
          simp at hr
        · obtain ⟨n, ns, _, h2⟩ := runs_true_true a
          simp only [List.cons_append, List.nil_append] at hr
          rw [h2, runs_true_false] at hr
          simp at hr
    | cons u p =>
      have hp' : (u :: p).getLast? = some true := by rw [List.getLast?_cons_cons] at hp; exact hp
      refine ih a b ?_ hl hp'
      cases v with
      | false => simpa using hr
      | true =>
        cases u with
        | false => simpa using hr
        | true =>
          simp only [List.cons_append] at hr ⊢
          obtain ⟨n, ns, h1, h2⟩ := runs_true_true (p ++ a)
          obtain ⟨m, ms, h3, h4⟩ := runs_true_true (p ++ b)
          rw [h2, h4] at hr
          rw [h1, h3]
          simp only [List.cons.injEq, Nat.add_right_cancel_iff] at hr ⊢
          exact hr

theorem known_eq {line : List Square} {xs ys : List Bool} (hx : Agrees line xs) (hy : Agrees line ys) {i : Nat}
    (hi : i < line.length) (hb : line[i]? ≠ some .Blank) : xs[i]? = ys[i]? := by
  by_contra hne
  exact hb (blank_of_two hx hy hi hne)

theorem settled_of_eq {line : List Square} {rule : List Nat} {i : Nat}
    (h : ∀ xs ys, Completes line rule xs → Completes line rule ys → xs = ys) : Settled line rule i := by
  intro xs ys hx hy
  rw [h xs ys hx hy]
  exact ⟨rfl, rfl⟩

theorem settled_next {line : List Square} {rule : List Nat} (hr : Positive rule) {i : Nat} (hi : i + 1 < line.length)
    (hk : ∀ j ≤ i, line[j]? ≠ some .Blank) {b : List Bool} (hb : Agrees line b) (ht : b[i]? = some true) :
    Settled line rule (i + 1) := by
  rw [settled_iff hi]
  intro xs ys hx hy
  have hpre : ∀ zs, Completes line rule zs → zs.take (i + 1) = b.take (i + 1) := by
    intro zs hz
    apply List.ext_getElem?
    intro j
    rw [List.getElem?_take, List.getElem?_take]
    by_cases hj : j < i + 1
    · rw [if_pos hj, if_pos hj]
      exact known_eq hz.1 hb (by omega) (hk j (by omega))
    · rw [if_neg hj, if_neg hj]
  have hl : ∀ zs, Completes line rule zs → zs.length = line.length := fun zs hz => hz.1.1
  have hlast : (b.take (i + 1)).getLast? = some true := by
    rw [List.getLast?_take, if_neg (by omega), Nat.add_sub_cancel, ht]; rfl
  have key : (xs.drop (i + 1)).head? = (ys.drop (i + 1)).head? := by
    refine next_forced (b.take (i + 1)) _ _ ?_ (by rw [List.length_drop, List.length_drop, hl xs hx, hl ys hy]) hlast
    rw [← hpre xs hx, List.take_append_drop, hpre xs hx, ← hpre ys hy, List.take_append_drop, (follows_runs hr).mp hx.2,
      (follows_runs hr).mp hy.2]
  rw [List.head?_drop, List.head?_drop] at key
  unfold blk
  rw [List.take_add_one (i := i + 1) (l := xs), List.take_add_one (i := i + 1) (l := ys), hpre xs hx, hpre ys hy, key]

theorem full {k : Nat} {G : List Square} (hs : Stable (chainCols k) (chainRows k) G) (ha : Agrees G (chain k)) :
    ∀ x < 4 * k + 2, ∀ y < 2, G[(4 * k + 2) * y + x]? ≠ some .Blank := by
  obtain ⟨hlen, hcol, hrow⟩ := hs
  rw [cols_length, rows_length] at hlen hcol
  rw [cols_length] at hrow
  have hget : ∀ x < 4 * k + 2, ∀ y < 2, G[(4 * k + 2) * y + x]? = some (G.getD ((4 * k + 2) * y + x) .Blank) := by
    intro x hx y hy
    have := cell_lt hx hy
    rw [List.getD_eq_getElem?_getD, List.getElem?_eq_getElem (by omega)]; rfl
  have hrowget : ∀ y < 2, ∀ x < 4 * k + 2, (rowSq (4 * k + 2) G y)[x]? = G[(4 * k + 2) * y + x]? := by
    intro y hy x hx
    rw [hget x hx y hy, rowSq, List.getElem?_map, List.getElem?_range hx]; rfl
  have hcolget : ∀ y < 2, ∀ x < 4 * k + 2, (columnSq (4 * k + 2) 2 G x)[y]? = G[(4 * k + 2) * y + x]? := by
    intro y hy x hx
    rw [hget x hx y hy, columnSq, List.getElem?_map, List.getElem?_range hy]; rfl
  have hrowlen : ∀ y, (rowSq (4 * k + 2) G y).length = 4 * k + 2 := by intro y; simp [rowSq]
  have hcollen : ∀ x, (columnSq (4 * k + 2) 2 G x).length = 2 := by intro y; simp [columnSq]
  have hrowag : ∀ y < 2, Agrees (rowSq (4 * k + 2) G y) (if y = 0 then chainTop k else chainBottom k) := by
    intro y hy
    refine ⟨by rw [hrowlen]; split <;> simp [top_length, bottom_length], fun i q v hq hv => ?_⟩
    have hi : i < 4 * k + 2 := by rw [← hrowlen y]; exact (List.getElem?_eq_some_iff.mp hq).1
    rw [hrowget y hy i hi] at hq
    refine ha.2 _ q v hq ?_
    obtain rfl | rfl : y = 0 ∨ y = 1 := by omega
    · rw [chain, get_top (top_length k) hi]; simpa using hv
    · rw [chain, get_bottom (top_length k)]; simpa using hv
  intro x
  induction x using Nat.strong_induction_on with
  | _ x ih =>
    intro hx
    have two : ∀ xs, xs.length = 2 → ∃ a b : Bool, xs = [a, b] := by
      intro xs h
      match xs, h with
      | [a, b], _ => exact ⟨a, b, rfl⟩
    cases x with
    | zero =>
      intro y hy hb
      rw [← hcolget y hy 0 hx] at hb
      refine (hcol 0 [2] rfl).2 y hb (settled_of_eq fun xs ys h1 h2 => ?_)
      have key : ∀ xs, Completes (columnSq (4 * k + 2) 2 G 0) [2] xs → xs = [true, true] := by
        intro xs h
        obtain ⟨a, b, rfl⟩ := two xs (by rw [h.1.1, hcollen])
        have := (follows_runs (by unfold Positive; decide)).mp h.2
        revert this
        cases a <;> cases b <;> decide
      rw [key xs h1, key ys h2]
    | succ x =>
      have hone : ∃ y < 2, ((if y = 0 then chainTop k else chainBottom k : List Bool))[x]? = some true := by
        by_cases h0 : x = 0
        · subst h0; exact ⟨0, by decide, rfl⟩
        · have h := not_both h0 (show x < 4 * k + 2 by omega)
          rw [List.getD_eq_getElem?_getD, List.getD_eq_getElem?_getD,
            List.getElem?_eq_getElem (show x < (chainTop k).length by rw [top_length]; omega),
            List.getElem?_eq_getElem (show x < (chainBottom k).length by rw [bottom_length]; omega), Option.getD_some,
            Option.getD_some] at h
          cases ht : (chainTop k)[x]'(by rw [top_length]; omega) with
          | true => exact ⟨0, by decide, by rw [if_pos rfl, List.getElem?_eq_getElem (by rw [top_length]; omega), ht]⟩
          | false =>
            rw [ht] at h
            exact ⟨1, by decide, by rw [if_neg (by decide), List.getElem?_eq_getElem (by rw [bottom_length]; omega), h]; rfl⟩
      obtain ⟨y, hy, ht⟩ := hone
      have hrule : ∃ rule, (chainRows k)[y]? = some rule ∧ Positive rule := by
        obtain rfl | rfl : y = 0 ∨ y = 1 := by omega
        · exact ⟨_, rfl, pos_top k⟩
        · exact ⟨_, rfl, pos_bottom _⟩
      obtain ⟨rule, hr1, hr2⟩ := hrule
      have hknown : G[(4 * k + 2) * y + (x + 1)]? ≠ some .Blank := by
        intro hb
        rw [← hrowget y hy _ hx] at hb
        refine (hrow y rule hr1).2 _ hb (settled_next hr2 (by rw [hrowlen]; exact hx) (fun j hj => ?_) (hrowag y hy) ht)
        rw [hrowget y hy j (by omega)]
        exact ih j (by omega) (by omega) y hy
      intro y' hy' hb
      have hne : y' ≠ y := by rintro rfl; exact hknown hb
      rw [← hcolget y hy _ hx] at hknown
      rw [← hcolget y' hy' _ hx] at hb
      refine (hcol (x + 1) [1] (by rw [chainCols, List.getElem?_cons_succ, List.getElem?_replicate, if_pos (by omega)])).2 y' hb
        (settled_of_eq fun xs ys h1 h2 => ?_)
      have key : ∀ xs, Completes (columnSq (4 * k + 2) 2 G (x + 1)) [1] xs → ∃ a, xs = [a, !a] := by
        intro xs h
        obtain ⟨a, b, rfl⟩ := two xs (by rw [h.1.1, hcollen])
        have := (follows_runs (by unfold Positive; decide)).mp h.2
        refine ⟨a, ?_⟩
        revert this
        cases a <;> cases b <;> decide
      have he := known_eq h1.1 h2.1 (i := y) (by rw [hcollen]; exact hy) hknown
      obtain ⟨a, rfl⟩ := key xs h1
      obtain ⟨b, rfl⟩ := key ys h2
      obtain rfl | rfl : y = 0 ∨ y = 1 := by omega
      · simp only [List.getElem?_cons_zero, Option.some.injEq] at he
        rw [he]
      · simp only [List.getElem?_cons_succ, List.getElem?_cons_zero, Option.some.injEq, Bool.not_inj_iff] at he
        rw [he]

theorem runs_agrees (oc : Bool) {k : Nat} (hk : 4 * k + 2 < 2 ^ 31) {cs rs : List RuleMachine}
    (hcm : List.Forall₂ IsMachine (chainCols k) cs) (hrm : List.Forall₂ IsMachine (chainRows k) rs) {n : Nat} {g t : List Square}
    (hr : Runs (passBody oc (chainCols k).length cs rs) n g t) (ha : Agrees g (chain k)) : Agrees t (chain k) := by
  induction hr with
  | refl => exact ha
  | @step n g g' t hb _ ih =>
    have hlen : g.length = (chainCols k).length * (chainRows k).length := by
      rw [← ha.1, chain_length, cols_length, rows_length]; omega
    rcases passBody_spec oc (fits hk) hcm hrm hlen with ⟨_, e⟩ | ⟨g1, hrun, e⟩
    · rw [e] at hb; cases Prog.ok.inj hb
    · rw [e] at hb
      split at hb
      · cases Prog.ok.inj hb
      · obtain rfl := Sum.inl.inj (Prog.ok.inj hb)
        obtain ⟨g2, h1, h2⟩ := Run.sound (allJobs_good (fits hk)) hlen (solves_iff.mp (solves k)).2 ha hrun
        obtain rfl := Option.some.inj h1
        exact ih h2

theorem front_blank (k : Nat) : Front k 0 0 (List.replicate (8 * k + 4) .Blank) := by
  refine ⟨agrees_blank (by rw [chain_length]; omega), fun x hx _ => ?_, fun x hx _ => ?_⟩
  · rw [List.getElem?_replicate, if_pos (by omega)]
  · rw [List.getElem?_replicate, if_pos (by omega)]

end Nonogram.Chain
