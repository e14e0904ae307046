import Verif.Proofs.Nonogram.Zero
import Verif.Spec.NonogramPicture

/-! Squares fixed by a rule alone. -/
namespace Nonogram
open Spec

theorem follows_length {rule : List Nat} {xs : List Bool} (h : Follows rule xs) : minLength rule ≤ xs.length :=
  completes_blank.mp ⟨xs, agrees_blank rfl, h⟩

theorem minLength_cons₂ (a b : Nat) (r : List Nat) : minLength (a :: b :: r) = a + 1 + minLength (b :: r) := by
  simp [minLength]; omega

theorem changes_replicate (p b : Bool) (n : Nat) : changes p (List.replicate n b) = if n = 0 ∨ p = b then 0 else 1 := by
  induction n generalizing p with
  | zero => simp [changes]
  | succ n ih =>
    rw [List.replicate_succ, changes, ih]
    cases p <;> cases b <;> simp

theorem lastB_replicate (p b : Bool) (n : Nat) : lastB p (List.replicate n b) = if n = 0 then p else b := by
  cases n with
  | zero => rfl
  | succ n => simp [lastB, List.getLast?_replicate]

/-- The block at position `i` of a line that starts with a gap and a long enough block. -/
theorem blk_first {g a i : Nat} {ys : List Bool} (h1 : g ≤ i) (h2 : i < g + a) :
    blk (List.replicate g false ++ (List.replicate a true ++ ys)) i = 1 := by
  have : (List.replicate g false ++ (List.replicate a true ++ ys)).take (i + 1) =
      List.replicate g false ++ List.replicate (i + 1 - g) true := by
    rw [List.take_append, List.take_append]
    have e2 : (i + 1 - g - a) = 0 := by omega
    simp [List.take_replicate, e2]
    rw [Nat.min_eq_right (by omega), Nat.min_eq_left (by omega)]
  unfold blk
  rw [this, changes_append, changes_replicate, changes_replicate, lastB_replicate]
  have : i + 1 - g ≠ 0 := by omega
  by_cases hg : g = 0 <;> simp [this, hg]

theorem blk_later {g a i : Nat} {ys : List Bool} :
    blk (List.replicate g false ++ (List.replicate a true ++ false :: ys)) (g + a + 1 + i) =
      (if a = 0 then 0 else 2) + blk ys i := by
  have : (List.replicate g false ++ (List.replicate a true ++ false :: ys)).take (g + a + 1 + i + 1) =
      List.replicate g false ++ (List.replicate a true ++ false :: ys.take (i + 1)) := by
    rw [List.take_append, List.take_append]
    have e1 : g + a + 1 + i + 1 - g - a = (i + 1) + 1 := by omega
    simp [List.take_replicate, e1]
    rw [Nat.min_eq_right (by omega), Nat.min_eq_right (by omega)]
  unfold blk
  rw [this, changes_append, changes_append, changes_replicate, changes_replicate, lastB_replicate, lastB_replicate, changes]
  by_cases hg : g = 0 <;> by_cases ha : a = 0 <;> simp [hg, ha] <;> omega

/-- In every line that satisfies the rule, an overlap position lies in the same block. -/
theorem overlap_blk {rule : List Nat} {xs : List Bool} (h : Follows rule xs) {k i : Nat}
    (ho : Overlap xs.length rule k i) :
    i < xs.length ∧ blk xs i = 2 * (rule.take k).countP (0 < ·) + 1 := by
  induction rule generalizing xs k i with
  | nil => obtain ⟨a, h1, _⟩ := ho; simp at h1
  | cons a r ih =>
    obtain ⟨c, h1, h2, h3⟩ := ho
    cases r with
    | nil =>
      obtain ⟨g, e, rfl⟩ := h
      cases k with
      | succ k => simp at h1
      | zero =>
        simp only [List.getElem?_cons_zero, Option.some.injEq] at h1
        subst h1
        simp [minLength, offset] at h2 h3
        refine ⟨by simp; omega, ?_⟩
        rw [blk_first (by omega) (by omega)]; rfl
    | cons b r =>
      obtain ⟨g, ys, rfl, hf⟩ := h
      have hl := follows_length hf
      rw [minLength_cons₂] at h2
      cases k with
      | zero =>
        simp only [List.getElem?_cons_zero, Option.some.injEq] at h1
        subst h1
        simp [offset] at h2 h3
        refine ⟨by simp; omega, ?_⟩
        rw [blk_first (by omega) (by omega)]; rfl
      | succ k =>
        rw [List.getElem?_cons_succ] at h1
        have hoff : offset (a :: b :: r) (k + 1) = a + 1 + offset (b :: r) k := by simp [offset]
        rw [hoff] at h2 h3
        simp only [List.length_append, List.length_replicate, List.length_cons] at h2
        obtain ⟨i', rfl⟩ : ∃ i', i = g + a + 1 + i' := ⟨i - (g + a + 1), by omega⟩
        obtain ⟨h4, h5⟩ := ih hf (k := k) (i := i') ⟨c, h1, by omega, by omega⟩
        refine ⟨by simp; omega, ?_⟩
        rw [blk_later, h5, List.take_succ_cons, List.countP_cons]
        by_cases ha : a = 0
        · simp [ha]
        · simp [ha, Nat.pos_of_ne_zero ha]; omega

theorem overlap_true {rule : List Nat} {xs : List Bool} (h : Follows rule xs) {k i : Nat}
    (ho : Overlap xs.length rule k i) : xs[i]? = some true := by
  obtain ⟨h1, h2⟩ := overlap_blk h ho
  have h3 : xs[i]? = some xs[i] := List.getElem?_eq_getElem h1
  have := blk_parity h3
  rw [h2] at this
  rw [h3, this]
  congr 1
  exact decide_eq_true (by omega)

theorem overlap_settled {rule : List Nat} {line : List Square} {k i : Nat} (ho : Overlap line.length rule k i) :
    Settled line rule i := by
  by_cases hi : i < line.length
  · rw [settled_iff hi]
    intro xs ys hx hy
    rw [(overlap_blk hx.2 (by rw [hx.1.1]; exact ho)).2, (overlap_blk hy.2 (by rw [hy.1.1]; exact ho)).2]
  · intro xs ys hx hy
    exact absurd (overlap_blk hx.2 (by rw [hx.1.1]; exact ho)).1 (by rw [hx.1.1]; exact hi)

theorem oneWay_settled {rule : List Nat} {line : List Square} (ho : OneWay line.length rule) (i : Nat) :
    Settled line rule i := by
  intro xs ys hx hy
  rw [ho xs ys hx.1.1 hy.1.1 hx.2 hy.2]
  exact ⟨rfl, rfl⟩

/-- A line that satisfies the rule and has no square to spare is determined. -/
theorem tight_unique {rule : List Nat} {xs ys : List Bool} (hx : Follows rule xs) (hy : Follows rule ys)
    (hlx : xs.length = minLength rule) (hly : ys.length = minLength rule) : xs = ys := by
  induction rule generalizing xs ys with
  | nil =>
    obtain ⟨g, rfl⟩ := hx
    obtain ⟨g', rfl⟩ := hy
    simp [minLength] at hlx hly
    rw [hlx, hly]
  | cons a r ih =>
    cases r with
    | nil =>
      obtain ⟨g, e, rfl⟩ := hx
      obtain ⟨g', e', rfl⟩ := hy
      simp [minLength] at hlx hly
      have h1 : g = 0 := by omega
      have h2 : e = 0 := by omega
      have h3 : g' = 0 := by omega
      have h4 : e' = 0 := by omega
      rw [h1, h2, h3, h4]
    | cons b r =>
      obtain ⟨g, xs, rfl, hx⟩ := hx
      obtain ⟨g', ys, rfl, hy⟩ := hy
      have h1 := follows_length hx
      have h2 := follows_length hy
      rw [minLength_cons₂] at hlx hly
      simp only [List.length_append, List.length_replicate, List.length_cons] at hlx hly
      have h3 : g = 0 := by omega
      have h4 : g' = 0 := by omega
      rw [ih hx hy (by omega) (by omega), h3, h4]

theorem follows_cons_false {rule : List Nat} {xs : List Bool} (h : Follows rule xs) : Follows rule (false :: xs) := by
  match rule, h with
  | [], ⟨g, h⟩ => exact ⟨g + 1, by rw [h]; rfl⟩
  | [a], ⟨g, e, h⟩ => exact ⟨g + 1, e, by rw [h]; rfl⟩
  | a :: b :: r, ⟨g, ys, h, hf⟩ => exact ⟨g + 1, ys, by rw [h]; rfl, hf⟩

theorem follows_snoc_false {rule : List Nat} {xs : List Bool} (h : Follows rule xs) : Follows rule (xs ++ [false]) := by
  induction rule generalizing xs with
  | nil =>
    obtain ⟨g, rfl⟩ := h
    exact ⟨g + 1, by rw [List.replicate_succ']⟩
  | cons a r ih =>
    cases r with
    | nil =>
      obtain ⟨g, e, rfl⟩ := h
      exact ⟨g, e + 1, by rw [List.replicate_succ' (n := e)]; simp⟩
    | cons b r =>
      obtain ⟨g, ys, rfl, hf⟩ := h
      exact ⟨g, ys ++ [false], by simp, ih hf⟩

theorem shift_false {xs : List Bool} (h : false :: xs = xs ++ [false]) : ∀ b ∈ xs, b = false := by
  induction xs with
  | nil => simp
  | cons b xs ih =>
    simp only [List.cons_append, List.cons.injEq] at h
    obtain ⟨rfl, h⟩ := h
    intro c hc
    rcases List.mem_cons.mp hc with rfl | hc
    · rfl
    · exact ih h c hc

theorem follows_head_true {rule : List Nat} {xs : List Bool} (h : Follows rule xs) (hne : rule ≠ [])
    (h0 : rule.head? ≠ some 0) : true ∈ xs := by
  match rule, h with
  | [], _ => exact absurd rfl hne
  | [a], ⟨g, e, h⟩ =>
    have : a ≠ 0 := by simpa using h0
    rw [h]; simp [this]
  | a :: b :: r, ⟨g, ys, h, hf⟩ =>
    have : a ≠ 0 := by simpa using h0
    rw [h]; simp [this]

/-- Which rules have at most one line of a given length. -/
theorem oneWay_iff {rule : List Nat} (h0 : rule.head? ≠ some 0) {n : Nat} : OneWay n rule ↔ rule = [] ∨ n ≤ minLength rule := by
  constructor
  · intro h
    by_contra hn
    rw [not_or, Nat.not_le] at hn
    obtain ⟨hne, hlt⟩ := hn
    obtain ⟨xs, h1, h2⟩ := completes_blank.mpr (show minLength rule ≤ n - 1 by omega)
    have hl : xs.length = n - 1 := by rw [h1.1]; simp
    have := h (false :: xs) (xs ++ [false]) (by simp; omega) (by simp; omega) (follows_cons_false h2) (follows_snoc_false h2)
    exact absurd (shift_false this true (follows_head_true h2 hne h0)) (by simp)
  · rintro (rfl | h) xs ys hx hy fx fy
    · obtain ⟨g, rfl⟩ := fx
      obtain ⟨g', rfl⟩ := fy
      simp at hx hy
      rw [hx, hy]
    · have h1 := follows_length fx
      have h2 := follows_length fy
      exact tight_unique fx fy (by omega) (by omega)

end Nonogram
