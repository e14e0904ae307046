import Verif.Spec.NonogramClosed
import Verif.Props.Nonogram

namespace Nonogram
open Nonogram.Spec

theorem closedLine_stable {line : List Square} {rule : List Nat} (h : ClosedLine line rule) : StableLine line rule :=
  ⟨h.1, fun i hi hs => by
    obtain ⟨xs, ys, hx, hy, hne⟩ := h.2 i hi
    exact hne (hs xs ys hx hy).1⟩

theorem closed_stable {col row : List (List Nat)} {g : List Square} (h : Closed col row g) : Stable col row g :=
  ⟨h.1, fun x r hx => closedLine_stable (h.2.1 x r hx), fun y r hy => closedLine_stable (h.2.2 y r hy)⟩

/-- A line without unknown squares is closed if it is stable. -/
theorem stableLine_closed {line : List Square} {rule : List Nat} (h : StableLine line rule) (hb : Square.Blank ∉ line) :
    ClosedLine line rule :=
  ⟨h.1, fun _ hi => absurd (List.mem_of_getElem? hi) hb⟩

theorem closed_of_solves {col row : List (List Nat)} {b : List Bool} (h : Solves col row b) :
    Closed col row (squares b) := by
  have hs := stable_of_solves h
  have hmem : ∀ p < b.length, (squares b).getD p .Blank ≠ .Blank := by
    intro p hp
    simp only [squares, List.getD_eq_getElem?_getD, List.getElem?_map, List.getElem?_eq_getElem hp, Option.map_some,
      Option.getD_some]
    split <;> simp
  refine ⟨hs.1, fun x r hx => stableLine_closed (hs.2.1 x r hx) ?_, fun y r hy => stableLine_closed (hs.2.2 y r hy) ?_⟩
  · simp only [columnSq, List.mem_map, List.mem_range, not_exists, not_and]
    intro y hy
    exact hmem _ (by rw [h.1]; exact cell_lt (List.getElem?_eq_some_iff.mp hx).1 hy)
  · simp only [rowSq, List.mem_map, List.mem_range, not_exists, not_and]
    intro x hx
    exact hmem _ (by rw [h.1]; exact cell_lt hx (List.getElem?_eq_some_iff.mp hy).1)

/-- What a closed line knows: a square that is `b` in every line that satisfies the rule and agrees with some known squares. -/
theorem closedLine_forced {line : List Square} {rule : List Nat} (h : ClosedLine line rule) (hp : Positive rule)
    (i : Nat) (b : Bool) (hi : i < line.length)
    (hf : ∀ xs, Agrees line xs → runs xs = rule → xs[i]? = some b) :
    line[i]? = some (if b = true then .Filled else .Blocked) := by
  have hf' : ∀ xs, Completes line rule xs → xs[i]? = some b := fun xs hx =>
    hf xs hx.1 ((Props.follows_iff_runs _ hp _).mp hx.2)
  obtain ⟨xs, hx⟩ := h.1
  have hb := hf' xs hx
  rw [List.getElem?_eq_getElem hi]
  have hc := hx.1.2 i _ b (List.getElem?_eq_getElem hi) hb
  cases hq : line[i] with
  | Blank =>
    obtain ⟨xs, ys, hx, hy, hne⟩ := h.2 i (by rw [List.getElem?_eq_getElem hi, hq])
    exact absurd ((hf' xs hx).trans (hf' ys hy).symm) hne
  | Filled => rw [hc.1 hq]; rfl
  | Blocked => rw [hc.2 hq]; rfl

/-- The test for `Agrees`. -/
def agreesB : List Square → List Bool → Bool
  | [], [] => true
  | q :: l, b :: xs => (q != .Filled || b) && (q != .Blocked || !b) && agreesB l xs
  | _, _ => false

theorem agreesB_iff {l : List Square} {xs : List Bool} (h : agreesB l xs = true) : Agrees l xs := by
  induction l generalizing xs with
  | nil =>
    cases xs with
    | nil => exact agrees_nil.mpr rfl
    | cons => cases h
  | cons q l ih =>
    cases xs with
    | nil => cases h
    | cons b xs =>
      simp only [agreesB, Bool.and_eq_true] at h
      refine agrees_cons.mpr ⟨?_, ih h.2⟩
      obtain ⟨⟨h1, h2⟩, _⟩ := h
      constructor
      · rintro rfl; simpa using h1
      · rintro rfl; simpa using h2

/-- The test for stable lines, with a list of completions. -/
def stableB (line : List Square) (rule : List Nat) (cs : List (List Bool)) : Bool :=
  !cs.isEmpty && cs.all (fun xs => agreesB line xs && runs xs == rule) &&
  (List.range line.length).all fun i => line[i]? != some .Blank ||
    cs.any fun xs => cs.any fun ys => xs[i]? != ys[i]? || blocksUpTo xs i != blocksUpTo ys i

theorem stableB_iff {line : List Square} {rule : List Nat} (hp : Positive rule) (cs : List (List Bool))
    (h : stableB line rule cs = true) : StableLine line rule := by
  simp only [stableB, Bool.and_eq_true, List.all_eq_true, beq_iff_eq] at h
  obtain ⟨⟨h1, h2⟩, h3⟩ := h
  have hc : ∀ xs ∈ cs, Completes line rule xs := fun xs hx =>
    ⟨agreesB_iff (h2 xs hx).1, (Props.follows_iff_runs _ hp _).mpr (h2 xs hx).2⟩
  refine ⟨?_, fun i hi hs => ?_⟩
  · cases cs with
    | nil => cases h1
    | cons c _ => exact ⟨c, hc c (by simp)⟩
  · have := h3 i (List.mem_range.2 (List.getElem?_eq_some_iff.mp hi).1)
    rw [hi] at this
    simp only [bne_self_eq_false, Bool.false_or, List.any_eq_true, Bool.or_eq_true, bne_iff_ne] at this
    obtain ⟨xs, hx, ys, hy, hne⟩ := this
    have := hs xs ys (hc xs hx) (hc ys hy)
    rcases hne with h | h
    · exact h this.1
    · exact h this.2

/-- All lines of length `n`. -/
def allLines : Nat → List (List Bool)
  | 0 => [[]]
  | n + 1 => (allLines n).flatMap fun xs => [false :: xs, true :: xs]

theorem stableB_all {line : List Square} {rule : List Nat} (hp : Positive rule)
    (h : stableB line rule ((allLines line.length).filter fun xs => agreesB line xs && runs xs == rule) = true) :
    StableLine line rule := stableB_iff hp _ h

end Nonogram
