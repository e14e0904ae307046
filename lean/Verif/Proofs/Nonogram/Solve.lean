import Verif.Proofs.Nonogram.Propagate

/-! Final grids of the propagation, block starts. -/
namespace Nonogram
open Spec

/-! ### Counting filled squares -/

theorem runs_sum (xs : List Bool) : (runs xs).sum = xs.count true := by
  induction h : xs.length using Nat.strong_induction_on generalizing xs with
  | _ len ih =>
    obtain ⟨n, rfl | ⟨ys, rfl⟩⟩ := split_first xs
    · rw [runs_replicate_true]
      by_cases hn : n = 0
      · subst hn; rfl
      · rw [if_neg hn]; simp
    · simp only [List.length_append, List.length_replicate, List.length_cons] at h
      rw [runs_append_false, List.sum_append, ih ys.length (by omega) ys rfl, runs_replicate_true, List.count_append,
        List.count_replicate]
      by_cases hn : n = 0
      · subst hn; simp
      · rw [if_neg hn]; simp

theorem eq_of_count {xs ys : List Bool} (hl : xs.length = ys.length)
    (h : ∀ (i : Nat), xs[i]? = some true → ys[i]? = some true) :
    xs.count true ≤ ys.count true ∧ (xs.count true = ys.count true → xs = ys) := by
  induction xs generalizing ys with
  | nil =>
    have : ys = [] := List.length_eq_zero_iff.mp hl.symm
    subst this; simp
  | cons a xs ih =>
    cases ys with
    | nil => simp at hl
    | cons b ys =>
      obtain ⟨h1, h2⟩ := ih (ys := ys) (by simpa using hl) (fun i hi => by simpa using h (i + 1) (by simpa using hi))
      have h0 : a = true → b = true := fun ha => by simpa using h 0 (by simpa using ha)
      rw [List.count_cons, List.count_cons]
      cases a with
      | true =>
        rw [h0 rfl]
        refine ⟨by simpa using h1, fun he => ?_⟩
        rw [h2 (by simpa using he)]
      | false =>
        cases b with
        | true => simp; omega
        | false =>
          refine ⟨by simpa using h1, fun he => ?_⟩
          rw [h2 (by simpa using he)]

/-- The result that `solve_nonogram` reads off a grid. -/
def filled (g : List Square) : List Bool := g.map fun q => decide (q = .Filled)

@[simp] theorem filled_length (g : List Square) : (filled g).length = g.length := by simp [filled]

theorem filled_getD (g : List Square) (p : Nat) : (filled g).getD p false = decide (g.getD p .Blank = .Filled) := by
  simp only [filled, List.getD_eq_getElem?_getD, List.getElem?_map]
  cases g[p]? <;> simp

theorem vals_filled (j : Job) (g : List Square) : j.vals (filled g) = (j.line g).map fun q => decide (q = .Filled) := by
  simp only [Job.vals, Job.line, List.map_map]
  apply List.map_congr_left
  intro p _
  exact filled_getD g p

theorem agrees_filled {g : List Square} {b : List Bool} (h : Agrees g b) {p : Nat} (hp : (filled g)[p]? = some true) :
    b[p]? = some true := by
  simp only [filled, List.getElem?_map, Option.map_eq_some_iff, decide_eq_true_eq] at hp
  obtain ⟨q, hq, rfl⟩ := hp
  have hpb : p < b.length := by rw [h.1]; exact (List.getElem?_eq_some_iff.mp hq).1
  have hb : b[p]? = some b[p] := List.getElem?_eq_getElem hpb
  rw [hb, (h.2 p _ _ hq hb).1 rfl]

/-- With no unknown square, a completion is the grid itself. -/
theorem agrees_full {g : List Square} {b : List Bool} (h : Agrees g b) (hn : Square.Blank ∉ g) : b = filled g := by
  apply List.ext_getElem?
  intro p
  by_cases hp : p < g.length
  · have hpb : p < b.length := by rw [h.1]; exact hp
    have hb : b[p]? = some b[p] := List.getElem?_eq_getElem hpb
    have hg : g[p]? = some g[p] := List.getElem?_eq_getElem hp
    have hc := h.2 p _ _ hg hb
    rw [hb]
    simp only [filled, List.getElem?_map, hg, Option.map_some]
    have hm : g[p] ∈ g := List.getElem_mem hp
    unfold Compat at hc
    revert hc hm
    cases g[p] with
    | Blank => intro _ hm; exact absurd hm hn
    | Filled => intro hc _; rw [hc.1 rfl]; rfl
    | Blocked => intro hc _; rw [hc.2 rfl]; rfl
  · rw [List.getElem?_eq_none (by rw [h.1]; omega), List.getElem?_eq_none (by simpa using hp)]

/-- On a grid no step changes: the result is a solution exactly if every square is known. -/
theorem solves_iff_known {col row : List (List Nat)} (hf : Fits col row) {g : List Square}
    (hg : g.length = col.length * row.length) (hfix : ∀ j ∈ allJobs col row, Ded j g g) :
    Solves col row (filled g) ↔ Square.Blank ∉ g := by
  have hgood := allJobs_good hf
  rw [solves_iff]
  constructor
  · rintro ⟨_, hs⟩ hblank
    obtain ⟨p, hp⟩ := List.getElem?_of_mem hblank
    have hpl : p < col.length * row.length := by rw [← hg]; exact (List.getElem?_eq_some_iff.mp hp).1
    have hw : 0 < col.length := Nat.pos_of_ne_zero fun h => by rw [h] at hpl; simp at hpl
    have hx : p % col.length < col.length := Nat.mod_lt _ hw
    have hy : p / col.length < row.length := Nat.div_lt_of_lt_mul hpl
    obtain ⟨rule, hr⟩ : ∃ rule, col[p % col.length]? = some rule := ⟨_, List.getElem?_eq_getElem hx⟩
    have hj : (⟨rule, colPs col.length row.length (p % col.length)⟩ : Job) ∈ allJobs col row := by
      simp only [allJobs, List.mem_append, mem_jobs]
      exact .inl ⟨_, hr, rfl⟩
    generalize hjd : (⟨rule, colPs col.length row.length (p % col.length)⟩ : Job) = j at hj
    have hjp : j.ps[p / col.length]? = some p := by
      rw [← hjd]
      simp only [colPs, List.getElem?_map, List.getElem?_range hy, Option.map_some]
      rw [Nat.div_add_mod]
    have hline : (j.line g)[p / col.length]? = some .Blank := by
      rw [Job.line_get hjp, List.getD_eq_getElem?_getD, hp]; rfl
    have hX : ∀ xs, Completes (j.line g) j.rule xs → xs = j.vals (filled g) := by
      intro xs hx
      have hl : (j.vals (filled g)).length = xs.length := by rw [hx.1.1]; simp [Job.vals, Job.line]
      have hcount : (j.vals (filled g)).count true = xs.count true := by
        rw [← runs_sum, ← runs_sum, (hs j hj).runs, hx.2.runs]
      refine ((eq_of_count hl fun i hi => ?_).2 hcount).symm
      rw [vals_filled] at hi
      exact agrees_filled hx.1 hi
    obtain ⟨L, R, he, hgg⟩ := hfix j hj
    have hd := Ded.line (hgood j hj) hg hgg
    have hi : p / col.length < (j.line g).length := (List.getElem?_eq_some_iff.mp hline).1
    have h1 : (deduce L R (j.line g))[p / col.length]? = some .Blank := by rw [← hd]; exact hline
    rw [deduce_get hi, deduceAt_blank hline, hX L he.left, hX R he.right, if_pos rfl] at h1
    split at h1 <;> simp at h1
  · intro hn
    refine ⟨by simpa using hg, fun j hj => ?_⟩
    obtain ⟨L, R, he, _⟩ := hfix j hj
    have hnl : Square.Blank ∉ j.line g := by
      intro hm
      simp only [Job.line, List.mem_map] at hm
      obtain ⟨p, hp, hpb⟩ := hm
      have hpl : p < g.length := by rw [hg]; exact (hgood j hj).bound p hp
      rw [List.getD_eq_getElem?_getD, List.getElem?_eq_getElem hpl] at hpb
      simp only [Option.getD_some] at hpb
      exact hn (hpb ▸ List.getElem_mem hpl)
    rw [vals_filled]
    have := agrees_full he.left.1 hnl
    rw [filled] at this
    rw [← this]
    exact he.left.2

/-! ### Block starts -/

/-- Number of block starts. -/
def rises : Bool → List Bool → Nat
  | _, [] => 0
  | p, b :: xs => (if b = true ∧ p = false then 1 else 0) + rises b xs

theorem rises_changes (p : Bool) (xs : List Bool) :
    2 * rises p xs + (if p = true then 1 else 0) = changes p xs + if lastB p xs = true then 1 else 0 := by
  induction xs generalizing p with
  | nil => cases p <;> rfl
  | cons b xs ih =>
    have := ih b
    simp only [rises, changes, lastB_cons]
    revert this
    cases p <;> cases b <;> simp <;> omega

theorem startsFrom_ge (p : Bool) (pos : Nat) (xs : List Bool) : ∀ s ∈ startsFrom p pos xs, pos ≤ s := by
  induction xs generalizing p pos with
  | nil => intro s hs; cases hs
  | cons b xs ih =>
    intro s hs
    rw [startsFrom] at hs
    split at hs
    · rcases List.mem_cons.mp hs with rfl | hs
      · exact le_refl _
      · have := ih _ _ s hs; omega
    · have := ih _ _ s hs; omega

theorem startsFrom_lt (p : Bool) (pos : Nat) (xs : List Bool) : ∀ s ∈ startsFrom p pos xs, s < pos + xs.length := by
  induction xs generalizing p pos with
  | nil => intro s hs; cases hs
  | cons b xs ih =>
    intro s hs
    rw [startsFrom] at hs
    rw [List.length_cons]
    split at hs
    · rcases List.mem_cons.mp hs with rfl | hs
      · omega
      · have := ih _ _ s hs; omega
    · have := ih _ _ s hs; omega

theorem startsFrom_sorted (p : Bool) (pos : Nat) (xs : List Bool) : (startsFrom p pos xs).Pairwise (· < ·) := by
  induction xs generalizing p pos with
  | nil => exact List.Pairwise.nil
  | cons b xs ih =>
    rw [startsFrom]
    split
    · exact List.Pairwise.cons (fun s hs => by have := startsFrom_ge _ _ _ s hs; omega) (ih _ _)
    · exact ih _ _

theorem startsFrom_count (p : Bool) (pos : Nat) (xs : List Bool) (i : Nat) :
    (startsFrom p pos xs).countP (· ≤ pos + i) = rises p (xs.take (i + 1)) := by
  induction xs generalizing p pos i with
  | nil => rfl
  | cons b xs ih =>
    have hrest : (startsFrom b (pos + 1) xs).countP (fun s => decide (s ≤ pos + i)) = rises b (xs.take i) := by
      cases i with
      | zero =>
        rw [List.take_zero, rises, List.countP_eq_zero]
        intro s hs
        have := startsFrom_ge _ _ _ s hs
        simp; omega
      | succ i =>
        have := ih b (pos + 1) i
        rw [show pos + 1 + i = pos + (i + 1) by omega] at this
        exact this
    rw [startsFrom, List.take_succ_cons, rises]
    by_cases h : b = true ∧ p = false
    · rw [if_pos h, if_pos h, List.countP_cons_of_pos (by simp), hrest]; omega
    · rw [if_neg h, if_neg h, hrest]; omega

theorem startsFrom_length (p : Bool) (pos : Nat) (xs : List Bool) : (startsFrom p pos xs).length = rises p xs := by
  induction xs generalizing p pos with
  | nil => rfl
  | cons b xs ih =>
    rw [startsFrom, rises]
    split
    · rw [List.length_cons, ih]; omega
    · rw [ih]; omega

theorem starts_length (xs : List Bool) : (starts xs).length = (runs xs).length := by
  have h1 := changes_total xs
  have h2 := rises_changes false xs
  have h3 := startsFrom_length false 0 xs
  rw [changes_snoc] at h1
  unfold starts
  rw [h3]
  generalize lastB false xs = l at *
  cases l <;> simp at h1 h2 <;> omega

/-- The number of blocks that start at or before a position. -/
theorem starts_count (xs : List Bool) (i : Nat) : (starts xs).countP (· ≤ i) = (blk xs i + 1) / 2 := by
  have h1 := startsFrom_count false 0 xs i
  have h2 := rises_changes false (xs.take (i + 1))
  have h3 := changes_parity false (xs.take (i + 1))
  rw [Nat.zero_add] at h1
  unfold starts blk
  rw [h1]
  generalize lastB false (xs.take (i + 1)) = l at *
  cases l <;> simp at h2 h3 <;> omega

theorem sorted_le_of_count {A : List Nat} (hA : A.Pairwise (· < ·)) {j v : Nat} (h : j < A.countP (· ≤ v)) :
    ∃ a, A[j]? = some a ∧ a ≤ v := by
  induction A generalizing j with
  | nil => simp at h
  | cons a A ih =>
    rw [List.pairwise_cons] at hA
    by_cases hav : a ≤ v
    · cases j with
      | zero => exact ⟨a, rfl, hav⟩
      | succ j =>
        rw [List.countP_cons_of_pos (by simpa using hav)] at h
        exact ih hA.2 (by omega)
    · have : (a :: A).countP (· ≤ v) = 0 := by
        rw [List.countP_eq_zero]
        intro s hs
        rcases List.mem_cons.mp hs with rfl | hs
        · simpa using hav
        · have := hA.1 s hs
          simp; omega
      omega

theorem sorted_count {A : List Nat} (hA : A.Pairwise (· < ·)) {j v : Nat} (h : A[j]? = some v) :
    j < A.countP (· ≤ v) := by
  induction A generalizing j with
  | nil => simp at h
  | cons a A ih =>
    rw [List.pairwise_cons] at hA
    cases j with
    | zero =>
      simp only [List.getElem?_cons_zero, Option.some.injEq] at h
      subst h
      rw [List.countP_cons_of_pos (by simp)]; omega
    | succ j =>
      rw [List.getElem?_cons_succ] at h
      have h1 := hA.1 v (List.mem_of_getElem? h)
      have h2 := ih hA.2 h
      rw [List.countP_cons_of_pos (by simp; omega)]; omega

/-- Larger block numbers everywhere: every block starts at or before its counterpart. -/
theorem starts_le {L X : List Bool} (hr : runs L = runs X)
    (h : ∀ i < X.length, blk X i ≤ blk L i) : List.Forall₂ (· ≤ ·) (starts L) (starts X) := by
  rw [List.forall₂_iff_get]
  have hlen : (starts L).length = (starts X).length := by rw [starts_length, starts_length, hr]
  refine ⟨hlen, fun j h1 h2 => ?_⟩
  simp only [List.get_eq_getElem]
  have hx : (starts X)[j]? = some (starts X)[j] := List.getElem?_eq_getElem h2
  have hb : (starts X)[j] < X.length := by
    have := startsFrom_lt false 0 X _ (List.mem_of_getElem? hx)
    simpa using this
  have hc := sorted_count (startsFrom_sorted false 0 X) hx
  have hc' : j < (starts L).countP (· ≤ (starts X)[j]) := by
    have h3 := h _ hb
    rw [starts_count]
    change j < (starts X).countP _ at hc
    rw [starts_count] at hc
    omega
  obtain ⟨a, ha, hle⟩ := sorted_le_of_count (startsFrom_sorted false 0 L) hc'
  have ha' : (starts L)[j]? = some a := ha
  rw [List.getElem?_eq_getElem h1] at ha'
  rw [Option.some.inj ha']
  exact hle

/-- Equal block numbers: same value, same number of blocks so far. -/
theorem blk_eq_iff {xs ys : List Bool} {i : Nat} (hx : i < xs.length) (hy : i < ys.length) :
    blk xs i = blk ys i ↔ xs[i]? = ys[i]? ∧ (starts xs).countP (· ≤ i) = (starts ys).countP (· ≤ i) := by
  have hx' : xs[i]? = some xs[i] := List.getElem?_eq_getElem hx
  have hy' : ys[i]? = some ys[i] := List.getElem?_eq_getElem hy
  rw [starts_count, starts_count]
  constructor
  · intro h
    rw [hx', hy', blk_determines hx' hy' h, h]
    exact ⟨rfl, rfl⟩
  · rintro ⟨h1, h2⟩
    rw [hx', hy'] at h1
    have e1 := blk_parity hx'
    have e2 := blk_parity hy'
    rw [Option.some.inj h1, e2] at e1
    have : (blk ys i % 2 = 1) ↔ (blk xs i % 2 = 1) := by simpa using e1
    omega

end Nonogram
