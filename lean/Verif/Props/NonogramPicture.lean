import Verif.Proofs.Nonogram.Overlap
import Verif.Props.Nonogram

/-!
Property theorems about pictures and their rules (C87) and about squares that a rule fixes by itself (C88).
-/
namespace Nonogram.Props
open Nonogram Nonogram.Spec

/-! ### C87: from a picture to its rules and back -/

theorem positive_runs (xs : List Bool) : Positive (runs xs) := by
  induction xs with
  | nil => intro a ha; cases ha
  | cons b xs ih =>
    cases b with
    | false => exact ih
    | true =>
      unfold runs
      split
      · rename_i n ns h
        intro a ha
        rcases List.mem_cons.mp ha with rfl | ha
        · omega
        · exact ih a (by rw [h]; exact List.mem_cons_of_mem _ ha)
      · intro a ha
        rcases List.mem_cons.mp ha with rfl | ha
        · omega
        · exact ih a ha

theorem runs_eq_nil (xs : List Bool) : runs xs = [] ↔ true ∉ xs := by
  have h := runs_sum xs
  constructor
  · intro hr
    rw [hr] at h
    exact List.count_eq_zero.mp h.symm
  · intro hn
    rw [List.count_eq_zero.mpr hn] at h
    cases hr : runs xs with
    | nil => rfl
    | cons a r =>
      have := positive_runs xs a (by rw [hr]; simp)
      rw [hr] at h; simp at h; omega

theorem follows_usual (xs : List Bool) : Follows (usual (runs xs)) xs := by
  have h := (follows_iff_runs (runs xs) (positive_runs xs) xs).mpr rfl
  unfold usual
  split
  · rename_i hr
    rw [hr] at h
    obtain ⟨g, rfl⟩ := h
    exact ⟨g, 0, by simp⟩
  · exact h

theorem framed_usual (xs : List Bool) : Framed (usual (runs xs)) ↔ true ∈ xs := by
  unfold usual
  split
  · rename_i hr
    rw [runs_eq_nil] at hr
    simp [Framed, hr]
  · rename_i hr
    rw [runs_eq_nil, not_not] at hr
    exact ⟨fun _ => hr, fun _ => framed_of_positive _ (positive_runs xs)⟩

theorem usual_ne_nil (r : List Nat) : usual r ≠ [] := by
  unfold usual
  split
  · simp
  · assumption

theorem getElem?_range_some {n i a : Nat} (h : (List.range n)[i]? = some a) : i < n ∧ i = a := by
  obtain ⟨h1, h2⟩ := List.getElem?_eq_some_iff.mp h
  simp at h1 h2
  exact ⟨h1, h2⟩

theorem solves_rules {w h : Nat} {pic : List Bool} (hl : pic.length = w * h) :
    Solves (colRules w h pic) (rowRules w h pic) pic := by
  refine ⟨by simp [colRules, rowRules, hl], fun x rule hx => ?_, fun y rule hy => ?_⟩
  · simp only [colRules, List.getElem?_map, Option.map_eq_some_iff] at hx
    obtain ⟨x', hx', rfl⟩ := hx
    obtain ⟨hlt, rfl⟩ := getElem?_range_some hx'
    simpa [colRules, rowRules] using follows_usual _
  · simp only [rowRules, List.getElem?_map, Option.map_eq_some_iff] at hy
    obtain ⟨y', hy', rfl⟩ := hy
    obtain ⟨hlt, rfl⟩ := getElem?_range_some hy'
    simpa [colRules] using follows_usual _

theorem framed_rules {w h : Nat} {pic : List Bool} :
    (∀ r ∈ colRules w h pic ++ rowRules w h pic, Framed r) ↔ NoEmptyLine w h pic := by
  simp only [List.mem_append, colRules, rowRules, List.mem_map, List.mem_range]
  unfold NoEmptyLine
  constructor
  · intro H
    constructor
    · intro x hx
      have := (framed_usual _).mp (H _ (.inl ⟨x, hx, rfl⟩))
      simpa [column] using this
    · intro y hy
      have := (framed_usual _).mp (H _ (.inr ⟨y, hy, rfl⟩))
      simpa [rowOf] using this
  · rintro ⟨h1, h2⟩ r (⟨x, hx, rfl⟩ | ⟨y, hy, rfl⟩)
    · rw [framed_usual]
      simpa [column] using h1 x hx
    · rw [framed_usual]
      simpa [rowOf] using h2 y hy

/-- C87. The rules of a picture, written down in the usual notation, are accepted by the parser. If no line of the
picture is empty, `solve_nonogram` returns a grid for them, which marks only squares that are filled in the picture and
satisfies the rules only if it is the picture; if a line of the picture is empty, it panics. -/
theorem C87_picture (oc : Bool) (w h : Nat) (pic : List Bool) (hl : pic.length = w * h) (hw : 1 ≤ w) (hh : 1 ≤ h)
    (hL : Limits (colRules w h pic) (rowRules w h pic)) :
    parseNonogramRules oc (writeRules (colRules w h pic)) h = .ok (.ok (colRules w h pic)) ∧
    parseNonogramRules oc (writeRules (rowRules w h pic)) w = .ok (.ok (rowRules w h pic)) ∧
    (NoEmptyLine w h pic → ∃ a, solveNonogram oc (colRules w h pic) (rowRules w h pic) = .ok (.ok a) ∧
      a.length = w * h ∧ (∀ p : Nat, a[p]? = some true → pic[p]? = some true) ∧
      (Solves (colRules w h pic) (rowRules w h pic) a ↔ a = pic)) ∧
    (¬ NoEmptyLine w h pic → solveNonogram oc (colRules w h pic) (rowRules w h pic) = .panic) := by
  have hcl : (colRules w h pic).length = w := by simp [colRules]
  have hrl : (rowRules w h pic).length = h := by simp [rowRules]
  have hs := solves_rules hl
  have hw' : w < 2 ^ 57 := hcl ▸ hL.width.1
  have hh' : h < 2 ^ 57 := hrl ▸ hL.height.1
  have hc : parseNonogramRules oc (writeRules (colRules w h pic)) h = .ok (.ok (colRules w h pic)) := by
    refine C37_round_trip oc _ h (fun h0 => by rw [h0] at hcl; simp at hcl; omega) (fun r hr => ?_) (by omega)
    obtain ⟨x, hx⟩ := List.getElem?_of_mem hr
    have := follows_length (hs.2.1 x r hx)
    rw [hcl, hrl] at this
    simp only [colRules, List.mem_map] at hr
    obtain ⟨_, _, rfl⟩ := hr
    exact ⟨usual_ne_nil _, by simpa [column] using this⟩
  have hr : parseNonogramRules oc (writeRules (rowRules w h pic)) w = .ok (.ok (rowRules w h pic)) := by
    refine C37_round_trip oc _ w (fun h0 => by rw [h0] at hrl; simp at hrl; omega) (fun r hr => ?_) (by omega)
    obtain ⟨x, hx⟩ := List.getElem?_of_mem hr
    have := follows_length (hs.2.2 x r hx)
    rw [hcl] at this
    simp only [rowRules, List.mem_map] at hr
    obtain ⟨_, _, rfl⟩ := hr
    exact ⟨usual_ne_nil _, by simpa [rowOf] using this⟩
  have hml : ∀ r ∈ colRules w h pic ++ rowRules w h pic, minLength r < 2 ^ 64 := by
    intro r hm
    rcases List.mem_append.mp hm with hm | hm
    · obtain ⟨x, hx⟩ := List.getElem?_of_mem hm
      have := follows_length (hs.2.1 x r hx)
      simp [column, hrl] at this; omega
    · obtain ⟨x, hx⟩ := List.getElem?_of_mem hm
      have := follows_length (hs.2.2 x r hx)
      simp [rowOf, hcl] at this; omega
  have hz := (sized_of_parsed oc (col := colRules w h pic) (row := rowRules w h pic) (by rw [hrl]; exact hc)
    (by rw [hcl]; exact hr) hL (.inr hml)).1
  refine ⟨hc, hr, fun hn => ?_, fun hn => ?_⟩
  · have hf : Fits (colRules w h pic) (rowRules w h pic) := ⟨hz, framed_rules.mpr hn⟩
    obtain ⟨r, h1, h2⟩ := C47_terminates oc _ _ hf
    cases r with
    | error e => exact absurd hs ((C44_no_solution oc _ _ hf e h1).2 pic)
    | ok a =>
      refine ⟨a, h1, by rw [h2 a rfl, hcl, hrl], fun p hp => C43_sound oc _ _ hf a h1 pic hs p hp, fun ha => ?_, fun ha => ha ▸ hs⟩
      obtain ⟨G, _, _, hu⟩ := C59_exact oc _ _ hf a h1
      exact (hu ha pic hs).symm
  · refine C67_solvable oc _ _ hz ?_ pic hs
    by_contra hno
    push Not at hno
    exact hn (framed_rules.mp hno)

/-- C87 on a picture with an empty line and on one without. -/
example : ¬ NoEmptyLine 2 2 [true, true, false, false] ∧ NoEmptyLine 2 2 [true, true, true, false] := by
  unfold NoEmptyLine; decide

/-- The letter L is recognised: the grid returned for its rules is the picture. -/
example (oc : Bool) : colRules 2 2 [true, true, true, false] = [[2], [1]] ∧
    solveNonogram oc (colRules 2 2 [true, true, true, false]) (rowRules 2 2 [true, true, true, false]) =
      .ok (.ok [true, true, true, false]) := ⟨by decide, solve_two_two oc⟩

/-- A diagonal is not: its rules are those of the other diagonal as well, and nothing is marked. -/
example (oc : Bool) : solveNonogram oc (colRules 2 2 [true, false, false, true]) (rowRules 2 2 [true, false, false, true]) =
    .ok (.ok [false, false, false, false]) := solve_ones oc

/-! ### C88: squares fixed by a rule alone -/

theorem stable_overlap {line : List Square} {rule : List Nat} {n k i : Nat} (hl : line.length = n)
    (hs : StableLine line rule) (ho : Overlap n rule k i) : line[i]? = some .Filled := by
  subst hl
  obtain ⟨⟨xs, hx⟩, hn⟩ := hs
  have ho' : Overlap xs.length rule k i := by rw [hx.1.1]; exact ho
  have hi : i < line.length := by rw [← hx.1.1]; exact (overlap_blk hx.2 ho').1
  have hq : line[i]? = some line[i] := List.getElem?_eq_getElem hi
  have hc := hx.1.2 i _ _ hq (overlap_true hx.2 ho')
  rw [hq]
  congr 1
  cases hv : line[i] with
  | Blank => rw [hv] at hq; exact absurd (overlap_settled ho) (hn i hq)
  | Filled => rfl
  | Blocked => rw [hv] at hc; simpa using hc.2 rfl

/-- C88. Squares at which a block overlaps with itself when all blocks of the line are pushed to the left and to the
right are marked in the returned grid, for rows and for columns. -/
theorem C88_overlap (oc : Bool) (col row : List (List Nat)) (hf : Fits col row) (g : List Bool)
    (h : solveNonogram oc col row = .ok (.ok g)) :
    (∀ (y : Nat) rule, row[y]? = some rule → ∀ k x, x < col.length → Overlap col.length rule k x → cell col.length g x y = true) ∧
    (∀ (x : Nat) rule, col[x]? = some rule → ∀ k y, y < row.length → Overlap row.length rule k y → cell col.length g x y = true) := by
  obtain ⟨G, hst, _, rfl⟩ := ((C60_least oc col row hf).2 g).mp h
  have hcell : ∀ p, G.getD p .Blank = .Filled → (G.map fun q => decide (q = .Filled)).getD p false = true := by
    intro p hp
    rw [List.getD_eq_getElem?_getD, List.getElem?_map]
    rw [List.getD_eq_getElem?_getD] at hp
    cases hg : G[p]? with
    | none => rw [hg] at hp; simp at hp
    | some q => rw [hg] at hp; simpa using hp
  constructor
  · intro y rule hr k x hx ho
    have := stable_overlap (by simp [rowSq]) (hst.2.2 y rule hr) ho
    simp only [rowSq, List.getElem?_map, List.getElem?_range hx, Option.map_some, Option.some.injEq] at this
    exact hcell _ this
  · intro x rule hr k y hy ho
    have := stable_overlap (by simp [columnSq]) (hst.2.1 x rule hr) ho
    simp only [columnSq, List.getElem?_map, List.getElem?_range hy, Option.map_some, Option.some.injEq] at this
    exact hcell _ this

example (oc : Bool) : cell 2 [true, true, true, false] 0 0 = true :=
  (C88_overlap oc _ _ fits_two_two _ (solve_two_two oc)).1 0 [2] rfl 0 0 (by decide) ⟨2, rfl, by decide, by decide⟩

/-- C88. If every square lies in a row or a column whose rule can be satisfied in at most one way, `solve_nonogram` is
correct: it returns the solution, which is then the only one, or reports `NoSolution` if there is none. -/
theorem C88_one_way (oc : Bool) (col row : List (List Nat)) (hf : Fits col row)
    (ho : ∀ (x y : Nat) cr rr, col[x]? = some cr → row[y]? = some rr → OneWay row.length cr ∨ OneWay col.length rr) :
    (∀ b, Solves col row b → solveNonogram oc col row = .ok (.ok b)) ∧
    ((∀ b, ¬ Solves col row b) → solveNonogram oc col row = .ok (.error .NoSolution)) := by
  rcases propagate_least oc hf with ⟨hno, _, hs⟩ | ⟨G, hst, hle, hr, hs⟩
  · exact ⟨fun b hb => absurd (stable_of_solves hb) (hno _), fun _ => hs⟩
  · have hB : Square.Blank ∉ G := by
      intro hm
      obtain ⟨p, hp⟩ := List.getElem?_of_mem hm
      have hlt := (List.getElem?_eq_some_iff.mp hp).1
      rw [hst.1] at hlt
      have hw : 0 < col.length := Nat.pos_of_ne_zero fun h0 => by rw [h0] at hlt; simp at hlt
      have hx : p % col.length < col.length := Nat.mod_lt _ hw
      have hy : p / col.length < row.length := Nat.div_lt_of_lt_mul hlt
      have he : col.length * (p / col.length) + p % col.length = p := Nat.div_add_mod _ _
      have hc := List.getElem?_eq_getElem hx
      have hr := List.getElem?_eq_getElem hy
      have hpd : G.getD p .Blank = .Blank := by rw [List.getD_eq_getElem?_getD, hp]; rfl
      rcases ho _ _ _ _ hc hr with h | h
      · refine (hst.2.1 _ _ hc).2 (p / col.length) ?_ (oneWay_settled (by simpa [columnSq] using h) _)
        simp only [columnSq, List.getElem?_map, List.getElem?_range hy, Option.map_some]
        rw [he, hpd]
      · refine (hst.2.2 _ _ hr).2 (p % col.length) ?_ (oneWay_settled (by simpa [rowSq] using h) _)
        simp only [rowSq, List.getElem?_map, List.getElem?_range hx, Option.map_some]
        rw [he, hpd]
    have hsol := (solves_iff_known hf hst.1 ((stable_iff hf hst.1).mp hst)).mpr hB
    refine ⟨fun b hb => ?_, fun hn => absurd hsol (hn _)⟩
    rw [agrees_full (agrees_of_solves hle hb) hB]
    exact hs

/-- C88. Which rules these are: the empty rule, and the rules whose blocks and gaps take up the whole line. -/
theorem C88_one_way_iff (rule : List Nat) (hr : Framed rule) (n : Nat) : OneWay n rule ↔ rule = [] ∨ n ≤ minLength rule :=
  oneWay_iff hr.1

/-- C88. In particular puzzles of one row, or of one column, are solved correctly. -/
theorem C88_single (oc : Bool) (col row : List (List Nat)) (hf : Fits col row) (h1 : col.length = 1 ∨ row.length = 1) :
    (∀ b, Solves col row b → solveNonogram oc col row = .ok (.ok b)) ∧
    ((∀ b, ¬ Solves col row b) → solveNonogram oc col row = .ok (.error .NoSolution)) := by
  have key : ∀ rule, Framed rule → OneWay 1 rule := by
    intro rule hr
    rw [C88_one_way_iff rule hr]
    cases rule with
    | nil => exact .inl rfl
    | cons a r =>
      have : a ≠ 0 := by simpa using hr.1
      right; simp [minLength]; omega
  refine C88_one_way oc col row hf fun x y cr rr hx hy => ?_
  have hc := hf.framed cr (List.mem_append_left _ (List.mem_of_getElem? hx))
  have hr := hf.framed rr (List.mem_append_right _ (List.mem_of_getElem? hy))
  rcases h1 with h1 | h1 <;> rw [h1]
  · exact .inr (key rr hr)
  · exact .inl (key cr hc)

/-- Every square of the 5 x 2 puzzle with rows `2 2` and `5` lies in a full row, so the solver answers it. -/
example (oc : Bool) : solveNonogram oc [[2], [2], [1], [2], [2]] [[2, 2], [5]] =
    .ok (.ok [true, true, false, true, true, true, true, true, true, true]) := by
  refine (C88_one_way oc [[2], [2], [1], [2], [2]] [[2, 2], [5]]
    ⟨⟨by unfold Small; decide, by decide, by decide, by decide, by decide⟩, by decide⟩ ?_).1 _ ?_
  · intro x y cr rr _ hy
    right
    match y with
    | 0 => obtain rfl := Option.some.inj hy; rw [C88_one_way_iff _ (by decide)]; decide
    | 1 => obtain rfl := Option.some.inj hy; rw [C88_one_way_iff _ (by decide)]; decide
    | y + 2 => simp at hy
  · have key : ∀ (rule : List Nat) xs, Positive rule → runs xs = rule → Follows rule xs :=
      fun rule xs hp h => (follows_iff_runs rule hp xs).mpr h
    refine ⟨rfl, fun x rule hx => ?_, fun y rule hy => ?_⟩
    · match x with
      | 0 | 1 | 2 | 3 | 4 => obtain rfl := Option.some.inj hx; exact key _ _ (by unfold Positive; decide) (by decide)
      | x + 5 => simp at hx
    · match y with
      | 0 | 1 => obtain rfl := Option.some.inj hy; exact key _ _ (by unfold Positive; decide) (by decide)
      | y + 2 => simp at hy

/-- In a row of ten squares with the rule `3 4` the third square and the seventh are marked, whatever the columns say. -/
example : Overlap 10 [3, 4] 0 2 ∧ Overlap 10 [3, 4] 1 6 := ⟨⟨3, rfl, by decide, by decide⟩, 4, rfl, by decide, by decide⟩

end Nonogram.Props
