import Verif.Proofs.Nonogram.Dims

/-! Puzzles with exactly one solution: a computable propagation, and blank lines at the border. -/
namespace Nonogram
open Spec

theorem mem_allLines (xs : List Bool) : xs ∈ allLines xs.length := by
  induction xs with
  | nil => simp [allLines]
  | cons b xs ih =>
    rw [List.length_cons, allLines, List.mem_flatMap]
    exact ⟨xs, ih, by cases b <;> simp⟩

theorem agreesB_of {l : List Square} {xs : List Bool} (h : Agrees l xs) : agreesB l xs = true := by
  induction l generalizing xs with
  | nil => rw [agrees_nil.mp h]; rfl
  | cons q l ih =>
    match xs with
    | [] => cases h.1
    | b :: xs =>
      obtain ⟨h1, h2⟩ := agrees_cons.mp h
      unfold Compat at h1
      rw [agreesB, ih h2]
      cases q <;> cases b <;> simp_all

/-- All completions of a line. -/
def completionsB (line : List Square) (rule : List Nat) : List (List Bool) :=
  (allLines line.length).filter fun xs => agreesB line xs && runs xs == rule

theorem mem_completionsB {line : List Square} {rule : List Nat} (hp : Positive rule) {xs : List Bool} :
    xs ∈ completionsB line rule ↔ Completes line rule xs := by
  unfold completionsB
  rw [List.mem_filter, Bool.and_eq_true, beq_iff_eq]
  constructor
  · rintro ⟨_, h1, h2⟩
    exact ⟨agreesB_iff h1, (Props.follows_iff_runs _ hp _).mpr h2⟩
  · rintro ⟨h1, h2⟩
    exact ⟨by rw [← h1.1]; exact mem_allLines xs, agreesB_of h1, (Props.follows_iff_runs _ hp _).mp h2⟩

/-- The line with the settled squares filled in. -/
def fillLine (line : List Square) (rule : List Nat) : List Square :=
  match completionsB line rule with
  | [] => line
  | c :: cs => (List.range line.length).map fun i =>
      if cs.all fun d => d[i]? == c[i]? && blocksUpTo d i == blocksUpTo c i then
        (if c.getD i false then .Filled else .Blocked)
      else line.getD i .Blank

theorem agrees_extends {l l' : List Square} {xs : List Bool} (he : Extends l l') (h : Agrees l' xs) : Agrees l xs := by
  refine ⟨h.1.trans he.1, fun i q b hq hb => ?_⟩
  by_cases hn : q = .Blank
  · subst hn; exact ⟨fun h => (by cases h), fun h => (by cases h)⟩
  · exact h.2 i q b (he.2 i q hq hn) hb

theorem fill_sound {line line' : List Square} {rule : List Nat} (hp : Positive rule) (he : Extends line line')
    (h : StableLine line' rule) : Extends (fillLine line rule) line' := by
  have hall : ∀ xs, Completes line' rule xs → Completes line rule xs := fun xs hx => ⟨agrees_extends he hx.1, hx.2⟩
  unfold fillLine
  match hc : completionsB line rule with
  | [] => exact he
  | c :: cs =>
    refine ⟨by simp [he.1], fun i q hq hn => ?_⟩
    have hi : i < line.length := by
      have := (List.getElem?_eq_some_iff.mp hq).1
      simpa using this
    have hi' : i < line'.length := by rw [he.1]; exact hi
    simp only [List.getElem?_map, List.getElem?_range hi, Option.map_some, Option.some.injEq] at hq
    split at hq
    · rename_i hset
      rw [List.all_eq_true] at hset
      have key : ∀ d, Completes line rule d → d[i]? = c[i]? ∧ blocksUpTo d i = blocksUpTo c i := by
        intro d hd
        have := (mem_completionsB hp).mpr hd
        rw [hc] at this
        rcases List.mem_cons.mp this with rfl | hm
        · exact ⟨rfl, rfl⟩
        · have := hset d hm
          rw [Bool.and_eq_true, beq_iff_eq, beq_iff_eq] at this
          exact this
      obtain ⟨xs, hx⟩ := h.1
      have hxi : i < xs.length := by rw [hx.1.1]; exact hi'
      have hxc := (key xs (hall xs hx)).1
      rw [List.getElem?_eq_getElem hxi] at hxc
      have hcomp := hx.1.2 i _ _ (List.getElem?_eq_getElem hi') (List.getElem?_eq_getElem hxi)
      rw [List.getElem?_eq_getElem hi']
      rw [List.getD_eq_getElem?_getD, ← hxc, Option.getD_some] at hq
      have hne : line'[i] ≠ .Blank := fun hb => by
        refine h.2 i (by rw [List.getElem?_eq_getElem hi', hb]) fun xs ys hx hy => ?_
        have h1 := key xs (hall xs hx)
        have h2 := key ys (hall ys hy)
        exact ⟨h1.1.trans h2.1.symm, h1.2.trans h2.2.symm⟩
      unfold Compat at hcomp
      rw [← hq]
      cases hv : line'[i] <;> cases hw : xs[i] <;> simp_all
    · refine he.2 i q ?_ hn
      rw [← hq, List.getD_eq_getElem?_getD, List.getElem?_eq_getElem hi]
      rfl

/-- All rows filled in. -/
def rowsStep (w : Nat) : List (List Nat) → List Square → List Square
  | [], _ => []
  | r :: rs, G => fillLine (G.take w) r ++ rowsStep w rs (G.drop w)

theorem extends_append {a a' b b' : List Square} (h1 : Extends a a') (h2 : Extends b b') : Extends (a ++ b) (a' ++ b') := by
  refine ⟨by rw [List.length_append, List.length_append, h1.1, h2.1], fun p q hp hq => ?_⟩
  by_cases hlt : p < a.length
  · rw [List.getElem?_append_left hlt] at hp
    rw [List.getElem?_append_left (by rw [h1.1]; exact hlt)]
    exact h1.2 p q hp hq
  · rw [List.getElem?_append_right (by omega)] at hp
    rw [List.getElem?_append_right (by rw [h1.1]; omega), h1.1]
    exact h2.2 _ q hp hq

theorem extends_take {a b : List Square} (h : Extends a b) (n : Nat) : Extends (a.take n) (b.take n) := by
  refine ⟨by rw [List.length_take, List.length_take, h.1], fun p q hp hq => ?_⟩
  rw [List.getElem?_take] at hp ⊢
  split at hp
  · rename_i hlt
    rw [if_pos hlt]; exact h.2 p q hp hq
  · cases hp

theorem extends_drop {a b : List Square} (h : Extends a b) (n : Nat) : Extends (a.drop n) (b.drop n) := by
  refine ⟨by rw [List.length_drop, List.length_drop, h.1], fun p q hp hq => ?_⟩
  rw [List.getElem?_drop] at hp ⊢
  exact h.2 _ q hp hq

theorem rowSq_drop {w y : Nat} {F : List Square} : rowSq w F (y + 1) = rowSq w (F.drop w) y := by
  unfold rowSq
  apply List.map_congr_left
  intro x _
  rw [List.getD_eq_getElem?_getD, List.getD_eq_getElem?_getD, List.getElem?_drop, Nat.mul_succ,
    show w + (w * y + x) = w * y + w + x by omega]

theorem rows_sound {w : Nat} {rules : List (List Nat)} {G F : List Square} (hp : ∀ r ∈ rules, Positive r)
    (hl : F.length = w * rules.length) (he : Extends G F)
    (h : ∀ (y : Nat) r, rules[y]? = some r → StableLine (rowSq w F y) r) : Extends (rowsStep w rules G) F := by
  induction rules generalizing G F with
  | nil =>
    rw [List.length_nil, Nat.mul_zero] at hl
    rw [List.length_eq_zero_iff.mp hl]
    exact ⟨rfl, fun p q hq => by cases hq⟩
  | cons r rs ih =>
    rw [List.length_cons, Nat.mul_succ] at hl
    have h0 := h 0 r rfl
    rw [rowSq_zero (by omega)] at h0
    have h1 := fill_sound (hp r (by simp)) (extends_take he w) h0
    have h2 := ih (G := G.drop w) (F := F.drop w) (fun r hr => hp r (List.mem_cons_of_mem _ hr))
      (by rw [List.length_drop]; omega) (extends_drop he w) fun y r hy => by
        have := h (y + 1) r hy
        rwa [rowSq_drop] at this
    have := extends_append h1 h2
    rwa [List.take_append_drop] at this

/-- Rows, then columns. -/
def stepB (col row : List (List Nat)) (G : List Square) : List Square :=
  transpose row.length col.length (rowsStep row.length col (transpose col.length row.length (rowsStep col.length row G)))

theorem stepB_sound {col row : List (List Nat)} {G F : List Square} (hp : ∀ r ∈ col ++ row, Positive r)
    (hF : Stable col row F) (he : Extends G F) : Extends (stepB col row G) F := by
  have h1 := rows_sound (fun r hr => hp r (List.mem_append_right _ hr)) hF.1 he hF.2.2
  have h2 := extends_transpose (w := col.length) (h := row.length) (by rw [← h1.1, hF.1]) h1
  have hT := stable_transpose hF
  have h3 := rows_sound (fun r hr => hp r (List.mem_append_left _ hr)) hT.1 h2 hT.2.2
  have h4 := extends_transpose (w := row.length) (h := col.length) (by rw [← h3.1, hT.1]) h3
  rwa [transpose_transpose hF.1] at h4

def iterB (col row : List (List Nat)) : Nat → List Square
  | 0 => List.replicate (col.length * row.length) .Blank
  | n + 1 => stepB col row (iterB col row n)

theorem iterB_sound {col row : List (List Nat)} {F : List Square} (hp : ∀ r ∈ col ++ row, Positive r)
    (hF : Stable col row F) (n : Nat) : Extends (iterB col row n) F := by
  induction n with
  | zero =>
    refine ⟨by rw [hF.1]; simp [iterB], fun p q hq hn => ?_⟩
    exact absurd (List.eq_of_mem_replicate (List.mem_of_getElem? hq)) hn
  | succ n ih => exact stepB_sound hp hF ih

/-- The rules of a picture. -/
def rulesB (w h : Nat) (b : List Bool) : List (List Nat) × List (List Nat) :=
  ((List.range w).map fun x => runs (column w h b x), (List.range h).map fun y => runs (rowOf w b y))

/-- The picture with the squares of the list inverted. -/
def flip (b : List Bool) (ps : List Nat) : List Bool := (List.range b.length).map fun p => b.getD p false != ps.contains p

/-- The corners of the rectangles of a 3 x 3 picture. -/
def corners : List (List Nat) :=
  [[0, 1, 3, 4], [0, 1, 6, 7], [3, 4, 6, 7], [0, 2, 3, 5], [0, 2, 6, 8], [3, 5, 6, 8], [1, 2, 4, 5], [1, 2, 7, 8], [4, 5, 7, 8]]

/-- The propagation finds the picture, or there is another picture with the same rules. -/
def checkB (b : List Bool) : Bool :=
  let r := rulesB 3 3 b
  !((iterB r.1 r.2 2).contains .Blank) || corners.any fun ps => flip b ps != b && rulesB 3 3 (flip b ps) == r

theorem check_000 : (allLines 6).all (fun xs => checkB (false :: false :: false :: xs)) = true := by decide +kernel
theorem check_001 : (allLines 6).all (fun xs => checkB (false :: false :: true :: xs)) = true := by decide +kernel
theorem check_010 : (allLines 6).all (fun xs => checkB (false :: true :: false :: xs)) = true := by decide +kernel
theorem check_011 : (allLines 6).all (fun xs => checkB (false :: true :: true :: xs)) = true := by decide +kernel
theorem check_100 : (allLines 6).all (fun xs => checkB (true :: false :: false :: xs)) = true := by decide +kernel
theorem check_101 : (allLines 6).all (fun xs => checkB (true :: false :: true :: xs)) = true := by decide +kernel
theorem check_110 : (allLines 6).all (fun xs => checkB (true :: true :: false :: xs)) = true := by decide +kernel
theorem check_111 : (allLines 6).all (fun xs => checkB (true :: true :: true :: xs)) = true := by decide +kernel

theorem check_three {b : List Bool} (hb : b.length = 9) : checkB b = true := by
  match b, hb with
  | x :: y :: z :: xs, hb =>
    have hx : xs ∈ allLines 6 := by
      have : xs.length = 6 := by simpa using hb
      rw [← this]; exact mem_allLines xs
    cases x <;> cases y <;> cases z
    · exact List.all_eq_true.mp check_000 xs hx
    · exact List.all_eq_true.mp check_001 xs hx
    · exact List.all_eq_true.mp check_010 xs hx
    · exact List.all_eq_true.mp check_011 xs hx
    · exact List.all_eq_true.mp check_100 xs hx
    · exact List.all_eq_true.mp check_101 xs hx
    · exact List.all_eq_true.mp check_110 xs hx
    · exact List.all_eq_true.mp check_111 xs hx

/-! ### Three rows and three columns -/

/-- In three squares there is no room for zeros. -/
theorem positive_three {rule : List Nat} (hr : Framed rule) {xs : List Bool} (hx : xs.length = 3) (h : Follows rule xs) :
    Positive rule := by
  have hl := follows_length h
  rw [hx] at hl
  match rule, hr, hl with
  | [], _, _ => intro a ha; cases ha
  | [a], hr, _ =>
    intro c hc
    rw [List.mem_singleton] at hc
    subst hc
    exact Nat.pos_of_ne_zero fun h0 => hr.1 (by rw [h0]; rfl)
  | [a, b], hr, _ =>
    intro c hc
    simp only [List.mem_cons, List.not_mem_nil, or_false] at hc
    rcases hc with rfl | rfl
    · exact Nat.pos_of_ne_zero fun h0 => hr.1 (by rw [h0]; rfl)
    · exact Nat.pos_of_ne_zero fun h0 => hr.2 (by rw [h0]; rfl)
  | a :: b :: c :: r, hr, hl =>
    exfalso
    have ha : a ≠ 0 := fun h0 => hr.1 (by rw [h0]; rfl)
    rw [minLength_cons₂, minLength_cons₂] at hl
    match c, r, hr, hl with
    | 0, [], hr, _ => exact hr.2 rfl
    | c + 1, [], _, hl => simp [minLength] at hl; omega
    | c, d :: r, _, hl => rw [minLength_cons₂] at hl; omega

theorem solves_rules {col row : List (List Nat)} (hp : ∀ r ∈ col ++ row, Positive r) (hw : col.length = 3)
    (hh : row.length = 3) {b : List Bool} : Solves col row b ↔ b.length = 9 ∧ rulesB 3 3 b = (col, row) := by
  match col, row, hw, hh with
  | [c0, c1, c2], [r0, r1, r2], _, _ =>
    have e : ∀ r ∈ [c0, c1, c2] ++ [r0, r1, r2], ∀ xs, Follows r xs ↔ runs xs = r := fun r hr xs =>
      Props.follows_iff_runs r (hp r hr) xs
    unfold Solves rulesB
    simp only [List.length_cons, List.length_nil, Prod.mk.injEq]
    refine and_congr (by simp) (and_congr ?_ ?_)
    · constructor
      · intro h
        have h0 := (e c0 (by simp) _).mp (h 0 c0 rfl)
        have h1 := (e c1 (by simp) _).mp (h 1 c1 rfl)
        have h2 := (e c2 (by simp) _).mp (h 2 c2 rfl)
        simp only [List.range_succ, List.range_zero, List.nil_append, List.map_append, List.map_cons, List.map_nil,
          List.cons_append] at h0 h1 h2 ⊢
        rw [h0, h1, h2]
      · intro h x r hx
        have hx' : x < 3 := by have := (List.getElem?_eq_some_iff.mp hx).1; simpa using this
        rw [e r (List.mem_append_left _ (List.mem_of_getElem? hx))]
        have := congrArg (·[x]?) h
        simp only [List.getElem?_map, List.getElem?_range hx', hx, Option.map_some, Option.some.injEq] at this
        exact this
    · constructor
      · intro h
        have h0 := (e r0 (by simp) _).mp (h 0 r0 rfl)
        have h1 := (e r1 (by simp) _).mp (h 1 r1 rfl)
        have h2 := (e r2 (by simp) _).mp (h 2 r2 rfl)
        simp only [List.range_succ, List.range_zero, List.nil_append, List.map_append, List.map_cons, List.map_nil,
          List.cons_append] at h0 h1 h2 ⊢
        rw [h0, h1, h2]
      · intro h y r hy
        have hy' : y < 3 := by have := (List.getElem?_eq_some_iff.mp hy).1; simpa using this
        rw [e r (List.mem_append_right _ (List.mem_of_getElem? hy))]
        have := congrArg (·[y]?) h
        simp only [List.getElem?_map, List.getElem?_range hy', hy, Option.map_some, Option.some.injEq] at this
        exact this

/-- A puzzle of three rows and columns with exactly one solution has no stable grid with unknown squares. -/
theorem unique_three {col row : List (List Nat)} (hf : ∀ r ∈ col ++ row, Framed r) (hw : col.length = 3) (hh : row.length = 3)
    {b : List Bool} (hb : Solves col row b) (hu : ∀ c, Solves col row c → c = b) : ¬ HasStable true col row := by
  have hp : ∀ r ∈ col ++ row, Positive r := by
    intro r hr
    rcases List.mem_append.mp hr with h | h
    · obtain ⟨x, hx⟩ := List.getElem?_of_mem h
      exact positive_three (hf r hr) (by simp [column, hh]) (hb.2.1 x r hx)
    · obtain ⟨y, hy⟩ := List.getElem?_of_mem h
      exact positive_three (hf r hr) (by simp [rowOf, hw]) (hb.2.2 y r hy)
  obtain ⟨hl, hr⟩ := (solves_rules hp hw hh).mp hb
  have hc := check_three hl
  unfold checkB at hc
  simp only [hr, Bool.or_eq_true] at hc
  rcases hc with hc | hc
  · rintro ⟨F, hF, hB⟩
    have hB := of_decide_eq_true hB
    obtain ⟨he1, he⟩ := iterB_sound hp hF 2
    obtain ⟨p, hpF⟩ := List.getElem?_of_mem hB
    have hlt : p < (iterB col row 2).length := by rw [← he1]; exact (List.getElem?_eq_some_iff.mp hpF).1
    have hnb : Square.Blank ∉ iterB col row 2 := fun h => by
      rw [List.contains_iff_mem.mpr h] at hc
      cases hc
    have := he p _ (List.getElem?_eq_getElem hlt) (fun hb => hnb (hb ▸ List.getElem_mem hlt))
    rw [hpF] at this
    exact hnb (Option.some.inj this ▸ List.getElem_mem hlt)
  · exfalso
    obtain ⟨ps, _, hps⟩ := List.any_eq_true.mp hc
    rw [Bool.and_eq_true, bne_iff_ne, beq_iff_eq] at hps
    exact hps.1 (hu _ ((solves_rules hp hw hh).mpr ⟨by simp [flip, hl], hps.2⟩))

/-! ### Blank lines at the border -/

/-- Exactly one stable grid has no unknown squares. -/
def UniqueFull (col row : List (List Nat)) : Prop :=
  ∃ F, (Stable col row F ∧ Square.Blank ∉ F) ∧ ∀ F', Stable col row F' ∧ Square.Blank ∉ F' → F' = F

theorem uniqueFull_top {col row : List (List Nat)} (hc : ∀ r ∈ col, r.head? ≠ some 0) :
    UniqueFull col ([] :: row) ↔ UniqueFull col row := by
  constructor
  · rintro ⟨F, ⟨hF, hB⟩, hu⟩
    obtain ⟨G, hl, rfl⟩ := stable_top_form hF
    refine ⟨G, ⟨(stable_top hc hl).mp hF, fun h => hB (blank_top.mpr h)⟩, fun G' ⟨hG', hB'⟩ => ?_⟩
    exact List.append_cancel_left (hu _ ⟨(stable_top hc hG'.1).mpr hG', fun h => hB' (blank_top.mp h)⟩)
  · rintro ⟨G, ⟨hG, hB⟩, hu⟩
    refine ⟨_, ⟨(stable_top hc hG.1).mpr hG, fun h => hB (blank_top.mp h)⟩, fun F ⟨hF, hB'⟩ => ?_⟩
    obtain ⟨G', hl, rfl⟩ := stable_top_form hF
    rw [hu G' ⟨(stable_top hc hl).mp hF, fun h => hB' (blank_top.mpr h)⟩]

theorem uniqueFull_swap {col row : List (List Nat)} (h : UniqueFull col row) : UniqueFull row col := by
  obtain ⟨F, ⟨hF, hB⟩, hu⟩ := h
  refine ⟨_, ⟨stable_transpose hF, fun h => hB ((blank_transpose hF.1).mp h)⟩, fun G ⟨hG, hB'⟩ => ?_⟩
  rw [← hu _ ⟨stable_transpose hG, fun h => hB' ((blank_transpose hG.1).mp h)⟩, transpose_transpose hG.1]

theorem uniqueFull_swap_iff {col row : List (List Nat)} : UniqueFull col row ↔ UniqueFull row col :=
  ⟨uniqueFull_swap, uniqueFull_swap⟩

theorem uniqueFull_tops {col row : List (List Nat)} (n : Nat) (hc : ∀ r ∈ col, r.head? ≠ some 0) :
    UniqueFull col (List.replicate n [] ++ row) ↔ UniqueFull col row := by
  induction n with
  | zero => rfl
  | succ n ih => rw [List.replicate_succ, List.cons_append, uniqueFull_top hc, ih]

theorem uniqueFull_margins {col row : List (List Nat)} (n m : Nat) (hc : ∀ r ∈ col, r.head? ≠ some 0)
    (hr : ∀ r ∈ row, r.head? ≠ some 0) :
    UniqueFull (List.replicate n [] ++ col) (List.replicate m [] ++ row) ↔ UniqueFull col row := by
  have hr' : ∀ r ∈ List.replicate m [] ++ row, r.head? ≠ some 0 := by
    intro r h
    rcases List.mem_append.mp h with h | h
    · rw [List.eq_of_mem_replicate h]; simp
    · exact hr r h
  rw [uniqueFull_swap_iff, uniqueFull_tops n hr', uniqueFull_swap_iff, uniqueFull_tops m hc]

theorem filled_squares (b : List Bool) : filled (squares b) = b := by
  unfold filled squares
  rw [List.map_map]
  conv_rhs => rw [← List.map_id b]
  apply List.map_congr_left
  intro c _
  cases c <;> rfl

theorem squares_filled {F : List Square} (h : Square.Blank ∉ F) : squares (filled F) = F := by
  unfold filled squares
  rw [List.map_map]
  conv_rhs => rw [← List.map_id F]
  apply List.map_congr_left
  intro q hq
  cases q with
  | Blank => exact absurd hq h
  | Filled => rfl
  | Blocked => rfl

theorem blank_squares (b : List Bool) : Square.Blank ∉ squares b := by
  intro h
  obtain ⟨c, _, hc⟩ := List.mem_map.mp h
  split at hc <;> cases hc

theorem unique_iff {col row : List (List Nat)} (hf : Fits col row) :
    (∃ b, Solves col row b ∧ ∀ c, Solves col row c → c = b) ↔ UniqueFull col row := by
  have hk : ∀ {F}, Stable col row F → Square.Blank ∉ F → Solves col row (filled F) := fun hF hB =>
    (solves_iff_known hf hF.1 ((stable_iff hf hF.1).mp hF)).mpr hB
  constructor
  · rintro ⟨b, hb, hu⟩
    refine ⟨squares b, ⟨stable_of_solves hb, blank_squares b⟩, fun F ⟨hF, hB⟩ => ?_⟩
    rw [← hu _ (hk hF hB), squares_filled hB]
  · rintro ⟨F, ⟨hF, hB⟩, hu⟩
    refine ⟨filled F, hk hF hB, fun c hc => ?_⟩
    rw [← hu _ ⟨stable_of_solves hc, blank_squares c⟩]
    exact (filled_squares c).symm

end Nonogram
