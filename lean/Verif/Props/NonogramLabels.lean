import Verif.Props.NonogramPrint

/-! C107: the numbers above the columns and the grid. -/
namespace Nonogram.Props
open Nonogram Nonogram.Spec

theorem colTexts_mem {n x : Nat} {rule : List Nat} {t : Text} (ht : t ∈ colTexts n x rule) :
    ∃ k, k < rule.length ∧ t.y = 30 * k + 10 := by
  simp only [colTexts, List.mem_map] at ht
  obtain ⟨⟨v, y⟩, hm, rfl⟩ := ht
  have := List.snd_lt_add_of_mem_zipIdx hm
  exact ⟨y, by simpa using this, rfl⟩

theorem two_length {rule : List Nat} (hp : Positive rule) : 2 * rule.length ≤ minLength rule + 1 := by
  have : ∀ l : List Nat, Positive l → l.length ≤ l.sum := by
    intro l
    induction l with
    | nil => simp
    | cons a l ih =>
      intro h
      have h1 := h a (by simp)
      have h2 := ih (fun b hb => h b (by simp [hb]))
      simp only [List.length_cons, List.sum_cons]
      omega
  have := this rule hp
  unfold minLength
  omega

/-- The rule `1,1,…,1` with as many numbers as fit into `h` squares. -/
theorem ones {h : Nat} (hh : 1 ≤ h) : Positive (List.replicate ((h + 1) / 2) 1) ∧
    minLength (List.replicate ((h + 1) / 2) 1) ≤ h := by
  constructor
  · intro a ha; rw [List.eq_of_mem_replicate ha]; omega
  · unfold minLength
    rw [List.sum_replicate_nat, List.length_replicate]
    omega

theorem kth_text (w x : Nat) {n k : Nat} (hk : k < n) : ∃ t ∈ colTexts w x (List.replicate n 1), t.y = 30 * k + 10 := by
  refine ⟨⟨50 * x + margin w + 15, 30 * k + 10, toString 1⟩, ?_, rfl⟩
  simp only [colTexts, List.mem_map]
  refine ⟨(1, k), ?_, rfl⟩
  rw [List.mk_mem_zipIdx_iff_getElem?, List.getElem?_replicate, if_pos hk]

/-- C107. The numbers of a column are 30 pixels high. For the rules without zeros that fit into a column of `h` squares
they all stay clear of the horizontal grid lines exactly if there are at most 8 rows. -/
theorem C107_clear (w x h : Nat) :
    (∀ rule, Positive rule → minLength rule ≤ h → ∀ t ∈ colTexts w x rule, ∀ y, t.y ≤ y → y < t.y + 30 → ¬ OnLine h y) ↔
      h ≤ 8 := by
  constructor
  · intro hall
    by_contra hn
    obtain ⟨o1, o2⟩ := ones (h := h) (by omega)
    have hmar : margin h = max 150 (10 * h) := rfl
    obtain ⟨t, ht, hty⟩ := kth_text w x (n := (h + 1) / 2) (k := (margin h - 10) / 30) (by omega)
    exact hall _ o1 o2 t ht (margin h) (by omega) (by omega) ⟨0, by omega, .inl (by omega)⟩
  · rintro hh rule hp hm t ht y h1 h2 ⟨i, hi, hc⟩
    obtain ⟨k, hk, he⟩ := colTexts_mem ht
    have := two_length hp
    unfold margin at hc
    omega

/-- C107. They all begin above the grid exactly if there are at most 10 rows. -/
theorem C107_begin (w x h : Nat) :
    (∀ rule, Positive rule → minLength rule ≤ h → ∀ t ∈ colTexts w x rule, t.y < margin h) ↔ h ≤ 10 := by
  constructor
  · intro hall
    by_contra hn
    obtain ⟨o1, o2⟩ := ones (h := h) (by omega)
    obtain ⟨t, ht, hty⟩ := kth_text w x (n := (h + 1) / 2) (k := (h + 1) / 2 - 1) (by omega)
    have := hall _ o1 o2 t ht
    unfold margin at this
    omega
  · rintro hh rule hp hm t ht
    obtain ⟨k, hk, he⟩ := colTexts_mem ht
    have := two_length hp
    unfold margin
    omega

/-- C107. They always end inside the picture, and the text of a row lies between two grid lines. -/
theorem C107_inside (w h : Nat) :
    (∀ x rule, Positive rule → minLength rule ≤ h → ∀ t ∈ colTexts w x rule, t.y + 30 ≤ side h) ∧
    ∀ k rule y, (rowText h k rule).y ≤ y → y < (rowText h k rule).y + 30 → Inside h k y := by
  constructor
  · rintro x rule hp hm t ht
    obtain ⟨k, hk, he⟩ := colTexts_mem ht
    have := two_length hp
    unfold side margin
    omega
  · intro k rule y h1 h2
    simp only [rowText] at h1 h2
    unfold Inside
    omega

/-- C107. With 9 rows or more the picture of a puzzle whose column `x` has the rule `1,1,…,1` has gray pixels across one of
these numbers, whatever the font. -/
theorem C107_covered (oc : Bool) (text : TextFn) (col row : List (List Nat)) (hp : Printable col.length row.length)
    (hr : ∀ r ∈ col, 30 * r.length < 2 ^ 31) (hh : 9 ≤ row.length) (x : Nat)
    (hc : col[x]? = some (List.replicate ((row.length + 1) / 2) 1)) :
    ∃ img t y, printNonogram oc text col.length row.length col row = .ok (.ok img) ∧
      t ∈ colTexts col.length x (List.replicate ((row.length + 1) / 2) 1) ∧ t ∈ texts col row ∧
      t.y ≤ y ∧ y < t.y + 30 ∧ ∀ x' < img.width, img.px x' y = ⟨105, 105, 105⟩ := by
  have hmar : margin row.length = max 150 (10 * row.length) := rfl
  obtain ⟨t, ht, hty⟩ := kth_text col.length x (n := (row.length + 1) / 2) (k := (margin row.length - 10) / 30) (by omega)
  obtain ⟨img, h1, h2, h3, h4⟩ := C50_print oc text col row hp hr
  refine ⟨img, t, margin row.length, h1, ht, ?_, by omega, by omega, fun x' hx' => ?_⟩
  · simp only [texts, List.mem_append, List.mem_flatMap]
    exact .inl ⟨(_, x), List.mk_mem_zipIdx_iff_getElem?.2 hc, ht⟩
  · exact (h4 x' hx' _ (by omega)).1 (.inr ⟨0, by omega, .inl (by omega)⟩)

/-- The hypotheses of C107_covered are met by a 1 x 9 puzzle. -/
example (text : TextFn) : ∃ img t y, printNonogram true text 1 9 [[1, 1, 1, 1, 1]] (List.replicate 9 [1]) = .ok (.ok img) ∧
    t ∈ colTexts 1 0 [1, 1, 1, 1, 1] ∧ t ∈ texts [[1, 1, 1, 1, 1]] (List.replicate 9 [1]) ∧
    t.y ≤ y ∧ y < t.y + 30 ∧ ∀ x' < img.width, img.px x' y = ⟨105, 105, 105⟩ :=
  C107_covered true text [[1, 1, 1, 1, 1]] (List.replicate 9 [1]) (printable_of_le (by decide) (by decide)) (by decide)
    (by decide) 0 rfl

end Nonogram.Props
