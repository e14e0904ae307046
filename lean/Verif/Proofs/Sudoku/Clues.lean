import Verif.Proofs.Sudoku.Solve

/-! Clue lists: verdicts in closed form, clues of ordinary puzzles. -/
namespace Sudoku
open DancingLinks DancingLinks.Spec Sudoku.Spec

/-- No clue clashes with an earlier one. -/
def Calm (cs : List Clue) : Prop := cs.Pairwise fun a x => clash x a = false

theorem find_none_iff {seen : List Clue} {x : Clue} :
    seen.find? (clash x) = none ↔ ∀ a ∈ seen, clash x a = false := by
  simp [List.find?_eq_none]

theorem calm_append_iff {seen : List Clue} {x : Clue} {rest : List Clue} :
    Calm (seen ++ x :: rest) ↔ Calm (seen ++ [x] ++ rest) := by simp

theorem verdict_search_iff (cs : List Clue) : ∀ seen, Calm seen → (verdict seen cs = .search ↔ Calm (seen ++ cs)) := by
  induction cs with
  | nil => intro seen h; simpa [verdict] using h
  | cons x cs ih =>
    intro seen h
    rw [verdict]
    cases hf : seen.find? (clash x) with
    | none =>
      have h' : Calm (seen ++ [x]) := by
        unfold Calm at h ⊢
        rw [List.pairwise_append]
        refine ⟨h, by simp, ?_⟩
        intro a ha b hb
        rw [List.mem_singleton.1 hb]
        exact find_none_iff.1 hf a ha
      simp only
      rw [ih _ h', List.append_assoc, List.singleton_append]
    | some a =>
      simp only
      constructor
      · intro hh; split at hh <;> cases hh
      · intro hc
        exfalso
        unfold Calm at hc
        rw [List.pairwise_append] at hc
        have := hc.2.2 a (List.mem_of_find?_eq_some hf) x (by simp)
        rw [List.find?_some hf] at this
        cases this

theorem verdict_stop_iff (cs : List Clue) (b : Prop → Prop) (w : Verdict) (hb : w = .reject ∧ b = id ∨ w = .dangling ∧ b = Not) :
    ∀ seen, Calm seen → (verdict seen cs = w ↔
      ∃ pre x post a, cs = pre ++ x :: post ∧ Calm (seen ++ pre) ∧ (seen ++ pre).find? (clash x) = some a ∧
        b (x.digit = a.digit ∧ sameBox x a)) := by
  induction cs with
  | nil => intro seen h; rcases hb with ⟨rfl, _⟩ | ⟨rfl, _⟩ <;> simp [verdict]
  | cons x cs ih =>
    intro seen h
    rw [verdict]
    cases hf : seen.find? (clash x) with
    | none =>
      have h' : Calm (seen ++ [x]) := by
        unfold Calm at h ⊢
        rw [List.pairwise_append]
        refine ⟨h, by simp, ?_⟩
        intro a ha b hb
        rw [List.mem_singleton.1 hb]
        exact find_none_iff.1 hf a ha
      simp only
      rw [ih _ h']
      constructor
      · rintro ⟨pre, y, post, a, rfl, h1, h2, h3⟩
        exact ⟨x :: pre, y, post, a, rfl, by simpa using h1, by simpa using h2, h3⟩
      · rintro ⟨pre, y, post, a, e, h1, h2, h3⟩
        cases pre with
        | nil =>
          simp only [List.nil_append, List.cons.injEq] at e
          rw [← e.1, List.append_nil, hf] at h2
          cases h2
        | cons z pre =>
          simp only [List.cons_append, List.cons.injEq] at e
          obtain ⟨rfl, e⟩ := e
          exact ⟨pre, y, post, a, e, by simpa using h1, by simpa using h2, h3⟩
    | some a =>
      simp only
      have pre_nil : ∀ pre y post, x :: cs = pre ++ y :: post → Calm (seen ++ pre) → pre = [] ∧ y = x := by
        intro pre y post e hc
        cases pre with
        | nil => simp only [List.nil_append, List.cons.injEq] at e; exact ⟨rfl, e.1.symm⟩
        | cons z pre =>
          simp only [List.cons_append, List.cons.injEq] at e
          exfalso
          unfold Calm at hc
          rw [List.pairwise_append] at hc
          have := hc.2.2 a (List.mem_of_find?_eq_some hf) z (by simp)
          rw [← e.1, List.find?_some hf] at this
          cases this
      constructor
      · intro hh
        refine ⟨[], x, cs, a, rfl, by simpa using h, by simpa using hf, ?_⟩
        rcases hb with ⟨rfl, rfl⟩ | ⟨rfl, rfl⟩ <;> split at hh
        · assumption
        · cases hh
        · cases hh
        · assumption
      · rintro ⟨pre, y, post, a', e, h1, h2, h3⟩
        obtain ⟨rfl, rfl⟩ := pre_nil pre y post e h1
        rw [List.append_nil, hf] at h2
        cases h2
        rcases hb with ⟨rfl, rfl⟩ | ⟨rfl, rfl⟩
        · exact if_pos h3
        · exact if_neg h3

theorem toNat_pos {v : UInt8} (h : v ≠ 0) : v.toNat ≠ 0 := by
  intro h'; apply h; exact UInt8.toNat_inj.1 (by simpa using h')

theorem mem_clues {p : List UInt8} {x : Clue} :
    x ∈ clues p ↔ ∃ (i : Nat) (v : UInt8), p[i]? = some v ∧ clue v i = some x := by
  simp only [clues, List.mem_filterMap]
  constructor
  · rintro ⟨⟨v, i⟩, h1, h2⟩
    exact ⟨i, v, List.mem_zipIdx_iff_getElem?.1 h1, h2⟩
  · rintro ⟨i, v, h1, h2⟩
    exact ⟨(v, i), List.mem_zipIdx_iff_getElem?.2 h1, h2⟩

theorem clue_digit {v : UInt8} {i : Nat} (hv : v.toNat ≤ 9) : clue v i = if v = 0 then none else some ⟨i, v.toNat⟩ := by
  simp [clue, hv]

/-- For ordinary puzzles the clues say what the puzzle says. -/
theorem meets_digits {p g : List UInt8} (h9 : ∀ v ∈ p, v.toNat ≤ 9) :
    Meets g (clues p) ↔ ∀ (i : Nat) (v : UInt8), p[i]? = some v → v ≠ 0 → g[i]? = some v := by
  have hm : ∀ (i : Nat) (v : UInt8), p[i]? = some v → v ∈ p := fun i v h => List.mem_of_getElem? h
  constructor
  · intro h i v hv h0
    have := h ⟨i, v.toNat⟩ (mem_clues.2 ⟨i, v, hv, by rw [clue_digit (h9 v (hm i v hv)), if_neg h0]⟩)
    simpa using this
  · intro h x hx
    obtain ⟨i, v, hv, hc⟩ := mem_clues.1 hx
    rw [clue_digit (h9 v (hm i v hv))] at hc
    split at hc
    · cases hc
    · cases hc
      simpa using h i v hv (by assumption)

/-- Cells of the clues of an ordinary puzzle are strictly increasing. -/
theorem clues_cells {p : List UInt8} (h9 : ∀ v ∈ p, v.toNat ≤ 9) :
    (clues p).Pairwise fun a x => a.cell < x.cell := by
  unfold clues
  rw [List.pairwise_filterMap]
  have : p.zipIdx.Pairwise (fun a b => a.2 < b.2) := by
    have h := List.pairwise_lt_range' (s := 0) (n := p.length) (step := 1)
    rw [← List.zipIdx_map_snd 0 p, List.pairwise_map] at h
    exact h
  refine List.Pairwise.imp_of_mem ?_ this
  intro a b ha hb hlt x hx y hy
  have h1 := h9 a.1 (by
    have := List.mem_zipIdx_iff_getElem?.1 (show (a.1, a.2) ∈ p.zipIdx from ha); exact List.mem_of_getElem? this)
  have h2 := h9 b.1 (by
    have := List.mem_zipIdx_iff_getElem?.1 (show (b.1, b.2) ∈ p.zipIdx from hb); exact List.mem_of_getElem? this)
  rw [clue_digit h1] at hx
  rw [clue_digit h2] at hy
  split at hx
  · cases hx
  · split at hy
    · cases hy
    · cases hx; cases hy; exact hlt

theorem clues_WF {p : List UInt8} (hp : p.length = 81) : ∀ x ∈ clues p, WF x := by
  intro x hx
  obtain ⟨i, v, hv, hc⟩ := mem_clues.1 hx
  have hi : i < 81 := by rw [← hp]; exact (List.getElem?_eq_some_iff.1 hv).1
  have h0 : v ≠ 0 := by rintro rfl; simp [clue] at hc
  rcases clue_cases h0 hi with ⟨y, h1, h2, _⟩ | ⟨h1, _⟩
  · rw [h1] at hc; cases hc; exact h2
  · rw [h1] at hc; cases hc

/-- A finished grid satisfies no two clues that exclude each other, other than equal ones. -/
theorem valid_no_clash {g : List UInt8} (V : Valid g) {x y : Clue} (hx : WF x) (hy : WF y)
    (mx : g[x.cell]? = some (UInt8.ofNat x.digit)) (my : g[y.cell]? = some (UInt8.ofNat y.digit))
    (hc : clash x y = true) : x = y := by
  obtain ⟨f, G, rfl⟩ := valid_good V
  have M : Meets (gridOf f) [x, y] := by
    intro c hc; simp only [List.mem_cons, List.not_mem_nil, or_false] at hc
    rcases hc with rfl | rfl <;> assumption
  have hs := (meets_iff G.lt (cs := [x, y]) (by simp [hx, hy])).1 M
  have sx : num x ∈ sel f := hs _ (by simp)
  have sy : num y ∈ sel f := hs _ (by simp)
  rw [← conflict_num hx hy] at hc
  simp only [conflict, List.any_eq_true, decide_eq_true_eq] at hc
  obtain ⟨col, h1, h2, h3⟩ := hc
  obtain ⟨r, _, _, hu⟩ := G.exactCover.once col h1
  have e : num x = num y := (hu _ sx h2).trans (hu _ sy h3).symm
  have ex := num_facts hx
  have ey := num_facts hy
  rw [e] at ex
  cases x; cases y
  simp only at ex ey
  rw [Clue.mk.injEq]; omega

/-- A completable ordinary puzzle has clues that do not exclude each other. -/
theorem completable_calm {p g : List UInt8} (hp : p.length = 81) (h9 : ∀ v ∈ p, v.toNat ≤ 9) (V : Valid g)
    (M : Meets g (clues p)) : Calm (clues p) := by
  unfold Calm
  refine List.Pairwise.imp_of_mem ?_ (clues_cells h9)
  intro a x ha hx hlt
  by_contra hc
  have := valid_no_clash V (clues_WF hp x hx) (clues_WF hp a ha) (M x hx) (M a ha) (by simpa using hc)
  rw [this] at hlt
  exact absurd hlt (lt_irrefl _)

theorem calm_nil : Calm [] := List.Pairwise.nil

end Sudoku
