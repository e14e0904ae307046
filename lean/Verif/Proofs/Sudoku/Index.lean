import Verif.Proofs.Sudoku.Clues

/-! The condition for the use-after-free, in terms of cell indices. -/
namespace Sudoku
open Sudoku.Spec

theorem split_mem {L pre post : List Clue} {x : Clue} (hs : L.Pairwise fun a b => a.cell < b.cell)
    (e : L = pre ++ x :: post) (y : Clue) : y ∈ pre ↔ y ∈ L ∧ y.cell < x.cell := by
  subst e
  rw [List.pairwise_append] at hs
  obtain ⟨h1, h2, h3⟩ := hs
  constructor
  · intro hy; exact ⟨by simp [hy], h3 y hy x (by simp)⟩
  · rintro ⟨hy, hlt⟩
    rcases List.mem_append.1 hy with h | h
    · exact h
    · rcases List.mem_cons.1 h with rfl | h
      · exact absurd hlt (lt_irrefl _)
      · have := (List.pairwise_cons.1 h2).1 y h; omega

theorem clue_mem_digits {p : List UInt8} (h9 : ∀ v ∈ p, v.toNat ≤ 9) {x : Clue} :
    x ∈ clues p ↔ ∃ v : UInt8, v ≠ 0 ∧ p[x.cell]? = some v ∧ x.digit = v.toNat := by
  rw [mem_clues]
  constructor
  · rintro ⟨i, v, hv, hc⟩
    rw [clue_digit (h9 v (List.mem_of_getElem? hv))] at hc
    split at hc
    · cases hc
    · cases hc; exact ⟨v, by assumption, hv, rfl⟩
  · rintro ⟨v, h0, hv, hd⟩
    refine ⟨x.cell, v, hv, ?_⟩
    rw [clue_digit (h9 v (List.mem_of_getElem? hv)), if_neg h0, ← hd]

theorem clash_iff {x y : Clue} (hne : x.cell ≠ y.cell) :
    clash x y = true ↔ x.digit = y.digit ∧ linked x.cell y.cell := by
  unfold clash
  rw [decide_eq_true_iff]
  simp only [sameRow, sameCol, sameBox, linked, boxed, hne, false_or]

theorem dangling_index {p : List UInt8} (h9 : ∀ v ∈ p, v.toNat ≤ 9) :
    (∃ pre x post a, clues p = pre ++ x :: post ∧ Calm pre ∧ pre.find? (clash x) = some a ∧
      ¬ (x.digit = a.digit ∧ sameBox x a)) ↔
    ∃ (i j : Nat) (d : UInt8), i < j ∧ d ≠ 0 ∧ p[i]? = some d ∧ p[j]? = some d ∧ linked i j ∧ ¬ boxed i j ∧
      (∀ k < i, p[k]? = some d → ¬ linked k j) ∧ (∀ k l, k < l → l < j → ¬ Twin p k l) := by
  have hs := clues_cells h9
  constructor
  · rintro ⟨pre, x, post, a, e, hc, hf, hb⟩
    have hpre := split_mem hs e
    have hx : x ∈ clues p := by rw [e]; simp
    have ha := (hpre a).1 (List.mem_of_find?_eq_some hf)
    obtain ⟨d, hd0, hd, hdd⟩ := (clue_mem_digits h9).1 hx
    obtain ⟨d', hd0', hd', hdd'⟩ := (clue_mem_digits h9).1 ha.1
    have hcl := (clash_iff (by omega)).1 (List.find?_some hf)
    have ed : d = d' := UInt8.toNat_inj.1 (by omega)
    subst ed
    have symL : ∀ i j, linked i j → linked j i := by
      intro i j h; unfold linked boxed at *; omega
    refine ⟨a.cell, x.cell, d, ha.2, hd0, hd', hd, symL _ _ hcl.2, ?_, ?_, ?_⟩
    · intro hbx; apply hb
      refine ⟨hcl.1, ?_⟩
      unfold boxed at hbx; unfold sameBox; omega
    · intro k hk hkd hl
      rw [List.find?_eq_some_iff_append] at hf
      obtain ⟨_, as, bs, e2, h3⟩ := hf
      have hk' : (⟨k, d.toNat⟩ : Clue) ∈ clues p := (clue_mem_digits h9).2 ⟨d, hd0, hkd, rfl⟩
      have hkp : (⟨k, d.toNat⟩ : Clue) ∈ pre := (hpre _).2 ⟨hk', by dsimp; omega⟩
      have hs' : pre.Pairwise fun a b => a.cell < b.cell := by
        rw [e, List.pairwise_append] at hs; exact hs.1
      have hka := (split_mem hs' e2 ⟨k, d.toNat⟩).2 ⟨hkp, hk⟩
      have := h3 _ hka
      have hct : clash x ⟨k, d.toNat⟩ = true := (clash_iff (by dsimp; omega)).2 ⟨hdd, symL _ _ hl⟩
      rw [hct] at this; cases this
    · rintro k l hkl hlj ⟨c, hc0, h1, h2, h3⟩
      have hk' : (⟨k, c.toNat⟩ : Clue) ∈ pre :=
        (hpre _).2 ⟨(clue_mem_digits h9).2 ⟨c, hc0, h1, rfl⟩, by dsimp; omega⟩
      have hl' : (⟨l, c.toNat⟩ : Clue) ∈ pre :=
        (hpre _).2 ⟨(clue_mem_digits h9).2 ⟨c, hc0, h2, rfl⟩, by dsimp; omega⟩
      have hct : clash ⟨l, c.toNat⟩ ⟨k, c.toNat⟩ = true := (clash_iff (by dsimp; omega)).2 ⟨rfl, symL _ _ h3⟩
      have hs' : pre.Pairwise fun a b => a.cell < b.cell := by
        rw [e, List.pairwise_append] at hs; exact hs.1
      have hboth := hs'.and hc
      have key : ∀ (L : List Clue), (L.Pairwise fun a b => a.cell < b.cell ∧ clash b a = false) →
          ∀ u ∈ L, ∀ w ∈ L, u.cell < w.cell → clash w u = false := by
        intro L hL
        induction hL with
        | nil => intro u hu; cases hu
        | cons hh _ ih =>
          intro u hu w hw huw
          rcases List.mem_cons.1 hu with rfl | hu'
          · rcases List.mem_cons.1 hw with rfl | hw'
            · exact absurd huw (lt_irrefl _)
            · exact (hh w hw').2
          · rcases List.mem_cons.1 hw with rfl | hw'
            · have := (hh u hu').1; omega
            · exact ih u hu' w hw' huw
      have := key pre hboth _ hk' _ hl' hkl
      rw [hct] at this; cases this
  · rintro ⟨i, j, d, hij, hd0, hi, hj, hl, hb, hfirst, htw⟩
    have symL : ∀ i j, linked i j → linked j i := by
      intro i j h; unfold linked boxed at *; omega
    have hxm : (⟨j, d.toNat⟩ : Clue) ∈ clues p := (clue_mem_digits h9).2 ⟨d, hd0, hj, rfl⟩
    have ham : (⟨i, d.toNat⟩ : Clue) ∈ clues p := (clue_mem_digits h9).2 ⟨d, hd0, hi, rfl⟩
    obtain ⟨pre, post, e⟩ := List.append_of_mem hxm
    have hpre := split_mem hs e
    have hap : (⟨i, d.toNat⟩ : Clue) ∈ pre := (hpre _).2 ⟨ham, hij⟩
    have hs' : pre.Pairwise fun a b => a.cell < b.cell := by
      rw [e, List.pairwise_append] at hs; exact hs.1
    obtain ⟨as, bs, e2⟩ := List.append_of_mem hap
    refine ⟨pre, ⟨j, d.toNat⟩, post, ⟨i, d.toNat⟩, e, ?_, ?_, ?_⟩
    · unfold Calm
      refine List.Pairwise.imp_of_mem ?_ hs'
      intro a x ha hx hlt
      by_contra hc
      rw [Bool.not_eq_false] at hc
      have ha' := (hpre a).1 ha
      have hx' := (hpre x).1 hx
      obtain ⟨c, hc0, h1, h2⟩ := (clue_mem_digits h9).1 ha'.1
      obtain ⟨c', hc0', h1', h2'⟩ := (clue_mem_digits h9).1 hx'.1
      have hcl := (clash_iff (by omega)).1 hc
      have ed : c = c' := UInt8.toNat_inj.1 (by omega)
      subst ed
      exact htw a.cell x.cell hlt hx'.2 ⟨c, hc0, h1, h1', symL _ _ hcl.2⟩
    · rw [List.find?_eq_some_iff_append]
      refine ⟨(clash_iff (by dsimp; omega)).2 ⟨rfl, symL _ _ hl⟩, as, bs, e2, ?_⟩
      intro a ha
      have ha' := (split_mem hs' e2 a).1 ha
      have ha'' := (hpre a).1 ha'.1
      obtain ⟨c, hc0, h1, h2⟩ := (clue_mem_digits h9).1 ha''.1
      have hai : a.cell < i := ha'.2
      by_contra hc
      have hc' : clash ⟨j, d.toNat⟩ a = true := by simpa using hc
      have hcl := (clash_iff (by dsimp; omega)).1 hc'
      have ed : c = d := UInt8.toNat_inj.1 (by have := hcl.1; dsimp at this; omega)
      subst ed
      exact hfirst a.cell ha'.2 h1 (symL _ _ hcl.2)
    · rintro ⟨_, h⟩
      apply hb
      unfold sameBox at h; unfold boxed; dsimp at h; omega

end Sudoku
