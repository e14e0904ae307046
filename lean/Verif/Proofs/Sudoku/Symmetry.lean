import Verif.Spec.SudokuSymmetry
import Mathlib.Data.List.Perm.Subperm
import Mathlib.Data.List.Basic

/-! Symmetries map completions to completions. -/
namespace Sudoku.Spec

theorem full_perm {L : List (Option UInt8)} (hl : L.length = 9) (h : ∀ d ∈ digits, some d ∈ L) :
    L.Perm (digits.map some) := by
  have hn : (digits.map some).Nodup := by decide
  have hs : (digits.map some).Subperm L := hn.subperm (by
    intro x hx
    obtain ⟨d, hd, rfl⟩ := List.mem_map.mp hx
    exact h d hd)
  exact (hs.perm_of_length_le (by rw [hl]; decide)).symm

theorem valid_iff (g : List UInt8) : Valid g ↔ g.length = 81 ∧ ∀ u ∈ units, ∀ d ∈ digits, ∃ c ∈ u, g[c]? = some d := by
  constructor
  · intro V
    refine ⟨V.size, fun u hu d hd => ?_⟩
    have hd' : some d ∈ digits.map some := List.mem_map_of_mem hd
    simp only [units, List.mem_append, List.mem_map, List.mem_range] at hu
    rcases hu with (⟨i, hi, rfl⟩ | ⟨j, hj, rfl⟩) | ⟨k, hk, rfl⟩
    · have := (V.rows i hi).mem_iff.mpr hd'
      simp only [row, List.mem_map, List.mem_range] at this
      obtain ⟨j, hj, e⟩ := this
      exact ⟨_, List.mem_map.mpr ⟨j, List.mem_range.mpr hj, rfl⟩, e⟩
    · have := (V.cols j hj).mem_iff.mpr hd'
      simp only [col, List.mem_map, List.mem_range] at this
      obtain ⟨i, hi, e⟩ := this
      exact ⟨_, List.mem_map.mpr ⟨i, List.mem_range.mpr hi, rfl⟩, e⟩
    · have := (V.boxes (k / 3) (by omega) (k % 3) (by omega)).mem_iff.mpr hd'
      simp only [box, List.mem_map, List.mem_range] at this
      obtain ⟨j, hj, e⟩ := this
      exact ⟨_, List.mem_map.mpr ⟨j, List.mem_range.mpr hj, rfl⟩, e⟩
  · rintro ⟨hl, H⟩
    refine ⟨hl, fun i hi => full_perm (by simp [row]) fun d hd => ?_, fun j hj => full_perm (by simp [col]) fun d hd => ?_,
      fun a ha b hb => full_perm (by simp [box]) fun d hd => ?_⟩
    · obtain ⟨c, hc, e⟩ := H (rowCells i) (by simp only [units, List.mem_append, List.mem_map, List.mem_range]; exact .inl (.inl ⟨i, hi, rfl⟩)) d hd
      obtain ⟨j, hj, rfl⟩ := List.mem_map.mp hc
      exact List.mem_map.mpr ⟨j, hj, e⟩
    · obtain ⟨c, hc, e⟩ := H (colCells j) (by simp only [units, List.mem_append, List.mem_map, List.mem_range]; exact .inl (.inr ⟨j, hj, rfl⟩)) d hd
      obtain ⟨i, hi, rfl⟩ := List.mem_map.mp hc
      exact List.mem_map.mpr ⟨i, hi, e⟩
    · obtain ⟨c, hc, e⟩ := H (boxCells a b) (by
        simp only [units, List.mem_append, List.mem_map, List.mem_range]
        exact .inr ⟨3 * a + b, by omega, by rw [show (3 * a + b) / 3 = a by omega, show (3 * a + b) % 3 = b by omega]⟩) d hd
      obtain ⟨k, hk, rfl⟩ := List.mem_map.mp hc
      exact List.mem_map.mpr ⟨k, hk, e⟩

theorem units_lt : ∀ u ∈ units, ∀ c ∈ u, c < 81 := by decide +kernel

variable (S : Symmetry)

theorem Symmetry.move_length (g : List UInt8) : (S.move g).length = 81 := by simp [move]

theorem Symmetry.move_get {g : List UInt8} (hg : g.length = 81) {i : Nat} (hi : i < 81) :
    ∃ v, g[S.cell i]? = some v ∧ (S.move g)[i]? = some (S.digit v) := by
  have hc : S.cell i < g.length := hg ▸ S.cell_lt i hi
  refine ⟨g[S.cell i], List.getElem?_eq_getElem hc, ?_⟩
  simp [move, hi, List.getElem?_eq_getElem hc]

theorem Symmetry.move_valid {g : List UInt8} (V : Valid g) : Valid (S.move g) := by
  obtain ⟨hl, H⟩ := (valid_iff g).mp V
  refine (valid_iff _).mpr ⟨S.move_length g, fun u hu d hd => ?_⟩
  obtain ⟨v, hv, hp⟩ := S.units u hu
  obtain ⟨c, hc, e⟩ := H v hv (S.digitInv d) (S.digitsInv d hd)
  obtain ⟨i, hi, rfl⟩ := List.mem_map.mp (hp.mem_iff.mpr hc)
  obtain ⟨x, h1, h2⟩ := S.move_get hl (units_lt u hu i hi)
  rw [h1] at e
  obtain rfl := Option.some.inj e
  rw [S.digit_inv d hd] at h2
  exact ⟨i, hi, h2⟩

theorem Symmetry.move_completes {p g : List UInt8} (hp : p.length = 81) (C : Completes p g) :
    Completes (S.move p) (S.move g) := by
  refine ⟨S.move_valid C.1, fun i v hi hv => ?_⟩
  have hlt : i < 81 := by
    have := (List.getElem?_eq_some_iff.mp hi).1
    rwa [S.move_length] at this
  obtain ⟨x, h1, h2⟩ := S.move_get hp hlt
  obtain ⟨y, h3, h4⟩ := S.move_get C.1.size hlt
  rw [h2] at hi
  obtain rfl := Option.some.inj hi
  have hx : x ≠ 0 := by rintro rfl; exact hv S.zero
  have := C.2 _ x h1 hx
  rw [h3] at this
  obtain rfl := Option.some.inj this
  exact h4

theorem Symmetry.move_move {g : List UInt8} (hg : g.length = 81) (h9 : ∀ v ∈ g, v.toNat ≤ 9) :
    S.inv.move (S.move g) = g := by
  apply List.ext_getElem?
  intro i
  by_cases hi : i < 81
  · obtain ⟨x, h1, h2⟩ := S.inv.move_get (S.move_length g) hi
    obtain ⟨y, h3, h4⟩ := S.move_get hg (S.cellInv_lt i hi)
    have h1 : (S.move g)[S.cellInv i]? = some x := h1
    rw [h4] at h1
    obtain rfl := Option.some.inj h1
    rw [S.cell_inv i hi] at h3
    rw [h2, h3]
    congr 1
    by_cases h0 : y = 0
    · subst h0
      show S.digitInv (S.digit 0) = 0
      rw [S.zero, S.zeroInv]
    · refine S.inv_digit y ?_
      have hle := h9 y (List.mem_of_getElem? h3)
      have : ∀ n < 10, UInt8.ofNat n ≠ 0 → UInt8.ofNat n ∈ Spec.digits := by decide
      have := this y.toNat (by omega)
      rw [UInt8.ofNat_toNat] at this
      exact this h0
  · rw [List.getElem?_eq_none (by rw [S.inv.move_length]; omega), List.getElem?_eq_none (by omega)]

theorem Symmetry.move_le {g : List UInt8} (h9 : ∀ v ∈ g, v.toNat ≤ 9) : ∀ v ∈ S.move g, v.toNat ≤ 9 := by
  intro v hv
  obtain ⟨i, _, rfl⟩ := List.mem_map.mp hv
  have hdig : ∀ d ∈ Spec.digits, d.toNat ≤ 9 := by decide
  cases hx : g[S.cell i]? with
  | none => simp [S.zero]
  | some x =>
    simp only [Option.getD_some]
    by_cases h0 : x = 0
    · rw [h0, S.zero]; decide
    · have hle := h9 x (List.mem_of_getElem? hx)
      have : ∀ n < 10, UInt8.ofNat n ≠ 0 → UInt8.ofNat n ∈ Spec.digits := by decide
      have := this x.toNat (by omega)
      rw [UInt8.ofNat_toNat] at this
      exact hdig _ (S.digits x (this h0))

end Sudoku.Spec
