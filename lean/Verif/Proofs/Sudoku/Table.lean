import Verif.Model.Sudoku

/-! The constraint table in closed form. -/
namespace Sudoku

def cellCol (k : Nat) : List Nat := (List.range 9).map fun i => k * 9 + i
def rowCol (k : Nat) : List Nat := (List.range 9).map fun i => (k % 9) + i * 9 + (k / 9) * 81
def colCol (k : Nat) : List Nat := (List.range 9).map fun i => k + i * 81
def boxCol (k : Nat) : List Nat := (List.range 9).map fun i => (k % 9) + (i % 3) * 9 + (i / 3) * 81
    + ((k % 27) / 9) * 27 + (k / 27) * 243

namespace Table

/-- Entry `j` of row `k` of the table. -/
def entry (k j : Nat) : Nat :=
  if k < 81 then k * 9 + j
  else if k < 162 then ((k - 81) % 9) + j * 9 + ((k - 81) / 9) * 81
  else if k < 243 then (k - 162) + j * 81
  else ((k - 243) % 9) + (j % 3) * 9 + (j / 3) * 81 + (((k - 243) % 27) / 9) * 27 + ((k - 243) / 27) * 243

theorem inner_get {i k : Nat} (hi : i < 81) (hk : k < 324) (c : List (List Nat)) (j : Nat) :
    (constraintsInner i c j)[k]? = if k % 81 = i then c[k]?.map (·.set j (entry k j)) else c[k]? := by
  simp only [constraintsInner, List.getElem?_modify]
  cases c[k]? with
  | none => simp
  | some r =>
    simp only [Option.map_eq_map, Option.map_some]
    by_cases h : k % 81 = i
    · rw [if_pos h]
      have : k = i ∨ k = i + 81 ∨ k = i + 162 ∨ k = i + 243 := by omega
      rcases this with rfl | rfl | rfl | rfl
      · rw [if_neg (by omega), if_neg (by omega), if_neg (by omega), if_pos rfl]
        simp [entry, hi]
      · rw [if_neg (by omega), if_neg (by omega), if_pos rfl, if_neg (by omega)]
        simp [entry, show ¬ i + 81 < 81 by omega, show i + 81 < 162 by omega]
      · rw [if_neg (by omega), if_pos rfl, if_neg (by omega), if_neg (by omega)]
        simp [entry, show ¬ i + 162 < 81 by omega, show ¬ i + 162 < 162 by omega, show i + 162 < 243 by omega]
      · rw [if_pos rfl, if_neg (by omega), if_neg (by omega), if_neg (by omega)]
        simp [entry, show ¬ i + 243 < 81 by omega, show ¬ i + 243 < 162 by omega, show ¬ i + 243 < 243 by omega]
    · rw [if_neg h, if_neg (by omega), if_neg (by omega), if_neg (by omega), if_neg (by omega)]

theorem row_get {i k : Nat} (hi : i < 81) (hk : k < 324) (l : List Nat) (c : List (List Nat)) :
    (l.foldl (constraintsInner i) c)[k]? =
      if k % 81 = i then c[k]?.map (l.foldl fun r j => r.set j (entry k j)) else c[k]? := by
  induction l generalizing c with
  | nil => split <;> simp
  | cons j l ih =>
    rw [List.foldl_cons, ih, inner_get hi hk]
    split
    · rw [Option.map_map]
      rfl
    · rfl

theorem all_get {k : Nat} (hk : k < 324) (l : List Nat) (hl : l.Nodup) (h81 : ∀ i ∈ l, i < 81) (c : List (List Nat)) :
    (l.foldl (fun c i => (List.range 9).foldl (constraintsInner i) c) c)[k]? =
      if k % 81 ∈ l then c[k]?.map ((List.range 9).foldl fun r j => r.set j (entry k j)) else c[k]? := by
  induction l generalizing c with
  | nil => simp
  | cons i l ih =>
    have hn := List.nodup_cons.mp hl
    rw [List.foldl_cons, ih hn.2 (fun x hx => h81 x (by simp [hx])), row_get (h81 i (by simp)) hk]
    by_cases h : k % 81 = i
    · rw [if_neg (by rw [h]; exact hn.1), if_pos h, if_pos (by simp [h])]
    · rw [if_neg h]
      simp [h]

theorem all_length (l : List Nat) (c : List (List Nat)) :
    (l.foldl (fun c i => (List.range 9).foldl (constraintsInner i) c) c).length = c.length := by
  have inner : ∀ (i : Nat) (l : List Nat) (c : List (List Nat)), (l.foldl (constraintsInner i) c).length = c.length := by
    intro i l
    induction l with
    | nil => intro c; rfl
    | cons j l ih => intro c; rw [List.foldl_cons, ih]; simp [constraintsInner]
  induction l generalizing c with
  | nil => rfl
  | cons i l ih => rw [List.foldl_cons, ih, inner]

theorem get {k : Nat} (hk : k < 324) : constraints[k]? = some ((List.range 9).map (entry k)) := by
  unfold constraints
  rw [all_get hk _ List.nodup_range fun i hi => List.mem_range.mp hi, if_pos (List.mem_range.mpr (Nat.mod_lt _ (by decide))),
    List.getElem?_replicate, if_pos hk]
  rfl

end Table

theorem constraints_eq : constraints = (List.range 81).map cellCol ++ (List.range 81).map rowCol ++
    (List.range 81).map colCol ++ (List.range 81).map boxCol := by
  have hl : constraints.length = 324 := by unfold constraints; rw [Table.all_length, List.length_replicate]
  apply List.ext_getElem?
  intro k
  by_cases hk : k < 324
  · rw [Table.get hk]
    simp only [List.getElem?_append, List.length_append, List.length_map, List.length_range, List.getElem?_map]
    by_cases h1 : k < 81
    · rw [if_pos (by omega), if_pos (by omega), if_pos h1, List.getElem?_range h1]
      simp [Table.entry, h1, cellCol]
    · by_cases h2 : k < 162
      · rw [if_pos (by omega), if_pos (by omega), if_neg h1, List.getElem?_range (by omega)]
        simp [Table.entry, h1, h2, rowCol]
      · by_cases h3 : k < 243
        · rw [if_pos (by omega), if_neg (by omega), List.getElem?_range (by omega)]
          simp [Table.entry, h1, h2, h3, colCol]
        · rw [if_neg (by omega), List.getElem?_range (by omega)]
          simp [Table.entry, h1, h2, h3, boxCol]
  · rw [List.getElem?_eq_none (by omega), List.getElem?_eq_none]
    simp only [List.length_append, List.length_map, List.length_range]
    omega

end Sudoku
