import Verif.Spec.Sudoku

/-! Symmetries of sudoku: rearrangements of the cells that map rows, columns and boxes to rows, columns and boxes,
together with a renaming of the digits. -/
namespace Sudoku.Spec

/-- The nine cells of row `i`, of column `j`, of the box in box row `a` and box column `b`. -/
def rowCells (i : Nat) : List Nat := (List.range 9).map fun j => 9 * i + j
def colCells (j : Nat) : List Nat := (List.range 9).map fun i => 9 * i + j
def boxCells (a b : Nat) : List Nat := (List.range 9).map fun k => 9 * (3 * a + k / 3) + (3 * b + k % 3)

/-- All 27 rows, columns and boxes. -/
def units : List (List Nat) :=
  (List.range 9).map rowCells ++ (List.range 9).map colCells ++ (List.range 9).map fun k => boxCells (k / 3) (k % 3)

/-- `f` maps every row, column and box onto a row, column or box. -/
def KeepsUnits (f : Nat → Nat) : Prop := ∀ u ∈ units, ∃ v ∈ units, (u.map f).Perm v

instance (f : Nat → Nat) : Decidable (KeepsUnits f) := inferInstanceAs (Decidable (∀ u ∈ units, ∃ v ∈ units, (u.map f).Perm v))

/-- A rearrangement of the cells and a renaming of the digits, with their inverses. -/
structure Symmetry where
  cell : Nat → Nat
  cellInv : Nat → Nat
  digit : UInt8 → UInt8
  digitInv : UInt8 → UInt8
  cell_lt : ∀ i < 81, cell i < 81
  cellInv_lt : ∀ i < 81, cellInv i < 81
  cell_inv : ∀ i < 81, cell (cellInv i) = i
  inv_cell : ∀ i < 81, cellInv (cell i) = i
  units : KeepsUnits cell
  unitsInv : KeepsUnits cellInv
  zero : digit 0 = 0
  zeroInv : digitInv 0 = 0
  digits : ∀ d ∈ Spec.digits, digit d ∈ Spec.digits
  digitsInv : ∀ d ∈ Spec.digits, digitInv d ∈ Spec.digits
  digit_inv : ∀ d ∈ Spec.digits, digit (digitInv d) = d
  inv_digit : ∀ d ∈ Spec.digits, digitInv (digit d) = d

/-- The rearranged grid: cell `i` shows the renamed digit of cell `cell i`. -/
def Symmetry.move (S : Symmetry) (g : List UInt8) : List UInt8 :=
  (List.range 81).map fun i => S.digit ((g[S.cell i]?).getD 0)

/-- The opposite rearrangement. -/
def Symmetry.inv (S : Symmetry) : Symmetry where
  cell := S.cellInv
  cellInv := S.cell
  digit := S.digitInv
  digitInv := S.digit
  cell_lt := S.cellInv_lt
  cellInv_lt := S.cell_lt
  cell_inv := S.inv_cell
  inv_cell := S.cell_inv
  units := S.unitsInv
  unitsInv := S.units
  zero := S.zeroInv
  zeroInv := S.zero
  digits := S.digitsInv
  digitsInv := S.digits
  digit_inv := S.inv_digit
  inv_digit := S.digit_inv

/-- One rearrangement after another. -/
def Symmetry.comp (S T : Symmetry) : Symmetry where
  cell := fun i => T.cell (S.cell i)
  cellInv := fun i => S.cellInv (T.cellInv i)
  digit := fun d => S.digit (T.digit d)
  digitInv := fun d => T.digitInv (S.digitInv d)
  cell_lt := fun i hi => T.cell_lt _ (S.cell_lt i hi)
  cellInv_lt := fun i hi => S.cellInv_lt _ (T.cellInv_lt i hi)
  cell_inv := fun i hi => by rw [S.cell_inv _ (T.cellInv_lt i hi), T.cell_inv i hi]
  inv_cell := fun i hi => by rw [T.inv_cell _ (S.cell_lt i hi), S.inv_cell i hi]
  units := fun u hu => by
    obtain ⟨v, hv, h1⟩ := S.units u hu
    obtain ⟨w, hw, h2⟩ := T.units v hv
    refine ⟨w, hw, ?_⟩
    have := (h1.map T.cell).trans h2
    rwa [List.map_map] at this
  unitsInv := fun u hu => by
    obtain ⟨v, hv, h1⟩ := T.unitsInv u hu
    obtain ⟨w, hw, h2⟩ := S.unitsInv v hv
    refine ⟨w, hw, ?_⟩
    have := (h1.map S.cellInv).trans h2
    rwa [List.map_map] at this
  zero := by rw [T.zero, S.zero]
  zeroInv := by rw [S.zeroInv, T.zeroInv]
  digits := fun d hd => S.digits _ (T.digits d hd)
  digitsInv := fun d hd => T.digitsInv _ (S.digitsInv d hd)
  digit_inv := fun d hd => by rw [T.digit_inv _ (S.digitsInv d hd), S.digit_inv d hd]
  inv_digit := fun d hd => by rw [S.inv_digit _ (T.digits d hd), T.inv_digit d hd]

/-- A rearrangement of the cells only. -/
def Symmetry.ofCells (f g : Nat → Nat) (h : (∀ i < 81, f i < 81 ∧ g i < 81 ∧ f (g i) = i ∧ g (f i) = i) ∧
    KeepsUnits f ∧ KeepsUnits g) : Symmetry where
  cell := f
  cellInv := g
  digit := id
  digitInv := id
  cell_lt := fun i hi => (h.1 i hi).1
  cellInv_lt := fun i hi => (h.1 i hi).2.1
  cell_inv := fun i hi => (h.1 i hi).2.2.1
  inv_cell := fun i hi => (h.1 i hi).2.2.2
  units := h.2.1
  unitsInv := h.2.2
  zero := rfl
  zeroInv := rfl
  digits := fun _ h => h
  digitsInv := fun _ h => h
  digit_inv := fun _ _ => rfl
  inv_digit := fun _ _ => rfl

/-- A renaming of the digits only. -/
def Symmetry.ofDigits (f g : UInt8 → UInt8) (h : f 0 = 0 ∧ g 0 = 0 ∧
    ∀ d ∈ Spec.digits, f d ∈ Spec.digits ∧ g d ∈ Spec.digits ∧ f (g d) = d ∧ g (f d) = d) : Symmetry where
  cell := id
  cellInv := id
  digit := f
  digitInv := g
  cell_lt := fun _ h => h
  cellInv_lt := fun _ h => h
  cell_inv := fun _ _ => rfl
  inv_cell := fun _ _ => rfl
  units := fun u hu => ⟨u, hu, by rw [List.map_id]⟩
  unitsInv := fun u hu => ⟨u, hu, by rw [List.map_id]⟩
  zero := h.1
  zeroInv := h.2.1
  digits := fun d hd => (h.2.2 d hd).1
  digitsInv := fun d hd => (h.2.2 d hd).2.1
  digit_inv := fun d hd => (h.2.2 d hd).2.2.1
  inv_digit := fun d hd => (h.2.2 d hd).2.2.2

/-- A bijection of the nine rows that keeps the rows of a band together. -/
structure BandPerm (f g : Nat → Nat) : Prop where
  inv : ∀ i < 9, f i < 9 ∧ g i < 9 ∧ f (g i) = i ∧ g (f i) = i
  bands : ∀ i < 9, ∀ j < 9, i / 3 = j / 3 → f i / 3 = f j / 3
  bandsInv : ∀ i < 9, ∀ j < 9, i / 3 = j / 3 → g i / 3 = g j / 3

theorem BandPerm.symm {f g : Nat → Nat} (h : BandPerm f g) : BandPerm g f where
  inv := fun i hi => ⟨(h.inv i hi).2.1, (h.inv i hi).1, (h.inv i hi).2.2.2, (h.inv i hi).2.2.1⟩
  bands := h.bandsInv
  bandsInv := h.bands

/-- `f` on the numbers of the rows, the columns unchanged. -/
def onRows (f : Nat → Nat) (c : Nat) : Nat := 9 * f (c / 9) + c % 9

theorem mem_rowCells {i c : Nat} (hi : i < 9) : c ∈ rowCells i ↔ c < 81 ∧ c / 9 = i := by
  simp only [rowCells, List.mem_map, List.mem_range]
  exact ⟨by rintro ⟨j, hj, rfl⟩; omega, fun h => ⟨c % 9, by omega, by omega⟩⟩

theorem mem_colCells {j c : Nat} (hj : j < 9) : c ∈ colCells j ↔ c < 81 ∧ c % 9 = j := by
  simp only [colCells, List.mem_map, List.mem_range]
  exact ⟨by rintro ⟨i, hi, rfl⟩; omega, fun h => ⟨c / 9, by omega, by omega⟩⟩

theorem mem_boxCells {a b c : Nat} (ha : a < 3) (hb : b < 3) : c ∈ boxCells a b ↔ c < 81 ∧ c / 9 / 3 = a ∧ c % 9 / 3 = b := by
  simp only [boxCells, List.mem_map, List.mem_range]
  refine ⟨by rintro ⟨k, hk, rfl⟩; omega, fun h => ⟨3 * (c / 9 % 3) + c % 9 % 3, by omega, ?_⟩⟩
  have h1 : (3 * (c / 9 % 3) + c % 9 % 3) / 3 = c / 9 % 3 := by omega
  have h2 : (3 * (c / 9 % 3) + c % 9 % 3) % 3 = c % 9 % 3 := by omega
  rw [h1, h2]; omega

theorem units_nodup : ∀ u ∈ units, u.Nodup := by decide +kernel

theorem mem_units {u : List Nat} : u ∈ units ↔ (∃ i < 9, u = rowCells i) ∨ (∃ j < 9, u = colCells j) ∨
    ∃ a < 3, ∃ b < 3, u = boxCells a b := by
  simp only [units, List.mem_append, List.mem_map, List.mem_range, or_assoc]
  refine or_congr ⟨fun ⟨i, h, e⟩ => ⟨i, h, e.symm⟩, fun ⟨i, h, e⟩ => ⟨i, h, e.symm⟩⟩
    (or_congr ⟨fun ⟨i, h, e⟩ => ⟨i, h, e.symm⟩, fun ⟨i, h, e⟩ => ⟨i, h, e.symm⟩⟩ ⟨?_, ?_⟩)
  · rintro ⟨k, hk, rfl⟩; exact ⟨k / 3, by omega, k % 3, by omega, rfl⟩
  · rintro ⟨a, ha, b, hb, rfl⟩
    refine ⟨3 * a + b, by omega, ?_⟩
    rw [show (3 * a + b) / 3 = a by omega, show (3 * a + b) % 3 = b by omega]

theorem onRows_inv {f g : Nat → Nat} (h : BandPerm f g) {c : Nat} (hc : c < 81) :
    onRows f c < 81 ∧ onRows g (onRows f c) = c ∧ onRows f c / 9 = f (c / 9) ∧ onRows f c % 9 = c % 9 := by
  obtain ⟨h1, h2, h3, h4⟩ := h.inv (c / 9) (by omega)
  have e1 : onRows f c / 9 = f (c / 9) := by unfold onRows; omega
  have e2 : onRows f c % 9 = c % 9 := by unfold onRows; omega
  refine ⟨by unfold onRows; omega, ?_, e1, e2⟩
  rw [onRows, e1, e2, h4]; omega

theorem onRows_units {f g : Nat → Nat} (h : BandPerm f g) : KeepsUnits (onRows f) := by
  have key : ∀ u v : List Nat, u ∈ units → v ∈ units → (∀ c < 81, c ∈ u ↔ onRows f c ∈ v) → (∀ c ∈ u, c < 81) → (∀ c ∈ v, c < 81) →
      (u.map (onRows f)).Perm v := by
    intro u v hu hv huv h81 h81'
    refine (List.perm_ext_iff_of_nodup ?_ (units_nodup v hv)).2 fun c => ?_
    · refine List.pairwise_map.2 ((units_nodup u hu).imp_of_mem fun {x y} hx hy hne e => hne ?_)
      rw [← (onRows_inv h (h81 x hx)).2.1, ← (onRows_inv h (h81 y hy)).2.1, e]
    · simp only [List.mem_map]
      constructor
      · rintro ⟨x, hx, rfl⟩; exact (huv x (h81 x hx)).1 hx
      · intro hc
        have := onRows_inv h.symm (h81' c hc)
        refine ⟨onRows g c, (huv _ this.1).2 ?_, this.2.1⟩
        rw [this.2.1]; exact hc
  intro u hu
  rcases mem_units.1 hu with ⟨i, hi, rfl⟩ | ⟨j, hj, rfl⟩ | ⟨a, ha, b, hb, rfl⟩
  · have hfi := (h.inv i hi).1
    have hv : rowCells (f i) ∈ units := mem_units.2 (.inl ⟨_, hfi, rfl⟩)
    refine ⟨_, hv, key _ _ hu hv (fun c hc => ?_) (fun c hc => ((mem_rowCells hi).1 hc).1)
      (fun c hc => ((mem_rowCells hfi).1 hc).1)⟩
    obtain ⟨h1, -, h3, -⟩ := onRows_inv h hc
    rw [mem_rowCells hi, mem_rowCells hfi, h3]
    refine ⟨fun ⟨_, e⟩ => ⟨h1, by rw [e]⟩, fun ⟨_, e⟩ => ⟨hc, ?_⟩⟩
    rw [← (h.inv (c / 9) (by omega)).2.2.2, e, (h.inv i hi).2.2.2]
  · refine ⟨_, hu, key _ _ hu hu (fun c hc => ?_) (fun c hc => ((mem_colCells hj).1 hc).1)
      (fun c hc => ((mem_colCells hj).1 hc).1)⟩
    obtain ⟨h1, -, -, h4⟩ := onRows_inv h hc
    rw [mem_colCells hj, mem_colCells hj, h4]
    exact ⟨fun ⟨_, e⟩ => ⟨h1, e⟩, fun ⟨_, e⟩ => ⟨hc, e⟩⟩
  · have hfa := (h.inv (3 * a) (by omega)).1
    have ha' : f (3 * a) / 3 < 3 := by omega
    have hv : boxCells (f (3 * a) / 3) b ∈ units := mem_units.2 (.inr (.inr ⟨_, ha', b, hb, rfl⟩))
    refine ⟨_, hv, key _ _ hu hv (fun c hc => ?_) (fun c hc => ((mem_boxCells ha hb).1 hc).1)
      (fun c hc => ((mem_boxCells ha' hb).1 hc).1)⟩
    obtain ⟨h1, -, h3, h4⟩ := onRows_inv h hc
    rw [mem_boxCells ha hb, mem_boxCells ha' hb, h3, h4]
    refine ⟨fun ⟨_, e, e'⟩ => ⟨h1, h.bands _ (by omega) _ (by omega) (by omega), e'⟩, fun ⟨_, e, e'⟩ => ⟨hc, ?_, e'⟩⟩
    have := h.bandsInv _ (h.inv (c / 9) (by omega)).1 _ hfa e
    rw [(h.inv (c / 9) (by omega)).2.2.2, (h.inv (3 * a) (by omega)).2.2.2] at this
    omega

/-- Rows permuted inside their bands, and the bands permuted: any bijection of the rows that keeps bands together. -/
def Symmetry.ofRows {f g : Nat → Nat} (h : BandPerm f g) : Symmetry :=
  .ofCells (onRows f) (onRows g) ⟨fun i hi =>
    ⟨(onRows_inv h hi).1, (onRows_inv h.symm hi).1, (onRows_inv h.symm hi).2.1, (onRows_inv h hi).2.1⟩,
    onRows_units h, onRows_units h.symm⟩

/-- Exchange of rows and columns. -/
def transposition : Symmetry := .ofCells (fun i => 9 * (i % 9) + i / 9) (fun i => 9 * (i % 9) + i / 9) (by decide +kernel)

/-- The same for columns: exchange rows and columns, permute the rows, exchange rows and columns again. -/
def Symmetry.ofCols {f g : Nat → Nat} (h : BandPerm f g) : Symmetry := transposition.comp ((Symmetry.ofRows h).comp transposition)

/-- A quarter turn. -/
def quarterTurn : Symmetry :=
  .ofCells (fun i => 9 * (8 - i % 9) + i / 9) (fun i => 9 * (i % 9) + (8 - i / 9)) (by decide +kernel)

/-- Mirror image (left and right exchanged). -/
def mirror : Symmetry := .ofCells (fun i => 9 * (i / 9) + (8 - i % 9)) (fun i => 9 * (i / 9) + (8 - i % 9)) (by decide +kernel)

/-- Exchange of the first two rows. -/
def swapRows : Symmetry :=
  .ofRows (f := fun i => if i = 0 then 1 else if i = 1 then 0 else i) (g := fun i => if i = 0 then 1 else if i = 1 then 0 else i)
    ⟨by decide, by decide, by decide⟩

/-- The first three rows go to the end. -/
def rotateBands : Symmetry := .ofCells (fun i => (i + 27) % 81) (fun i => (i + 54) % 81) (by decide +kernel)

/-- 1 becomes 2, 2 becomes 3, ..., 9 becomes 1. -/
def shiftDigits : Symmetry :=
  .ofDigits (fun d => if d = 0 then 0 else d % 9 + 1) (fun d => if d = 0 then 0 else (d + 7) % 9 + 1) (by decide +kernel)

end Sudoku.Spec
