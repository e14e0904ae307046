import Verif.Spec.Nonogram

/-! A puzzle of two rows that is solved from left to right, two columns in a pass (C127). -/
namespace Nonogram.Spec

/-- `n` times two filled and two empty squares. -/
def bars : Nat → List Bool
  | 0 => []
  | n + 1 => true :: true :: false :: false :: bars n

/-- The upper row: a filled and an empty square, then bars. -/
def chainTop (k : Nat) : List Bool := true :: false :: bars k
/-- The lower row: two filled squares, then what the upper row leaves empty. -/
def chainBottom (k : Nat) : List Bool := true :: true :: (bars k).map not
/-- The picture, `4k + 2` columns and two rows. -/
def chain (k : Nat) : List Bool := chainTop k ++ chainBottom k

/-- The first column is filled, the others have one filled square. -/
def chainCols (k : Nat) : List (List Nat) := [2] :: List.replicate (4 * k + 1) [1]
/-- The blocks of the rows. -/
def chainRows (k : Nat) : List (List Nat) := [1 :: List.replicate k 2, List.replicate (k + 1) 2]

example : chain 2 = [true, false, true, true, false, false, true, true, false, false,
                     true, true, false, false, true, true, false, false, true, true] := by decide

end Nonogram.Spec
