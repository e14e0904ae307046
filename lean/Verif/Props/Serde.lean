import Verif.Proofs.Serde
import Mathlib.Data.List.Forall2

/-! C100: stored mazes. -/
namespace Serde.Props
open Maze Serde

/-- C100: a maze and its solution survive being stored and loaded, whichever kind of format is used. -/
theorem C100_maze (fm : Format) (grid : List MazeNode) (sol : List MazeDirection) :
    deVec deNode (serVec (serNode fm) grid) = .ok grid ∧ deVec deDir (serVec (serDir fm) sol) = .ok sol := by
  constructor
  · exact mapM_ser (fun a => by cases fm <;> rfl) grid
  · exact mapM_ser (fun a => by cases fm <;> cases a <;> rfl) sol

/-- C100, what is accepted as a cell: a map that gives `right` once and `down` once, in any order and with anything else
in between, or a sequence that begins with the two values. -/
theorem C100_node_iff (v : Value) (n : MazeNode) : deNode v = .ok n ↔
    (∃ es, v = .map es ∧ given "right" 0 es = [.bool n.right] ∧ given "down" 1 es = [.bool n.down]) ∨
    (∃ l, v = .seq (.bool n.right :: .bool n.down :: l)) := by
  cases v with
  | map es =>
    rw [deNode, visitMap_ok]
    simp [Once]
  | seq l =>
    rw [deNode]
    match l with
    | [] => simp [visitSeq]
    | [x] =>
      simp only [visitSeq]
      cases deBool x <;> simp [bind, Except.bind]
    | x :: y :: l =>
      simp only [visitSeq]
      cases hx : deBool x with
      | error e =>
        have : x ≠ .bool n.right := fun h => by rw [deBool_ok.2 h] at hx; cases hx
        simp [bind, Except.bind, this]
      | ok a =>
        rw [deBool_ok.1 hx]
        cases hy : deBool y with
        | error e =>
          have : y ≠ .bool n.down := fun h => by rw [deBool_ok.2 h] at hy; cases hy
          simp [bind, Except.bind, this]
        | ok b =>
          rw [deBool_ok.1 hy]
          cases n
          simp [bind, Except.bind]
  | _ => simp [deNode]

/-- C100, what is accepted as a direction: its name or its position, without any payload. -/
theorem C100_dir_iff (v : Value) (d : MazeDirection) : deDir v = .ok d ↔ ∃ fm, v = serDir fm d := by
  constructor
  · intro h
    unfold deDir at h
    split at h
    · rename_i k p
      cases hk : variantOf k with
      | error e => rw [hk] at h; cases h
      | ok d' =>
        rw [hk] at h
        cases p with
        | unit =>
          have : d' = d := by injection h
          subst this
          unfold variantOf at hk
          split at hk <;> cases hk
          · exact ⟨.compact, rfl⟩
          · exact ⟨.compact, rfl⟩
          · exact ⟨.compact, rfl⟩
          · exact ⟨.compact, rfl⟩
          · exact ⟨.named, rfl⟩
          · exact ⟨.named, rfl⟩
          · exact ⟨.named, rfl⟩
          · exact ⟨.named, rfl⟩
        | _ => cases h
    · cases h
  · rintro ⟨fm, rfl⟩
    cases fm <;> cases d <;> rfl

/-- C100, whole mazes: loading succeeds exactly if the data is a sequence every element of which is accepted as the cell at
this place; in particular the number of cells is that of the elements. -/
theorem C100_grid_iff {α : Type} (f : Value → Except DeError α) (v : Value) (xs : List α) : deVec f v = .ok xs ↔
    ∃ l, v = .seq l ∧ List.Forall₂ (fun u x => f u = .ok x) l xs := by
  have key : ∀ (l : List Value) (xs : List α), l.mapM f = .ok xs ↔ List.Forall₂ (fun u x => f u = .ok x) l xs := by
    intro l
    induction l with
    | nil =>
      intro xs
      constructor
      · intro h
        have : [] = xs := by injection h
        subst this; exact .nil
      · intro h; cases h; rfl
    | cons u l ih =>
      intro xs
      rw [List.mapM_cons]
      cases hu : f u with
      | error e =>
        constructor
        · exact nofun
        · intro h; cases h with | cons h _ => rw [hu] at h; cases h
      | ok a =>
        cases hl : l.mapM f with
        | error e =>
          constructor
          · exact nofun
          · intro h; cases h with | cons _ h => rw [(ih _).2 h] at hl; cases hl
        | ok as =>
          constructor
          · intro h
            have : a :: as = xs := by injection h
            subst this
            exact .cons hu ((ih as).1 hl)
          · intro h
            cases h with
            | cons h1 h2 =>
              rw [hu] at h1; cases h1
              rw [(ih _).2 h2] at hl; cases hl
              rfl
  unfold deVec
  split
  · rename_i l
    rw [key]
    exact ⟨fun h => ⟨l, rfl, h⟩, fun ⟨l', e, h⟩ => by injection e with e; rw [e]; exact h⟩
  · rename_i h
    exact ⟨nofun, fun ⟨l, e, _⟩ => absurd e (h l)⟩

/-- C100, different mazes are stored differently. -/
theorem C100_injective (fm : Format) (g g' : List MazeNode) (h : serVec (serNode fm) g = serVec (serNode fm) g') : g = g' := by
  have h1 := (C100_maze fm g []).1
  rw [h, (C100_maze fm g' []).1] at h1
  injection h1 with h1
  exact h1.symm

/-- Fields in the other order and an unknown one. -/
example : deNode (.map [(.name "down", .bool true), (.name "left", .other 3), (.name "right", .bool false)]) =
    .ok ⟨false, true⟩ := rfl
example : deNode (.map [(.name "down", .bool true)]) = .error (.missingField "right") := rfl
example : deNode (.map [(.name "right", .bool true), (.index 0, .bool true)]) = .error (.duplicateField "right") := rfl
example : deDir (.variant (.name "right") .unit) = .error (.unknownVariant "right") := rfl

end Serde.Props
