import Verif.Model.Maze

/-!
The derived `Serialize` and `Deserialize` of `MazeNode` and `MazeDirection` (maze/mod.rs:28-32 and 43-49), modelled as the
code `serde_derive` generates for them, over serde's data model. A format (JSON, bincode, ...) turns values of the data model
into bytes and back; formats are not part of the repository and not modelled. They differ in whether a struct is a map with
field names or a sequence, and whether a variant is given by name or by index; both are covered (`Format`).
-/
namespace Serde
open Maze

/-- What identifies a field or a variant: a position or a name (`visit_u64`, `visit_str` of the generated field visitors). -/
inductive Key
  | index (n : Nat)
  | name (s : String)
  deriving DecidableEq

/-- The part of serde's data model that the generated code distinguishes; `other` stands for numbers, strings, ... -/
inductive Value
  | bool (b : Bool)
  | unit
  | other (n : Nat)
  | seq (l : List Value)
  | map (l : List (Key × Value))
  | variant (k : Key) (payload : Value)

/-- The errors of the generated code (`serde::de::Error`). -/
inductive DeError
  | invalidType
  | invalidLength (n : Nat)
  | duplicateField (s : String)
  | missingField (s : String)
  | unknownVariant (s : String)
  | invalidIndex (n : Nat)
  deriving DecidableEq

/-- Self-describing formats write field and variant names, compact formats write positions. -/
inductive Format
  | named
  | compact

/-- maze/mod.rs:28 `Serialize for MazeNode`: `serialize_struct` with the fields `right` and `down` in this order. -/
def serNode : Format → MazeNode → Value
  | .named, n => .map [(.name "right", .bool n.right), (.name "down", .bool n.down)]
  | .compact, n => .seq [.bool n.right, .bool n.down]

/-- maze/mod.rs:43 `Serialize for MazeDirection`: `serialize_unit_variant(.., index, name)`. -/
def serDir : Format → MazeDirection → Value
  | .named, .Right => .variant (.name "Right") .unit
  | .named, .Down => .variant (.name "Down") .unit
  | .named, .Left => .variant (.name "Left") .unit
  | .named, .Up => .variant (.name "Up") .unit
  | .compact, .Right => .variant (.index 0) .unit
  | .compact, .Down => .variant (.index 1) .unit
  | .compact, .Left => .variant (.index 2) .unit
  | .compact, .Up => .variant (.index 3) .unit

/-- `Serialize for Vec<T>`. -/
def serVec {α : Type} (f : α → Value) (l : List α) : Value := .seq (l.map f)

/-- `Deserialize for bool`. -/
def deBool : Value → Except DeError Bool
  | .bool b => .ok b
  | _ => .error .invalidType

/-- The fields of `MazeNode` as the generated field visitor sees them. -/
inductive Field
  | right
  | down
  | ignore

/-- maze/mod.rs:28: the field visitor; unknown fields are ignored (no `deny_unknown_fields`). -/
def fieldOf : Key → Field
  | .index 0 => .right
  | .index 1 => .down
  | .index _ => .ignore
  | .name "right" => .right
  | .name "down" => .down
  | .name _ => .ignore

/-- maze/mod.rs:28: `visit_seq`; elements after the second are left to the format. -/
def visitSeq : List Value → Except DeError MazeNode
  | [] => .error (.invalidLength 0)
  | v :: l => do
    let r ← deBool v
    match l with
    | [] => .error (.invalidLength 1)
    | w :: _ =>
      let d ← deBool w
      .ok { right := r, down := d }

/-- maze/mod.rs:28: `visit_map`, with the fields read so far. -/
def visitMap : List (Key × Value) → Option Bool → Option Bool → Except DeError MazeNode
  | [], none, _ => .error (.missingField "right")
  | [], some _, none => .error (.missingField "down")
  | [], some r, some d => .ok { right := r, down := d }
  | (k, v) :: l, r, d =>
    match fieldOf k with
    | .right => if r.isSome then .error (.duplicateField "right") else do
      let b ← deBool v
      visitMap l (some b) d
    | .down => if d.isSome then .error (.duplicateField "down") else do
      let b ← deBool v
      visitMap l r (some b)
    | .ignore => visitMap l r d

/-- maze/mod.rs:28 `Deserialize for MazeNode`. -/
def deNode : Value → Except DeError MazeNode
  | .seq l => visitSeq l
  | .map l => visitMap l none none
  | _ => .error .invalidType

/-- maze/mod.rs:43: the variant visitor. -/
def variantOf : Key → Except DeError MazeDirection
  | .index 0 => .ok .Right
  | .index 1 => .ok .Down
  | .index 2 => .ok .Left
  | .index 3 => .ok .Up
  | .index n => .error (.invalidIndex n)
  | .name "Right" => .ok .Right
  | .name "Down" => .ok .Down
  | .name "Left" => .ok .Left
  | .name "Up" => .ok .Up
  | .name s => .error (.unknownVariant s)

/-- maze/mod.rs:43 `Deserialize for MazeDirection`: `visit_enum`, then `unit_variant`. -/
def deDir : Value → Except DeError MazeDirection
  | .variant k p => do
    let d ← variantOf k
    match p with
    | .unit => .ok d
    | _ => .error .invalidType
  | _ => .error .invalidType

/-- `Deserialize for Vec<T>`: `visit_seq`, the first error ends it. -/
def deVec {α : Type} (f : Value → Except DeError α) : Value → Except DeError (List α)
  | .seq l => l.mapM f
  | _ => .error .invalidType

end Serde
