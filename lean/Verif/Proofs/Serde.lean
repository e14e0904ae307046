import Verif.Model.Serde

/-! Lemmas for C100. -/
namespace Serde.Props
open Maze Serde

theorem mapM_ser {α : Type} {f : Value → Except DeError α} {g : α → Value} (h : ∀ a, f (g a) = .ok a) (l : List α) :
    (l.map g).mapM f = .ok l := by
  induction l with
  | nil => rfl
  | cons a l ih => rw [List.map_cons, List.mapM_cons, h, ih]; rfl

/-- The values given for a field under its name or its position. -/
def given (name : String) (i : Nat) (es : List (Key × Value)) : List Value :=
  (es.filter fun e => e.1 = .name name ∨ e.1 = .index i).map (·.2)

theorem fieldOf_cases (k : Key) :
    (fieldOf k = .right ∧ (k = .name "right" ∨ k = .index 0)) ∨ (fieldOf k = .down ∧ (k = .name "down" ∨ k = .index 1)) ∨
    (fieldOf k = .ignore ∧ k ≠ .name "right" ∧ k ≠ .index 0 ∧ k ≠ .name "down" ∧ k ≠ .index 1) := by
  unfold fieldOf
  split
  · exact .inl ⟨rfl, .inr rfl⟩
  · exact .inr (.inl ⟨rfl, .inr rfl⟩)
  · rename_i n h0 h1
    exact .inr (.inr ⟨rfl, nofun, fun e => by injection e with e; exact h0 e, nofun, fun e => by injection e with e; exact h1 e⟩)
  · exact .inl ⟨rfl, .inl rfl⟩
  · exact .inr (.inl ⟨rfl, .inl rfl⟩)
  · rename_i s h0 h1
    exact .inr (.inr ⟨rfl, fun e => by injection e with e; exact h0 e, nofun, fun e => by injection e with e; exact h1 e, nofun⟩)

theorem deBool_ok {v : Value} {b : Bool} : deBool v = .ok b ↔ v = .bool b := by
  unfold deBool
  split
  · constructor
    · intro e; injection e with e; rw [e]
    · intro e; injection e with e; rw [e]
  · rename_i h
    exact ⟨nofun, fun e => absurd e (h b)⟩

/-- What is known of a field before and what the rest of the map gives, together exactly one value. -/
def Once (o : Option Bool) (vs : List Value) (b : Bool) : Prop :=
  (o.map Value.bool).toList ++ vs = [.bool b]

theorem visitMap_ok (n : MazeNode) : ∀ (es : List (Key × Value)) (r d : Option Bool), visitMap es r d = .ok n ↔
    Once r (given "right" 0 es) n.right ∧ Once d (given "down" 1 es) n.down
  | [], r, d => by
    cases r <;> cases d <;> simp [visitMap, Once, given]
    rename_i a b
    cases n
    simp
  | (k, v) :: es, r, d => by
    rw [visitMap]
    rcases fieldOf_cases k with ⟨e, hk⟩ | ⟨e, hk⟩ | ⟨e, h1, h2, h3, h4⟩
    · have g1 : given "right" 0 ((k, v) :: es) = v :: given "right" 0 es := by
        unfold given; rw [List.filter_cons_of_pos (by simpa using hk)]; rfl
      have g2 : given "down" 1 ((k, v) :: es) = given "down" 1 es := by
        unfold given; rw [List.filter_cons_of_neg (by rcases hk with rfl | rfl <;> simp)]
      rw [e, g1, g2]
      cases r with
      | some x => simp [Once]
      | none =>
        simp only [Option.isSome_none, Bool.false_eq_true, if_false]
        cases hb : deBool v with
        | error er =>
          constructor
          · exact nofun
          · rintro ⟨h, _⟩
            simp only [Once, Option.map_none, Option.toList_none, List.nil_append, List.cons.injEq] at h
            rw [deBool_ok.2 h.1] at hb; cases hb
        | ok b =>
          rw [show ((Except.ok b : Except DeError Bool) >>= fun b => visitMap es (some b) d) = visitMap es (some b) d from rfl,
            visitMap_ok n es]
          rw [deBool_ok.1 hb]
          simp [Once]
    · have g1 : given "down" 1 ((k, v) :: es) = v :: given "down" 1 es := by
        unfold given; rw [List.filter_cons_of_pos (by simpa using hk)]; rfl
      have g2 : given "right" 0 ((k, v) :: es) = given "right" 0 es := by
        unfold given; rw [List.filter_cons_of_neg (by rcases hk with rfl | rfl <;> simp)]
      rw [e, g1, g2]
      cases d with
      | some x => simp [Once]
      | none =>
        simp only [Option.isSome_none, Bool.false_eq_true, if_false]
        cases hb : deBool v with
        | error er =>
          constructor
          · exact nofun
          · rintro ⟨_, h⟩
            simp only [Once, Option.map_none, Option.toList_none, List.nil_append, List.cons.injEq] at h
            rw [deBool_ok.2 h.1] at hb; cases hb
        | ok b =>
          rw [show ((Except.ok b : Except DeError Bool) >>= fun b => visitMap es r (some b)) = visitMap es r (some b) from rfl,
            visitMap_ok n es]
          rw [deBool_ok.1 hb]
          simp [Once]
    · have g1 : given "right" 0 ((k, v) :: es) = given "right" 0 es := by
        unfold given; rw [List.filter_cons_of_neg (by simpa using ⟨h1, h2⟩)]
      have g2 : given "down" 1 ((k, v) :: es) = given "down" 1 es := by
        unfold given; rw [List.filter_cons_of_neg (by simpa using ⟨h3, h4⟩)]
      rw [e, g1, g2]
      exact visitMap_ok n es r d

end Serde.Props
