import Verif.Spec.Nonogram

/-! Texts of rules for a `usize` of `sz` bytes; `Spec/Nonogram.lean` is the case of eight bytes. -/
namespace Nonogram.Spec

/-- `cs` is a `usize` literal with value `n`: decimal digits, at least one, optionally preceded by `+`. -/
def UsizeT (sz : Nat) (cs : List Char) (n : Nat) : Prop :=
  ∃ ds, (cs = ds ∨ cs = '+' :: ds) ∧ ds ≠ [] ∧ (∀ c ∈ ds, c.isDigit = true) ∧ Nat.ofDigitChars 10 ds 0 = n ∧ n < 2 ^ (8 * sz)

/-- The numbers of a rule, written with commas. -/
def NumbersT (sz : Nat) (text : List Char) (vs : List Nat) : Prop :=
  ∃ fields, Pieces ',' text fields ∧ List.Forall₂ (UsizeT sz) fields vs

/-- `f` is the first field of the rule that is not a number. -/
def BadFieldT (sz : Nat) (text f : List Char) : Prop :=
  ∃ pre post, Pieces ',' text (pre ++ f :: post) ∧ (∀ g ∈ pre, ∃ n, UsizeT sz g n) ∧ ¬ ∃ n, UsizeT sz f n

/-- What parsing a list of rules should yield. `size` measures the numbers of a rule. -/
def ParsesT (sz : Nat) (size : List Nat → Nat) (text : List Char) (bound : Nat) :
    Except NonogramError (List (List Nat)) → Prop
  | .ok rules => ∃ parts, Pieces ';' text parts ∧
      List.Forall₂ (fun part vs => NumbersT sz part vs ∧ size vs ≤ bound) parts rules
  | .error e => ∃ pre part post, Pieces ';' text (pre ++ part :: post) ∧
      (∀ p ∈ pre, ∃ vs, NumbersT sz p vs ∧ size vs ≤ bound) ∧
      ((∃ f, BadFieldT sz part f ∧ e = .InvalidRule f) ∨
       (∃ vs, NumbersT sz part vs ∧ bound < size vs ∧ e = .InvalidRuleDimension))

/-- Some sum computed while the rule is read does not fit into a `usize`. -/
def OverflowsT (sz : Nat) (text : List Char) : Prop :=
  ∃ pre post vs, Pieces ',' text (pre ++ post) ∧ List.Forall₂ (UsizeT sz) pre vs ∧
    (2 ^ (8 * sz) ≤ vs.sum ∨ (post = [] ∧ 2 ^ (8 * sz) ≤ minLength vs))

/-- On 64-bit targets these are the notions of `Spec/Nonogram.lean`. -/
theorem textT_64 : UsizeT 8 = Usize ∧ NumbersT 8 = Numbers ∧ BadFieldT 8 = BadField ∧ ParsesT 8 = Parses ∧
    OverflowsT 8 = Overflows := by
  refine ⟨rfl, rfl, rfl, ?_, rfl⟩
  funext s t b r
  cases r <;> rfl

end Nonogram.Spec
