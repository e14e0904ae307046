import Verif.Base

/-!
Programs that count their steps. `Counted α` is `Prog` with a counter; `tick n` adds `n` to it.
-/

/-- A program whose result comes with the number of steps made. -/
def Counted (α : Type) : Type := Prog (α × Nat)

namespace Counted

/-- No steps. -/
def ret {α : Type} (a : α) : Counted α := Prog.ok (a, 0)

/-- One program after the other: the steps add up. -/
def andThen {α β : Type} (x : Counted α) (f : α → Counted β) : Counted β :=
  Prog.bind x fun r => Prog.bind (f r.1) fun s => Prog.ok (s.1, r.2 + s.2)

instance : Monad Counted where
  pure := ret
  bind := andThen

/-- `n` steps. -/
def tick (n : Nat) : Counted Unit := Prog.ok ((), n)

/-- A program that is not counted. -/
def lift {α : Type} (x : Prog α) : Counted α := Prog.bind x fun a => Prog.ok (a, 0)

instance : MonadLift Prog Counted where
  monadLift := lift

/-- `for` over a list fixed in advance. -/
def forIn {σ α : Type} (xs : List α) (s : σ) (body : σ → α → Counted σ) : Counted σ :=
  match xs with
  | [] => ret s
  | x :: xs => andThen (body s x) fun s => forIn xs s body

/-- `loop`: see `Base.lean`. -/
def loop {σ α : Type} (body : σ → Counted (σ ⊕ α)) (s : σ) : Prog (α × Nat) := do
  let r ← (body s : Prog ((σ ⊕ α) × Nat))
  match r with
  | (.inl s', t) => do
    let r ← loop body s'
    return (r.1, t + r.2)
  | (.inr a, t) => return (a, t)
partial_fixpoint

end Counted
