/-
Outcome type, loops and checked primitives shared by all models.

Nothing in this file models a particular function of /repo; it fixes how Rust's *control* features
(panic, undefined behaviour, non-termination, indexing, fixed-width arithmetic) appear in the models.
-/

/-- Outcome of running a piece of Rust code.
* `ok a`    — normal return.
* `panic`   — a Rust panic (failed index, `expect`, `unreachable!`, overflow with checks on).
* `ub`      — undefined behaviour: access to freed, unallocated or uninitialised memory, double free.
* `diverge` — does not terminate. -/
inductive Prog (α : Type) where
  | ok (a : α)
  | panic
  | ub
  | diverge
  deriving DecidableEq, Repr

namespace Prog

def bind {α β : Type} (x : Prog α) (f : α → Prog β) : Prog β :=
  match x with
  | .ok a => f a
  | .panic => .panic
  | .ub => .ub
  | .diverge => .diverge

instance : Monad Prog where
  pure := Prog.ok
  bind := Prog.bind

@[simp] theorem pure_eq {α : Type} (a : α) : (pure a : Prog α) = .ok a := rfl
@[simp] theorem ok_bind {α β : Type} (a : α) (f : α → Prog β) : (Prog.ok a >>= f) = f a := rfl
@[simp] theorem panic_bind {α β : Type} (f : α → Prog β) : ((Prog.panic : Prog α) >>= f) = .panic := rfl
@[simp] theorem ub_bind {α β : Type} (f : α → Prog β) : ((Prog.ub : Prog α) >>= f) = .ub := rfl
@[simp] theorem diverge_bind {α β : Type} (f : α → Prog β) :
    ((Prog.diverge : Prog α) >>= f) = .diverge := rfl

instance : LawfulMonad Prog := LawfulMonad.mk'
  (id_map := fun x => by cases x <;> rfl)
  (pure_bind := fun _ _ => rfl)
  (bind_assoc := fun x _ _ => by cases x <;> rfl)

@[simp] theorem map_ok {α β : Type} (f : α → β) (a : α) : (f <$> (Prog.ok a)) = .ok (f a) := rfl

theorem bind_eq_ok {α β : Type} {x : Prog α} {f : α → Prog β} {b : β} :
    (x >>= f) = .ok b ↔ ∃ a, x = .ok a ∧ f a = .ok b := by
  cases x <;> simp

open Lean.Order in
instance {α : Type} : PartialOrder (Prog α) :=
  inferInstanceAs (PartialOrder (FlatOrder (Prog.diverge : Prog α)))
open Lean.Order in
instance {α : Type} : CCPO (Prog α) :=
  inferInstanceAs (CCPO (FlatOrder (Prog.diverge : Prog α)))

open Lean.Order in
instance : MonoBind Prog where
  bind_mono_left h := by
    cases h
    · exact FlatOrder.rel.bot
    · exact FlatOrder.rel.refl
  bind_mono_right {_ _ a _ _} h := by
    cases a
    · exact h _
    all_goals exact FlatOrder.rel.refl

end Prog

/-! ### `loop { .. }` / `while` -/

/-- Rust's `loop`/`while`: run `body` on the current state until it yields a result.
`.inl s'` = continue with state `s'`; `.inr a` = `break`/`return` with `a`. -/
def loop {σ α : Type} (body : σ → Prog (σ ⊕ α)) (s : σ) : Prog α := do
  match ← body s with
  | .inl s' => loop body s'
  | .inr a => pure a
partial_fixpoint

theorem loop_inl {σ α : Type} {body : σ → Prog (σ ⊕ α)} {s s' : σ} (h : body s = .ok (.inl s')) :
    loop body s = loop body s' := by
  rw [loop, h]; rfl

theorem loop_inr {σ α : Type} {body : σ → Prog (σ ⊕ α)} {s : σ} {a : α} (h : body s = .ok (.inr a)) :
    loop body s = .ok a := by
  rw [loop, h]; rfl

theorem loop_panic {σ α : Type} {body : σ → Prog (σ ⊕ α)} {s : σ} (h : body s = .panic) :
    loop body s = .panic := by
  rw [loop, h]; rfl

/-- Total-correctness rule: invariant `I`, variant `m`, postcondition `Q`. -/
theorem loop_spec {σ α : Type} {body : σ → Prog (σ ⊕ α)} (I : σ → Prop) (m : σ → Nat) (Q : α → Prop)
    (step : ∀ s, I s →
      (∃ s', body s = .ok (.inl s') ∧ I s' ∧ m s' < m s) ∨ (∃ a, body s = .ok (.inr a) ∧ Q a))
    (s : σ) (hs : I s) : ∃ a, loop body s = .ok a ∧ Q a := by
  generalize hn : m s = n
  induction n using Nat.strongRecOn generalizing s with
  | ind n ih =>
    rcases step s hs with ⟨s', hb, hI, hm⟩ | ⟨a, hb, hQ⟩
    · rw [loop_inl hb]; exact ih (m s') (hn ▸ hm) s' hI rfl
    · exact ⟨a, loop_inr hb, hQ⟩

/-! ### `for` over a list that is fixed before the loop starts -/

/-- `for x in xs { s = body(s, x) }` for an iterator whose items are fixed in advance. -/
def forIn' {σ α : Type} (xs : List α) (s : σ) (body : σ → α → Prog σ) : Prog σ :=
  match xs with
  | [] => .ok s
  | x :: xs => do
    let s ← body s x
    forIn' xs s body

@[simp] theorem forIn'_nil {σ α : Type} (s : σ) (body : σ → α → Prog σ) :
    forIn' [] s body = .ok s := rfl
theorem forIn'_cons {σ α : Type} (x : α) (xs : List α) (s : σ) (body : σ → α → Prog σ) :
    forIn' (x :: xs) s body = body s x >>= fun s => forIn' xs s body := rfl

theorem forIn'_append {σ α : Type} (xs ys : List α) (s : σ) (body : σ → α → Prog σ) :
    forIn' (xs ++ ys) s body = forIn' xs s body >>= fun s => forIn' ys s body := by
  induction xs generalizing s with
  | nil => rfl
  | cons x xs ih =>
    simp only [List.cons_append, forIn'_cons, bind_assoc, ih]

/-- Invariant rule for `forIn'`: `I` relates the items already consumed to the state. -/
theorem forIn'_spec {σ α : Type} (xs : List α) (body : σ → α → Prog σ) (I : List α → σ → Prop)
    (step : ∀ pre x post s, xs = pre ++ x :: post → I pre s → ∃ s', body s x = .ok s' ∧ I (pre ++ [x]) s')
    (s : σ) (hs : I [] s) : ∃ s', forIn' xs s body = .ok s' ∧ I xs s' := by
  suffices h : ∀ post pre s, xs = pre ++ post → I pre s →
      ∃ s', forIn' post s body = .ok s' ∧ I (pre ++ post) s' from by
    simpa using h xs [] s rfl hs
  intro post
  induction post with
  | nil => intro pre s _ hI; exact ⟨s, rfl, by simpa using hI⟩
  | cons x post ih =>
    intro pre s hxs hI
    obtain ⟨s', hb, hI'⟩ := step pre x post s hxs hI
    obtain ⟨s'', hf, hI''⟩ := ih (pre ++ [x]) s' (by simp [hxs]) hI'
    exact ⟨s'', by simp [forIn'_cons, hb, hf], by simpa using hI''⟩

/-! ### `Vec` indexing -/

/-- `v[i]` (read): panics out of range. -/
def getP {α : Type} (v : List α) (i : Nat) : Prog α :=
  match v[i]? with
  | some a => .ok a
  | none => .panic

/-- `v[i] = a` (write): panics out of range. -/
def setP {α : Type} (v : List α) (i : Nat) (a : α) : Prog (List α) :=
  if i < v.length then .ok (v.set i a) else .panic

theorem getP_ok {α : Type} {v : List α} {i : Nat} (h : i < v.length) : getP v i = .ok v[i] := by
  simp [getP, List.getElem?_eq_getElem h]

theorem getP_panic {α : Type} {v : List α} {i : Nat} (h : v.length ≤ i) : getP v i = .panic := by
  simp [getP, List.getElem?_eq_none h]

theorem setP_ok {α : Type} {v : List α} {i : Nat} {a : α} (h : i < v.length) :
    setP v i a = .ok (v.set i a) := by simp [setP, h]

/-- `Option::expect` / `Option::unwrap`. -/
def expectP {α : Type} : Option α → Prog α
  | some a => .ok a
  | none => .panic

@[simp] theorem expectP_some {α : Type} (a : α) : expectP (some a) = .ok a := rfl
@[simp] theorem expectP_none {α : Type} : expectP (none : Option α) = .panic := rfl

/-! ### Fixed-width unsigned arithmetic

`oc = true`: overflow checks on (debug profile) — overflow panics.
`oc = false`: overflow checks off (release profile) — overflow wraps. -/

/-- `a + b` at `bits` bits. -/
def addW (oc : Bool) (bits a b : Nat) : Prog Nat :=
  if a + b < 2 ^ bits then .ok (a + b) else if oc then .panic else .ok ((a + b) % 2 ^ bits)
/-- `a * b` at `bits` bits. -/
def mulW (oc : Bool) (bits a b : Nat) : Prog Nat :=
  if a * b < 2 ^ bits then .ok (a * b) else if oc then .panic else .ok ((a * b) % 2 ^ bits)
/-- `a - b` at `bits` bits. -/
def subW (oc : Bool) (bits a b : Nat) : Prog Nat :=
  if b ≤ a then .ok (a - b) else if oc then .panic else .ok ((2 ^ bits + a - b) % 2 ^ bits)

theorem addW_ok {oc : Bool} {bits a b : Nat} (h : a + b < 2 ^ bits) : addW oc bits a b = .ok (a + b) := by
  simp [addW, h]
theorem mulW_ok {oc : Bool} {bits a b : Nat} (h : a * b < 2 ^ bits) : mulW oc bits a b = .ok (a * b) := by
  simp [mulW, h]
theorem subW_ok {oc : Bool} {bits a b : Nat} (h : b ≤ a) : subW oc bits a b = .ok (a - b) := by
  simp [subW, h]

/-- `vec![x; n]`: panics ("capacity overflow") when the allocation would exceed `isize::MAX` bytes on a
64-bit target. Actual memory exhaustion (which aborts the process) is not modelled. -/
def vecRepeat {α : Type} (elemSize : Nat) (x : α) (n : Nat) : Prog (List α) :=
  if n * elemSize < 2 ^ 63 then .ok (List.replicate n x) else .panic
