import Verif.Spec.Counted

/-! Helper lemmas: costs of counted programs. -/
namespace Counted

/-- `y` does what `x` does, `Q` holds of the result, and `y` makes at most `n` steps if it returns. -/
def Costs {α : Type} (x : Prog α) (y : Counted α) (Q : α → Prop) (n : Nat) : Prop :=
  match x with
  | .ok a => Q a ∧ ∃ t ≤ n, y = Prog.ok (a, t)
  | .panic => y = Prog.panic
  | .ub => y = Prog.ub
  | .diverge => y = Prog.diverge

section
variable {α β σ : Type} {x : Prog α} {y : Counted α} {Q : α → Prop} {n : Nat}

theorem Costs.mono {Q' : α → Prop} {n' : Nat} (h : Costs x y Q n) (hQ : ∀ a, x = .ok a → Q a → Q' a) (hn : n ≤ n') :
    Costs x y Q' n' := by
  cases x with
  | ok a => obtain ⟨h1, t, h2, h3⟩ := h; exact ⟨hQ a rfl h1, t, Nat.le_trans h2 hn, h3⟩
  | _ => exact h

theorem Costs.le {n' : Nat} (h : Costs x y Q n) (hn : n ≤ n') : Costs x y Q n' := h.mono (fun _ _ h => h) hn

theorem Costs.ret {a : α} (h : Q a) : Costs (.ok a) (pure a) Q 0 := ⟨h, 0, Nat.le_refl 0, rfl⟩

theorem Costs.lift (x : Prog α) : Costs x (liftM x : Counted α) (fun a => x = .ok a) 0 := by
  cases x with
  | ok a => exact ⟨rfl, 0, Nat.le_refl 0, rfl⟩
  | _ => exact rfl

theorem Costs.bind {f : α → Prog β} {g : α → Counted β} {Q' : β → Prop} {m : Nat} (h : Costs x y Q n)
    (hf : ∀ a, x = .ok a → Q a → Costs (f a) (g a) Q' m) : Costs (x >>= f) (y >>= g) Q' (n + m) := by
  cases x with
  | ok a =>
    obtain ⟨h1, t, h2, rfl⟩ := h
    have := hf a rfl h1
    show Costs (f a) (Prog.bind (g a) fun s => Prog.ok (s.1, t + s.2)) Q' (n + m)
    revert this
    cases f a with
    | ok b =>
      rintro ⟨h3, u, h4, e⟩
      rw [e]
      exact ⟨h3, t + u, by omega, rfl⟩
    | panic => intro e; rw [e]; exact rfl
    | ub => intro e; rw [e]; exact rfl
    | diverge => intro e; rw [e]; exact rfl
  | panic => obtain rfl := h; exact rfl
  | ub => obtain rfl := h; exact rfl
  | diverge => obtain rfl := h; exact rfl

theorem Costs.tick {k : Nat} (h : Costs x y Q n) : Costs x (tick k >>= fun _ => y) Q (k + n) := by
  have := Costs.bind (x := Prog.ok ()) (y := Counted.tick k) (Q := fun _ => True) (n := k) (f := fun _ => x) (g := fun _ => y)
    (Q' := Q) (m := n) ⟨trivial, k, Nat.le_refl k, rfl⟩ fun _ _ _ => h
  exact this

theorem Costs.forIn {I : σ → Prop} {body : σ → α → Prog σ} {body' : σ → α → Counted σ} {xs : List α} {k : Nat}
    (h : ∀ s, ∀ x ∈ xs, I s → Costs (body s x) (body' s x) I k) (s : σ) (hs : I s) :
    Costs (forIn' xs s body) (Counted.forIn xs s body') I (xs.length * k) := by
  induction xs generalizing s with
  | nil => exact (Costs.ret hs).le (by simp)
  | cons x xs ih =>
    refine Costs.le (Costs.bind (h s x (by simp) hs) fun s' _ hs' => ih (fun s y hy => h s y (by simp [hy])) s' hs') ?_
    rw [List.length_cons, Nat.add_mul]; omega

/-- A loop with a measure: the invariant holds, each turn costs at most `k`. -/
theorem Costs.loop {I : σ → Prop} {μ : σ → Nat} {body : σ → Prog (σ ⊕ α)} {body' : σ → Counted (σ ⊕ α)} {k : Nat}
    (h : ∀ s, I s → Costs (body s) (body' s) (fun r => match r with | .inl s' => I s' ∧ μ s' < μ s | .inr a => Q a) k)
    (s : σ) (hs : I s) : Costs (_root_.loop body s) (Counted.loop body' s) Q ((μ s + 1) * k) := by
  generalize hm : μ s = m
  induction m using Nat.strongRecOn generalizing s with
  | ind m ih =>
    have hb := h s hs
    rw [_root_.loop, Counted.loop]
    revert hb
    cases body s with
    | ok r =>
      cases r with
      | inl s' =>
        rintro ⟨⟨h1, h2⟩, t, h3, e⟩
        have h4 := ih (μ s') (by omega) s' h1 rfl
        rw [e]
        have hle : (μ s' + 1) * k + k ≤ (m + 1) * k := by
          have : μ s' + 1 + 1 ≤ m + 1 := by omega
          calc (μ s' + 1) * k + k = (μ s' + 1 + 1) * k := (Nat.succ_mul _ _).symm
            _ ≤ (m + 1) * k := Nat.mul_le_mul_right k this
        simp only [Prog.ok_bind]
        revert h4
        cases _root_.loop body s' with
        | ok a =>
          rintro ⟨h5, u, h6, e'⟩
          rw [e']
          exact ⟨h5, t + u, by omega, rfl⟩
        | panic => intro e; rw [e]; exact rfl
        | ub => intro e; rw [e]; exact rfl
        | diverge => intro e; rw [e]; exact rfl
      | inr a =>
        rintro ⟨h1, t, h3, e⟩
        rw [e]
        exact ⟨h1, t, by rw [Nat.add_mul, Nat.one_mul]; omega, rfl⟩
    | panic => intro e; rw [e]; exact rfl
    | ub => intro e; rw [e]; exact rfl
    | diverge => intro e; rw [e]; exact rfl

end
end Counted
