import Verif.Proofs.Counted
import Verif.Spec.Steps

/-! Helper lemmas: counted programs that return, with a statement about result and number of steps. -/
namespace Counted

/-- Both programs return the same, `Q` holds of the result and the number of steps. -/
def Pays {α : Type} (x : Prog α) (y : Counted α) (Q : α → Nat → Prop) : Prop :=
  ∃ a t, x = .ok a ∧ y = Prog.ok (a, t) ∧ Q a t

section
variable {α β σ : Type} {x : Prog α} {y : Counted α} {Q : α → Nat → Prop}

theorem Pays.mono {Q' : α → Nat → Prop} (h : Pays x y Q) (hQ : ∀ a t, Q a t → Q' a t) : Pays x y Q' := by
  obtain ⟨a, t, h1, h2, h3⟩ := h
  exact ⟨a, t, h1, h2, hQ a t h3⟩

theorem Pays.ret {a : α} (h : Q a 0) : Pays (.ok a) (pure a) Q := ⟨a, 0, rfl, rfl, h⟩

theorem lift_ok {a : α} : (liftM (Prog.ok a) : Counted α) = pure a := rfl

theorem pure_bind' {a : α} (f : α → Counted β) : ((pure a : Counted α) >>= f) = f a := by
  show Prog.bind (f a) (fun s => Prog.ok (s.1, 0 + s.2)) = f a
  cases f a with
  | ok r => show Prog.ok (r.1, 0 + r.2) = Prog.ok r; rw [Nat.zero_add]
  | _ => rfl

theorem ok_bind {a : α} {t : Nat} (f : α → Counted β) :
    @Bind.bind Counted _ α β (Prog.ok (a, t)) f = Prog.bind (f a) fun s => Prog.ok (s.1, t + s.2) := rfl

theorem lift_bind {a : α} (f : α → Counted β) : ((liftM (Prog.ok a) : Counted α) >>= f) = f a := pure_bind' f

theorem Pays.bind {f : α → Prog β} {g : α → Counted β} {Q' : β → Nat → Prop} (h : Pays x y Q)
    (hf : ∀ a t, x = .ok a → Q a t → Pays (f a) (g a) fun b u => Q' b (t + u)) : Pays (x >>= f) (y >>= g) Q' := by
  obtain ⟨a, t, rfl, rfl, h3⟩ := h
  obtain ⟨b, u, h4, h5, h6⟩ := hf a t rfl h3
  refine ⟨b, t + u, by rw [Prog.ok_bind]; exact h4, ?_, h6⟩
  show Prog.bind (g a) (fun s => Prog.ok (s.1, t + s.2)) = _
  rw [h5]; rfl

theorem Pays.tick {k : Nat} (h : Pays x y fun a t => Q a (k + t)) : Pays x (tick k >>= fun _ => y) Q := by
  obtain ⟨a, t, h1, rfl, h3⟩ := h
  exact ⟨a, k + t, h1, rfl, h3⟩

theorem loop_inl {body : σ → Counted (σ ⊕ α)} {s s' : σ} {t : Nat} (h : body s = Prog.ok (.inl s', t)) :
    Counted.loop body s = Prog.bind (Counted.loop body s') fun r => Prog.ok (r.1, t + r.2) := by
  rw [Counted.loop, h]; rfl

theorem loop_inr {body : σ → Counted (σ ⊕ α)} {s : σ} {a : α} {t : Nat} (h : body s = Prog.ok (.inr a, t)) :
    Counted.loop body s = Prog.ok (a, t) := by
  rw [Counted.loop, h]; rfl

/-- A loop with a variant; the invariant speaks about the steps made so far. -/
theorem Pays.loop {I : σ → Nat → Prop} {μ : σ → Nat} {body : σ → Prog (σ ⊕ α)} {body' : σ → Counted (σ ⊕ α)}
    (h : ∀ s t, I s t → Pays (body s) (body' s) fun r u => match r with
      | .inl s' => I s' (t + u) ∧ μ s' < μ s
      | .inr a => Q a (t + u))
    (s : σ) (t : Nat) (hs : I s t) : Pays (_root_.loop body s) (Counted.loop body' s) fun a u => Q a (t + u) := by
  generalize hm : μ s = m
  induction m using Nat.strongRecOn generalizing s t with
  | ind m ih =>
    obtain ⟨r, u, e1, e2, h3⟩ := h s t hs
    cases r with
    | inl s' =>
      obtain ⟨a, v, e3, e4, h4⟩ := ih (μ s') (by have := h3.2; omega) s' (t + u) h3.1 rfl
      refine ⟨a, u + v, by rw [_root_.loop_inl e1, e3], by rw [loop_inl e2, e4]; rfl, ?_⟩
      show Q a (t + (u + v))
      rw [← Nat.add_assoc]; exact h4
    | inr a => exact ⟨a, u, _root_.loop_inr e1, loop_inr e2, h3⟩

/-- A loop whose run is known. -/
theorem Pays.runs {I : σ → Nat → Nat → Prop} {body : σ → Prog (σ ⊕ α)} {body' : σ → Counted (σ ⊕ α)}
    (h : ∀ n s s' t, I s n t → body s = .ok (.inl s') → ∃ u, body' s = Prog.ok (.inl s', u) ∧ I s' (n + 1) (t + u))
    {m : Nat} {s s' : σ} (r : Runs body m s s') (n t : Nat) (hs : I s n t) {a : α} (he : body s' = .ok (.inr a))
    (hQ : ∀ t, I s' (n + m) t → ∃ u, body' s' = Prog.ok (.inr a, u) ∧ Q a (t + u)) :
    Pays (_root_.loop body s) (Counted.loop body' s) fun a u => Q a (t + u) := by
  induction r generalizing n t with
  | refl s =>
    obtain ⟨u, h1, h2⟩ := hQ t hs
    exact ⟨a, u, _root_.loop_inr he, loop_inr h1, h2⟩
  | step hb _ ih =>
    obtain ⟨u, h1, h2⟩ := h n _ _ t hs hb
    obtain ⟨b, v, e3, e4, h4⟩ := ih (n + 1) (t + u) h2 he (fun t ht => hQ t (by rwa [Nat.add_assoc, Nat.add_comm 1] at ht))
    refine ⟨b, u + v, by rw [_root_.loop_inl hb, e3], by rw [loop_inl h1, e4]; rfl, ?_⟩
    show Q b (t + (u + v))
    rw [← Nat.add_assoc]; exact h4

end
end Counted
