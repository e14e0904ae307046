import Verif.Base

/-!
Counting the turns of a loop. `Runs` describes the execution of a loop turn by turn, without reference to the
fixpoint by which `loop` is defined.
-/

/-- `n` turns of the loop lead from state `s` to state `t`, without leaving the loop. -/
inductive Runs {σ α : Type} (body : σ → Prog (σ ⊕ α)) : Nat → σ → σ → Prop where
  | refl (s : σ) : Runs body 0 s s
  | step {n : Nat} {s s' t : σ} (h : body s = .ok (.inl s')) (r : Runs body n s' t) : Runs body (n + 1) s t

variable {σ α : Type} {body : σ → Prog (σ ⊕ α)}

theorem Runs.loop {n : Nat} {s t : σ} (r : Runs body n s t) : loop body s = loop body t := by
  induction r with
  | refl => rfl
  | step h _ ih => rw [loop_inl h, ih]

theorem Runs.trans {m n : Nat} {s t u : σ} (r : Runs body m s t) (r' : Runs body n t u) : Runs body (m + n) s u := by
  induction r with
  | refl => rwa [Nat.zero_add]
  | step h _ ih => rw [Nat.add_right_comm]; exact .step h (ih r')

theorem Runs.snoc {n : Nat} {s t u : σ} (r : Runs body n s t) (h : body t = .ok (.inl u)) : Runs body (n + 1) s u :=
  r.trans (.step h (.refl u))

/-- A loop has one run only. -/
theorem Runs.det {n : Nat} {s t t' : σ} (r : Runs body n s t) (r' : Runs body n s t') : t = t' := by
  induction r with
  | refl => cases r'; rfl
  | step h _ ih =>
    cases r' with
    | step h' r' =>
      rw [h] at h'
      obtain rfl := Sum.inl.inj (Prog.ok.inj h')
      exact ih r'

/-- How the body can end a loop: with a result, or with a panic or undefined behaviour. -/
def Ends (x : Prog (σ ⊕ α)) (y : Prog α) : Prop :=
  (∃ a, x = .ok (.inr a) ∧ y = .ok a) ∨ (x = .panic ∧ y = .panic) ∨ (x = .ub ∧ y = .ub)

theorem loop_ends {s : σ} {y : Prog α} (h : Ends (body s) y) : loop body s = y := by
  rw [loop]
  rcases h with ⟨a, h, rfl⟩ | ⟨h, rfl⟩ | ⟨h, rfl⟩ <;> rw [h] <;> rfl

/-- Adequacy of `loop`: its outcome is `y`, other than divergence, if and only if after some number of turns the
body ends the loop with `y`. -/
theorem loop_iff {s : σ} {y : Prog α} (hy : y ≠ .diverge) :
    loop body s = y ↔ ∃ n t, Runs body n s t ∧ Ends (body t) y := by
  constructor
  · have key : ∀ s, (fun s x => x ≠ .diverge → ∃ n t, Runs body n s t ∧ Ends (body t) x) s (loop body s) := by
      apply loop.fixpoint_induct (body := body)
        (motive := fun f => ∀ s, (fun s x => x ≠ .diverge → ∃ n t, Runs body n s t ∧ Ends (body t) x) s (f s))
      · refine Lean.Order.admissible_pi_apply (α := σ) (β := fun _ => Prog α)
          (fun s x => x ≠ .diverge → ∃ n t, Runs body n s t ∧ Ends (body t) x) fun s => ?_
        exact Lean.Order.admissible_flatOrder (b := (Prog.diverge : Prog α)) _ (fun h => absurd rfl h)
      · intro f ih s hne
        cases hb : body s with
        | ok r =>
          cases r with
          | inl s' =>
            simp only [hb, Prog.ok_bind] at hne ⊢
            obtain ⟨n, t, r, h⟩ := ih s' hne
            exact ⟨n + 1, t, .step hb r, h⟩
          | inr a =>
            exact ⟨0, s, .refl s, .inl ⟨a, hb, by simp [hb]⟩⟩
        | panic => exact ⟨0, s, .refl s, .inr (.inl ⟨hb, by simp [hb]⟩)⟩
        | ub => exact ⟨0, s, .refl s, .inr (.inr ⟨hb, by simp [hb]⟩)⟩
        | diverge => simp [hb] at hne
    rintro rfl
    exact key s hy
  · rintro ⟨n, t, r, h⟩
    rw [r.loop, loop_ends h]

theorem loop_ok_iff {s : σ} {a : α} :
    loop body s = .ok a ↔ ∃ n t, Runs body n s t ∧ body t = .ok (.inr a) := by
  rw [loop_iff (by simp)]
  simp [Ends]

/-- It diverges if and only if some turn diverges or there is no last turn. -/
theorem loop_diverge_iff {s : σ} :
    loop body s = .diverge ↔ (∃ n t, Runs body n s t ∧ body t = .diverge) ∨ ∀ n, ∃ t, Runs body n s t := by
  constructor
  · intro h
    by_cases hd : ∃ n t, Runs body n s t ∧ body t = .diverge
    · exact .inl hd
    · right
      intro n
      induction n with
      | zero => exact ⟨s, .refl s⟩
      | succ n ih =>
        obtain ⟨t, r⟩ := ih
        rw [r.loop] at h
        cases hb : body t with
        | ok x =>
          cases x with
          | inl u => exact ⟨u, r.snoc hb⟩
          | inr a => rw [loop_inr hb] at h; cases h
        | panic => rw [loop_panic hb] at h; cases h
        | ub => rw [loop_ends (.inr (.inr ⟨hb, rfl⟩))] at h; cases h
        | diverge => exact absurd ⟨n, t, r, hb⟩ hd
  · rintro (⟨n, t, r, h⟩ | h)
    · rw [r.loop, loop, h]; rfl
    · refine Classical.byContradiction fun hne => ?_
      obtain ⟨n, t, r, he⟩ := (loop_iff hne).mp rfl
      obtain ⟨u, r'⟩ := h (n + 1)
      have : ∀ {n : Nat} {s t u : σ}, Runs body n s t → Runs body (n + 1) s u → body t = .ok (.inl u) := by
        intro n s t u r
        induction r generalizing u with
        | refl =>
          intro r'
          cases r' with
          | step h r' => cases r'; exact h
        | step h _ ih =>
          intro r'
          cases r' with
          | step h' r' =>
            rw [h] at h'
            obtain rfl := Sum.inl.inj (Prog.ok.inj h')
            exact ih r'
      have hb := this r r'
      rcases he with ⟨a, h1, _⟩ | ⟨h1, _⟩ | ⟨h1, _⟩ <;> rw [hb] at h1 <;> cases h1

/-- Total correctness with the number of turns: invariant `I`, variant `m`, which bounds the number of turns. -/
theorem loop_count (I : σ → Prop) (m : σ → Nat) (Q : α → Prop)
    (step : ∀ s, I s →
      (∃ s', body s = .ok (.inl s') ∧ I s' ∧ m s' < m s) ∨ (∃ a, body s = .ok (.inr a) ∧ Q a))
    (s : σ) (hs : I s) : ∃ n t a, Runs body n s t ∧ n ≤ m s ∧ I t ∧ body t = .ok (.inr a) ∧ Q a := by
  generalize hn : m s = k
  induction k using Nat.strongRecOn generalizing s with
  | ind k ih =>
    rcases step s hs with ⟨s', hb, hI, hm⟩ | ⟨a, hb, hQ⟩
    · obtain ⟨n, t, a, r, hle, hIt, h1, h2⟩ := ih (m s') (hn ▸ hm) s' hI rfl
      exact ⟨n + 1, t, a, .step hb r, by omega, hIt, h1, h2⟩
    · exact ⟨0, s, a, .refl s, by omega, hs, hb, hQ⟩
