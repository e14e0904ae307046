import Verif.Spec.Nonogram
import Mathlib.Tactic.Ring

/-! The rule automaton: states `1 .. K.length`, of kind `K[s-1]`; traces, their language and their order. -/
namespace Nonogram
open Spec

/-- The kinds (filled or not) of the states of the automaton of a rule. -/
def kinds : List Nat → List Bool
  | [] => [false]
  | a :: r => false :: (List.replicate a true ++ kinds r)

/-- Patterns: end in `false`, no two consecutive `false`. -/
def Pat : List Bool → Prop
  | [] => False
  | [false] => True
  | false :: false :: _ => False
  | false :: true :: k => Pat (true :: k)
  | true :: k => Pat k

theorem Pat.ne_nil {k : List Bool} (h : Pat k) : k ≠ [] := by rintro rfl; exact h

theorem pat_replicate {k : List Bool} (h : Pat k) (n : Nat) : Pat (List.replicate n true ++ k) := by
  induction n with
  | zero => exact h
  | succ n ih => rw [List.replicate_succ, List.cons_append]; exact ih

theorem kinds_pat {r : List Nat} (hr : Positive r) : Pat (kinds r) := by
  induction r with
  | nil => trivial
  | cons a r ih =>
    have ha := hr a (by simp)
    obtain ⟨n, rfl⟩ : ∃ n, a = n + 1 := ⟨a - 1, by omega⟩
    have := pat_replicate (ih fun b hb => hr b (by simp [hb])) (n + 1)
    rw [List.replicate_succ, List.cons_append] at this
    simp only [kinds, List.replicate_succ, List.cons_append]
    exact this

/-! ### runs -/

@[simp] theorem runs_nil : runs [] = [] := rfl
@[simp] theorem runs_false (xs : List Bool) : runs (false :: xs) = runs xs := by rw [runs]
@[simp] theorem runs_one : runs [true] = [1] := rfl
@[simp] theorem runs_true_false (xs : List Bool) : runs (true :: false :: xs) = 1 :: runs xs := rfl

theorem runs_true_ne (xs : List Bool) : ∃ n ns, runs (true :: xs) = (n + 1) :: ns := by
  unfold runs
  split
  · exact ⟨_, _, rfl⟩
  · exact ⟨0, _, rfl⟩

theorem runs_true_true (xs : List Bool) :
    ∃ n ns, runs (true :: xs) = (n + 1) :: ns ∧ runs (true :: true :: xs) = (n + 2) :: ns := by
  obtain ⟨n, ns, h⟩ := runs_true_ne xs
  refine ⟨n, ns, h, ?_⟩
  rw [runs.eq_def]; dsimp only; rw [h]

theorem runs_replicate (n : Nat) {k : List Bool} (hk : ∃ k', k = false :: k') :
    runs (List.replicate (n + 1) true ++ k) = (n + 1) :: runs k := by
  obtain ⟨k', rfl⟩ := hk
  induction n with
  | zero => simp
  | succ n ih =>
    obtain ⟨m, ms, h1, h2⟩ := runs_true_true (List.replicate n true ++ false :: k')
    rw [List.replicate_succ, List.cons_append] at ih
    rw [ih] at h1
    simp only [List.cons.injEq] at h1
    rw [List.replicate_succ, List.replicate_succ, List.cons_append, List.cons_append, h2, ← h1.2]
    congr 1
    omega

theorem kinds_false (r : List Nat) : ∃ k, kinds r = false :: k := by
  cases r with
  | nil => exact ⟨_, rfl⟩
  | cons a r => exact ⟨_, rfl⟩

theorem runs_kinds {r : List Nat} (hr : Positive r) : runs (kinds r) = r := by
  induction r with
  | nil => rfl
  | cons a r ih =>
    have ha := hr a (by simp)
    obtain ⟨n, rfl⟩ : ∃ n, a = n + 1 := ⟨a - 1, by omega⟩
    rw [kinds, runs_false, runs_replicate n (kinds_false r), ih fun b hb => hr b (by simp [hb])]

/-! ### Traces, list style -/

variable {K : List Bool}

/-- One move from state `s` to state `u` of kind `b`. -/
def Mv (K : List Bool) (b : Bool) (s u : Nat) : Prop :=
  1 ≤ u ∧ K[u - 1]? = some b ∧ (u = s + 1 ∨ (b = false ∧ u = s))

/-- The list of states entered when the line `xs` is read from state `s`. -/
def TrL (K : List Bool) : Nat → List Bool → List Nat → Prop
  | _, [], tr => tr = []
  | _, _ :: _, [] => False
  | s, b :: xs, u :: tr => Mv K b s u ∧ TrL K u xs tr

/-- The last state. -/
def fin (s : Nat) (tr : List Nat) : Nat := tr.getLast?.getD s

@[simp] theorem fin_nil (s : Nat) : fin s [] = s := rfl
@[simp] theorem fin_cons (s u : Nat) (tr : List Nat) : fin s (u :: tr) = fin u tr := by
  simp [fin, List.getLast?_cons]
@[simp] theorem fin_snoc (s u : Nat) (tr : List Nat) : fin s (tr ++ [u]) = u := by simp [fin]

theorem pat_drop {k : List Bool} (h : Pat k) : ∀ {i}, i < k.length → Pat (k.drop i) := by
  induction k with
  | nil => exact absurd h id
  | cons c k ih =>
    intro i hi
    cases i with
    | zero => exact h
    | succ i =>
      rw [List.drop_succ_cons]
      simp only [List.length_cons] at hi
      have hk : k ≠ [] := by rintro rfl; simp at hi
      refine ih ?_ (by omega)
      match c, k, h with
      | true, k, h => exact h
      | false, true :: k, h => exact h

/-- Reading `xs` from a state with remaining pattern `c :: k` can end in one of the last two states exactly if
`c :: xs` and `c :: k` have the same blocks. -/
theorem lang (hK : Pat K) (xs : List Bool) : ∀ s, 1 ≤ s → s ≤ K.length → ∀ c, K[s - 1]? = some c →
    ((∃ tr, TrL K s xs tr ∧ K.length - 1 ≤ fin s tr) ↔ runs (c :: xs) = runs (K.drop (s - 1))) := by
  induction xs with
  | nil =>
    intro s hs1 hs2 c hc
    have hp : Pat (K.drop (s - 1)) := pat_drop hK (by omega)
    have hlen : (K.drop (s - 1)).length = K.length - (s - 1) := by simp
    have hd : K.drop (s - 1) = c :: K.drop s := by
      rw [List.getElem?_eq_some_iff] at hc
      obtain ⟨h1, h2⟩ := hc
      rw [List.drop_eq_getElem_cons h1, h2]
      congr 2; omega
    have hlen' : (K.drop s).length = K.length - s := by simp
    rw [hd] at hp ⊢
    constructor
    · rintro ⟨tr, ht, hf⟩
      simp only [TrL] at ht; subst ht
      simp only [fin_nil] at hf
      match hk : K.drop s, c, hp with
      | [], false, _ => rfl
      | [false], true, _ => rfl
      | _ :: _ :: _, _, _ => rw [hk] at hlen'; simp at hlen'; omega
      | true :: k, false, hp => rw [hk] at hlen'; simp at hlen'; exact absurd hp (by
          have : k = [] := List.eq_nil_of_length_eq_zero (by omega)
          subst this; simp [Pat])
      | [true], true, hp => exact absurd hp (by simp [Pat])
    · intro hr
      refine ⟨[], rfl, ?_⟩
      simp only [fin_nil]
      match hk : K.drop s, c, hp with
      | [], c, _ => rw [hk] at hlen'; simp at hlen'; omega
      | true :: k, false, hp =>
        rw [hk] at hr
        obtain ⟨n, ns, h⟩ := runs_true_ne k
        rw [runs_false, runs_false, h] at hr
        cases hr
      | [false], true, hp => rw [hk] at hlen'; simp at hlen'; omega
      | false :: true :: k, true, hp =>
        rw [hk] at hr
        obtain ⟨n, ns, h⟩ := runs_true_ne k
        rw [runs_true_false, h] at hr
        simp at hr
      | true :: k, true, hp =>
        rw [hk] at hr
        obtain ⟨n, ns, _, h⟩ := runs_true_true k
        rw [h] at hr
        simp at hr
  | cons b xs ih =>
    intro s hs1 hs2 c hc
    have hp : Pat (K.drop (s - 1)) := pat_drop hK (by omega)
    have hd : K.drop (s - 1) = c :: K.drop s := by
      rw [List.getElem?_eq_some_iff] at hc
      obtain ⟨h1, h2⟩ := hc
      rw [List.drop_eq_getElem_cons h1, h2]
      congr 2; omega
    have hstep : (∃ tr, TrL K s (b :: xs) tr ∧ K.length - 1 ≤ fin s tr) ↔
        ∃ u, Mv K b s u ∧ ∃ tr, TrL K u xs tr ∧ K.length - 1 ≤ fin u tr := by
      constructor
      · rintro ⟨tr, ht, hf⟩
        cases tr with
        | nil => exact absurd ht id
        | cons u tr => exact ⟨u, ht.1, tr, ht.2, by simpa using hf⟩
      · rintro ⟨u, hm, tr, ht, hf⟩
        exact ⟨u :: tr, ⟨hm, ht⟩, by simpa using hf⟩
    rw [hstep]
    have hnext : ∀ d, (K.drop s).head? = some d ↔ K[s]? = some d := by
      intro d; rw [List.head?_drop]
    have hds : K.drop (s + 1 - 1) = K.drop s := by rw [Nat.add_sub_cancel]
    rw [hd] at hp ⊢
    -- moving on to the next state
    have fwd : ∀ d k, K.drop s = d :: k → K[s]? = some d ∧ s + 1 ≤ K.length ∧ Mv K d s (s + 1) := by
      intro d k hk
      have h1 : K[s]? = some d := (hnext d).mp (by rw [hk]; rfl)
      have h2 : s < K.length := (List.getElem?_eq_some_iff.mp h1).1
      exact ⟨h1, by omega, by omega, by simpa using h1, .inl rfl⟩
    have back : ∀ {d u}, Mv K d s u → u = s + 1 → K[s]? = some d := by
      rintro d u ⟨_, h, _⟩ rfl
      simpa using h
    match hk : K.drop s, c, hp, b with
    | k, false, hp, false =>
      rw [hk] at hd
      have hi := ih s hs1 hs2 false hc
      rw [hd] at hi
      rw [runs_false, ← hi]
      constructor
      · rintro ⟨u, hm, ht⟩
        rcases hm.2.2 with h | ⟨_, h⟩
        · -- the next state is not a space
          have h1 := back hm h
          have h2 := (hnext false).mpr h1
          rw [hk] at h2
          match k, hp, h2 with
          | false :: _, hp, _ => exact absurd hp id
        · subst h; exact ht
      · intro ht
        exact ⟨s, ⟨hs1, hc, .inr ⟨rfl, rfl⟩⟩, ht⟩
    | [], true, hp, b => exact absurd hp id
    | [], false, hp, true =>
      obtain ⟨n, ns, h⟩ := runs_true_ne xs
      rw [runs_false, h]
      constructor
      · rintro ⟨u, hm, ht⟩
        rcases hm.2.2 with h' | ⟨h', _⟩
        · have h2 := (hnext true).mpr (back hm h')
          rw [hk] at h2; simp at h2
        · cases h'
      · intro h; simp at h
    | true :: k, false, hp, true =>
      obtain ⟨f1, f2, f3⟩ := fwd _ _ hk
      have := ih (s + 1) (by omega) f2 true (by simpa using f1)
      rw [hds, hk] at this
      rw [runs_false, runs_false, ← this]
      constructor
      · rintro ⟨u, hm, ht⟩
        rcases hm.2.2 with h' | ⟨h', _⟩
        · subst h'; exact ht
        · cases h'
      · intro ht; exact ⟨_, f3, ht⟩
    | true :: k, true, hp, true =>
      obtain ⟨f1, f2, f3⟩ := fwd _ _ hk
      have := ih (s + 1) (by omega) f2 true (by simpa using f1)
      rw [hds, hk] at this
      obtain ⟨n, ns, h1, h2⟩ := runs_true_true xs
      obtain ⟨n', ns', h1', h2'⟩ := runs_true_true k
      rw [h2, h2']
      rw [h1, h1'] at this
      have e : ((n + 2) :: ns = (n' + 2) :: ns') ↔ ((n + 1) :: ns = (n' + 1) :: ns') := by
        simp only [List.cons.injEq, Nat.add_right_cancel_iff]
      rw [e, ← this]
      constructor
      · rintro ⟨u, hm, ht⟩
        rcases hm.2.2 with h' | ⟨h', _⟩
        · subst h'; exact ht
        · cases h'
      · intro ht; exact ⟨_, f3, ht⟩
    | false :: k, true, hp, false =>
      obtain ⟨f1, f2, f3⟩ := fwd _ _ hk
      have := ih (s + 1) (by omega) f2 false (by simpa using f1)
      rw [hds, hk, runs_false, runs_false] at this
      rw [runs_true_false, runs_true_false, List.cons.injEq, ← this]
      constructor
      · rintro ⟨u, hm, ht⟩
        rcases hm.2.2 with h' | ⟨_, h'⟩
        · subst h'; exact ⟨rfl, ht⟩
        · subst h'
          have := hm.2.1
          rw [hc] at this; cases this
      · rintro ⟨_, ht⟩; exact ⟨_, f3, ht⟩
    | true :: k, true, hp, false =>
      obtain ⟨n, ns, _, h2⟩ := runs_true_true k
      rw [runs_true_false, h2]
      constructor
      · rintro ⟨u, hm, ht⟩
        rcases hm.2.2 with h' | ⟨_, h'⟩
        · have h2 := (hnext false).mpr (back hm h')
          rw [hk] at h2; simp at h2
        · subst h'
          have := hm.2.1
          rw [hc] at this; cases this
      · intro h; simp at h
    | false :: k, true, hp, true =>
      obtain ⟨n, ns, _, h2⟩ := runs_true_true xs
      rw [runs_true_false, h2]
      constructor
      · rintro ⟨u, hm, ht⟩
        rcases hm.2.2 with h' | ⟨h', _⟩
        · have h2 := (hnext true).mpr (back hm h')
          rw [hk] at h2; simp at h2
        · cases h'
      · intro h; simp at h

/-! ### Traces, index style -/

/-- The state at position `i`. -/
def stAt (tr : List Nat) (i : Nat) : Nat := tr.getD i 0
/-- The state before position `i` of a trace that starts in state `s`. -/
def prevAt (s : Nat) (tr : List Nat) (i : Nat) : Nat := if i = 0 then s else stAt tr (i - 1)

/-- A move whose kind is allowed by the square. -/
def Step (K : List Bool) (q : Square) (s u : Nat) : Prop := ∃ b, Compat q b ∧ Mv K b s u

/-- `tr` is a trace over the squares `P`, starting in state `s`. -/
def Tr (K : List Bool) (s : Nat) (P : List Square) (tr : List Nat) : Prop :=
  tr.length = P.length ∧ ∀ (i : Nat) q, P[i]? = some q → Step K q (prevAt s tr i) (stAt tr i)

theorem tr_cons {s : Nat} {q : Square} {P : List Square} {u : Nat} {tr : List Nat} :
    Tr K s (q :: P) (u :: tr) ↔ Step K q s u ∧ Tr K u P tr := by
  constructor
  · rintro ⟨h1, h2⟩
    refine ⟨by simpa [prevAt, stAt] using h2 0 q rfl, by simpa using h1, ?_⟩
    intro i q' hq
    have := h2 (i + 1) q' (by simpa using hq)
    cases i with
    | zero => simpa [prevAt, stAt] using this
    | succ i => simpa [prevAt, stAt] using this
  · rintro ⟨h1, h2, h3⟩
    refine ⟨by simpa using h2, ?_⟩
    intro i q' hq
    cases i with
    | zero =>
      simp only [List.getElem?_cons_zero, Option.some.injEq] at hq
      subst hq
      simpa [prevAt, stAt] using h1
    | succ i =>
      have := h3 i q' (by simpa using hq)
      cases i with
      | zero => simpa [prevAt, stAt] using this
      | succ i => simpa [prevAt, stAt] using this

theorem agrees_cons {q : Square} {P : List Square} {b : Bool} {xs : List Bool} :
    Agrees (q :: P) (b :: xs) ↔ Compat q b ∧ Agrees P xs := by
  constructor
  · rintro ⟨h1, h2⟩
    refine ⟨h2 0 q b rfl rfl, by simpa using h1, fun i q' b' hq hb => h2 (i + 1) q' b' (by simpa using hq) (by simpa using hb)⟩
  · rintro ⟨h1, h2, h3⟩
    refine ⟨by simpa using h2, ?_⟩
    intro i q' b' hq hb
    cases i with
    | zero =>
      simp only [List.getElem?_cons_zero, Option.some.injEq] at hq hb
      subst hq hb; exact h1
    | succ i => exact h3 i q' b' (by simpa using hq) (by simpa using hb)

theorem agrees_nil {xs : List Bool} : Agrees [] xs ↔ xs = [] := by
  constructor
  · rintro ⟨h1, _⟩; exact List.eq_nil_of_length_eq_zero h1
  · rintro rfl; exact ⟨rfl, by simp⟩

/-- The kind of a state. -/
def kd (K : List Bool) (u : Nat) : Bool := K.getD (u - 1) false

theorem tr_iff_trl {s : Nat} {P : List Square} {tr : List Nat} :
    Tr K s P tr ↔ Agrees P (tr.map (kd K)) ∧ TrL K s (tr.map (kd K)) tr := by
  induction P generalizing s tr with
  | nil =>
    constructor
    · rintro ⟨h1, _⟩
      have := List.eq_nil_of_length_eq_zero h1
      subst this
      exact ⟨agrees_nil.mpr rfl, rfl⟩
    · rintro ⟨h1, _⟩
      have := agrees_nil.mp h1
      simp only [List.map_eq_nil_iff] at this
      subst this
      exact ⟨rfl, by simp⟩
  | cons q P ih =>
    cases tr with
    | nil => simp [Tr, Agrees]
    | cons u tr =>
      rw [tr_cons, List.map_cons, agrees_cons, ih]
      simp only [TrL, Step]
      constructor
      · rintro ⟨⟨b, h1, h2⟩, h3, h4⟩
        have : kd K u = b := by simp [kd, List.getD, h2.2.1]
        rw [this]
        exact ⟨⟨h1, h3⟩, h2, h4⟩
      · rintro ⟨⟨h1, h3⟩, h2, h4⟩
        exact ⟨⟨_, h1, h2⟩, h3, h4⟩

theorem trl_kinds {s : Nat} {xs : List Bool} {tr : List Nat} (h : TrL K s xs tr) : tr.map (kd K) = xs := by
  induction xs generalizing s tr with
  | nil => simp only [TrL] at h; subst h; rfl
  | cons b xs ih =>
    cases tr with
    | nil => exact absurd h id
    | cons u tr =>
      rw [List.map_cons, ih h.2]
      congr 1
      simp [kd, List.getD, h.1.2.1]

/-- A trace that ends in one of the last two states. -/
def Full (K : List Bool) (P : List Square) (tr : List Nat) : Prop := Tr K 1 P tr ∧ K.length - 1 ≤ fin 1 tr

/-- Full traces over a line without known squares. -/
theorem trl_runs {rule : List Nat} (hr : Positive rule) {xs : List Bool} :
    (∃ tr, TrL (kinds rule) 1 xs tr ∧ (kinds rule).length - 1 ≤ fin 1 tr) ↔ runs xs = rule := by
  obtain ⟨k, hk⟩ := kinds_false rule
  have hl := lang (kinds_pat hr) xs 1 (le_refl _) (by rw [hk]; simp) false (by rw [hk]; rfl)
  simpa only [Nat.sub_self, List.drop_zero, runs_kinds hr, runs_false] using hl

/-! ### The language, for rules with zeros -/

/-- The line `xs` can be read from a state with the remaining pattern. -/
def Acc : List Bool → List Bool → Prop
  | [], _ => False
  | _ :: k, [] => k.length ≤ 1
  | c :: k, b :: xs => (c = false ∧ b = false ∧ Acc (c :: k) xs) ∨ (k.head? = some b ∧ Acc k xs)

theorem trl_acc (xs : List Bool) : ∀ s, 1 ≤ s → s ≤ K.length →
    ((∃ tr, TrL K s xs tr ∧ K.length - 1 ≤ fin s tr) ↔ Acc (K.drop (s - 1)) xs) := by
  induction xs with
  | nil =>
    intro s h1 h2
    have hd : K.drop (s - 1) = K[s - 1] :: K.drop s := by
      rw [List.drop_eq_getElem_cons (by omega)]; congr 2; omega
    rw [hd, Acc, List.length_drop]
    constructor
    · rintro ⟨tr, ht, hf⟩
      simp only [TrL] at ht; subst ht
      simp only [fin_nil] at hf; omega
    · intro h
      exact ⟨[], rfl, by simp only [fin_nil]; omega⟩
  | cons b xs ih =>
    intro s h1 h2
    have hd : K.drop (s - 1) = K[s - 1] :: K.drop s := by
      rw [List.drop_eq_getElem_cons (by omega)]; congr 2; omega
    have hg : K[s - 1]? = some K[s - 1] := List.getElem?_eq_getElem (by omega)
    rw [hd, Acc, ← hd, ← ih s h1 h2, List.head?_drop]
    constructor
    · rintro ⟨tr, ht, hf⟩
      cases tr with
      | nil => exact absurd ht id
      | cons u tr =>
        obtain ⟨⟨hu, hub, rfl | ⟨rfl, rfl⟩⟩, ht⟩ := ht
        · rw [Nat.add_sub_cancel] at hub
          have hlt := (List.getElem?_eq_some_iff.mp hub).1
          exact .inr ⟨hub, by simpa using (ih (s + 1) (by omega) (by omega)).mp ⟨tr, ht, by simpa using hf⟩⟩
        · rw [hg] at hub
          exact .inl ⟨Option.some.inj hub, rfl, tr, ht, by simpa using hf⟩
    · rintro (⟨hc, rfl, tr, ht, hf⟩ | ⟨hb, ha⟩)
      · exact ⟨s :: tr, ⟨⟨h1, by rw [hg, hc], .inr ⟨rfl, rfl⟩⟩, ht⟩, by simpa using hf⟩
      · have hlt := (List.getElem?_eq_some_iff.mp hb).1
        obtain ⟨tr, ht, hf⟩ := (ih (s + 1) (by omega) (by omega)).mpr (by simpa using ha)
        exact ⟨(s + 1) :: tr, ⟨⟨by omega, by simpa using hb, .inl rfl⟩, ht⟩, by simpa using hf⟩

/-- After the pattern's gap. -/
def Acc' (k xs : List Bool) : Prop := (xs = [] ∧ k.length ≤ 1) ∨ ∃ b ys, xs = b :: ys ∧ k.head? = some b ∧ Acc k ys

theorem acc_true {k xs : List Bool} : Acc (true :: k) xs ↔ Acc' k xs := by
  cases xs with
  | nil => simp [Acc, Acc']
  | cons b xs => simp [Acc, Acc']

theorem acc_false {k xs : List Bool} : Acc (false :: k) xs ↔ ∃ g ys, xs = List.replicate g false ++ ys ∧ Acc' k ys := by
  induction xs with
  | nil =>
    constructor
    · intro h; exact ⟨0, [], rfl, .inl ⟨rfl, h⟩⟩
    · rintro ⟨g, ys, he, h⟩
      have := (List.append_eq_nil_iff.mp he.symm).2
      subst this
      rcases h with ⟨_, h⟩ | ⟨b, ys, h, _⟩
      · exact h
      · cases h
  | cons b xs ih =>
    rw [Acc, ih]
    constructor
    · rintro (⟨_, rfl, g, ys, rfl, h⟩ | ⟨h1, h2⟩)
      · exact ⟨g + 1, ys, rfl, h⟩
      · exact ⟨0, b :: xs, rfl, .inr ⟨b, xs, rfl, h1, h2⟩⟩
    · rintro ⟨g, ys, he, h⟩
      cases g with
      | zero =>
        simp only [List.replicate_zero, List.nil_append] at he
        subst he
        rcases h with ⟨h, _⟩ | ⟨b', ys, h, h1, h2⟩
        · cases h
        · obtain ⟨rfl, rfl⟩ := List.cons.inj h
          exact .inr ⟨h1, h2⟩
      | succ g =>
        rw [List.replicate_succ, List.cons_append] at he
        obtain ⟨rfl, rfl⟩ := List.cons.inj he
        exact .inl ⟨rfl, rfl, g, ys, rfl, h⟩

theorem acc'_block (a : Nat) {k xs : List Bool} : Acc' (List.replicate a true ++ false :: k) xs ↔
    (k = [] ∧ xs = List.replicate a true) ∨ ∃ ys, xs = List.replicate a true ++ false :: ys ∧ Acc (false :: k) ys := by
  induction a generalizing xs with
  | zero =>
    simp only [List.replicate_zero, List.nil_append, Acc', List.head?_cons, Option.some.injEq, List.length_cons]
    constructor
    · rintro (⟨rfl, h⟩ | ⟨b, ys, rfl, rfl, h⟩)
      · exact .inl ⟨List.eq_nil_of_length_eq_zero (by omega), rfl⟩
      · exact .inr ⟨ys, rfl, h⟩
    · rintro (⟨rfl, rfl⟩ | ⟨ys, rfl, h⟩)
      · exact .inl ⟨rfl, by simp⟩
      · exact .inr ⟨false, ys, rfl, rfl, h⟩
  | succ a ih =>
    rw [List.replicate_succ, List.cons_append, Acc']
    simp only [List.head?_cons, Option.some.injEq, acc_true, ih, List.cons_append, List.length_cons, List.length_append]
    constructor
    · rintro (⟨rfl, h⟩ | ⟨b, ys, rfl, rfl, ⟨rfl, rfl⟩ | ⟨zs, rfl, h⟩⟩)
      · omega
      · exact .inl ⟨rfl, rfl⟩
      · exact .inr ⟨zs, rfl, h⟩
    · rintro (⟨rfl, rfl⟩ | ⟨zs, rfl, h⟩)
      · exact .inr ⟨true, _, rfl, rfl, .inl ⟨rfl, rfl⟩⟩
      · exact .inr ⟨true, _, rfl, rfl, .inr ⟨zs, rfl, h⟩⟩

theorem acc_follows (rule : List Nat) : ∀ xs, Acc (kinds rule) xs ↔ Follows rule xs := by
  induction rule with
  | nil =>
    intro xs
    rw [kinds, acc_false, Follows]
    constructor
    · rintro ⟨g, ys, rfl, ⟨rfl, _⟩ | ⟨_, _, _, h, _⟩⟩
      · exact ⟨g, by simp⟩
      · cases h
    · rintro ⟨g, rfl⟩
      exact ⟨g, [], by simp, .inl ⟨rfl, by simp⟩⟩
  | cons a r ih =>
    intro xs
    obtain ⟨k, hk⟩ := kinds_false r
    rw [kinds, acc_false]
    rw [hk] at ih ⊢
    simp only [acc'_block, ih]
    cases r with
    | nil =>
      obtain rfl : k = [] := by simpa [kinds] using hk.symm
      simp only [Follows]
      constructor
      · rintro ⟨g, ys, rfl, ⟨_, rfl⟩ | ⟨zs, rfl, h, rfl⟩⟩
        · exact ⟨g, 0, by simp⟩
        · exact ⟨g, h + 1, rfl⟩
      · rintro ⟨g, h, rfl⟩
        refine ⟨g, _, rfl, ?_⟩
        cases h with
        | zero => exact .inl ⟨trivial, by simp⟩
        | succ h => exact .inr ⟨_, rfl, h, rfl⟩
    | cons b r =>
      have hne : k ≠ [] := by
        rintro rfl
        have := congrArg List.length hk
        obtain ⟨k', hk'⟩ := kinds_false r
        simp [kinds, hk'] at this
      rw [Follows]
      constructor
      · rintro ⟨g, ys, rfl, ⟨h, _⟩ | ⟨zs, rfl, h⟩⟩
        · exact absurd h hne
        · exact ⟨g, zs, rfl, h⟩
      · rintro ⟨g, zs, rfl, h⟩
        exact ⟨g, _, rfl, .inr ⟨zs, rfl, h⟩⟩

theorem trl_follows {rule : List Nat} {xs : List Bool} :
    (∃ tr, TrL (kinds rule) 1 xs tr ∧ (kinds rule).length - 1 ≤ fin 1 tr) ↔ Follows rule xs := by
  obtain ⟨k, hk⟩ := kinds_false rule
  rw [trl_acc xs 1 (le_refl _) (by rw [hk]; simp), Nat.sub_self, List.drop_zero, acc_follows]

/-- For rules without zeros. -/
theorem follows_runs {rule : List Nat} (hr : Positive rule) {xs : List Bool} : Follows rule xs ↔ runs xs = rule := by
  rw [← trl_follows, trl_runs hr]

/-- Full traces are the completions that satisfy the rule. -/
theorem full_iff {rule : List Nat} {P : List Square} {xs : List Bool} :
    (∃ tr, Full (kinds rule) P tr ∧ tr.map (kd (kinds rule)) = xs) ↔ Completes P rule xs := by
  have hl := trl_follows (rule := rule) (xs := xs)
  constructor
  · rintro ⟨tr, ⟨ht, hf⟩, rfl⟩
    rw [tr_iff_trl] at ht
    exact ⟨ht.1, hl.mp ⟨tr, ht.2, hf⟩⟩
  · rintro ⟨ha, hx⟩
    obtain ⟨tr, ht, hf⟩ := hl.mpr hx
    have hm := trl_kinds ht
    refine ⟨tr, ⟨?_, hf⟩, hm⟩
    rw [tr_iff_trl, hm]
    exact ⟨ha, ht⟩

/-- The rule does not start with a zero. -/
theorem kinds_second {rule : List Nat} (h : rule.head? ≠ some 0) (hl : 1 < (kinds rule).length) :
    (kinds rule)[1]? = some true := by
  cases rule with
  | nil => simp [kinds] at hl
  | cons a r =>
    obtain ⟨n, rfl⟩ : ∃ n, a = n + 1 := ⟨a - 1, by
      have : a ≠ 0 := fun h' => h (by rw [h']; rfl)
      omega⟩
    simp [kinds, List.replicate_succ]

/-! ### Order of traces -/

theorem Tr.step_le {s : Nat} {P : List Square} {tr : List Nat} (h : Tr K s P tr) {i : Nat} (hi : i < P.length) :
    prevAt s tr i ≤ stAt tr i ∧ stAt tr i ≤ prevAt s tr i + 1 := by
  obtain ⟨b, _, _, _, h2⟩ := h.2 i P[i] (List.getElem?_eq_getElem hi)
  omega

/-- Two traces over the same squares that are in the same state at position `m` can be spliced there. -/
theorem Tr.splice {s : Nat} {P : List Square} {a b : List Nat} (ha : Tr K s P a) (hb : Tr K s P b) {m : Nat}
    (hm : m < P.length) (heq : stAt a m = stAt b m) :
    Tr K s P (a.take (m + 1) ++ b.drop (m + 1)) ∧
    ∀ i, stAt (a.take (m + 1) ++ b.drop (m + 1)) i = if i ≤ m then stAt a i else stAt b i := by
  have la := ha.1
  have lb := hb.1
  have hat : ∀ i, stAt (a.take (m + 1) ++ b.drop (m + 1)) i = if i ≤ m then stAt a i else stAt b i := by
    intro i
    simp only [stAt, List.getD_eq_getElem?_getD]
    split
    · rw [List.getElem?_append_left (by rw [List.length_take]; omega), List.getElem?_take_of_lt (by omega)]
    · rw [List.getElem?_append_right (by rw [List.length_take]; omega), List.length_take, List.getElem?_drop]
      congr 2
      omega
  refine ⟨⟨by rw [List.length_append, List.length_take, List.length_drop]; omega, ?_⟩, hat⟩
  intro i q hq
  have hi : i < P.length := (List.getElem?_eq_some_iff.mp hq).1
  by_cases him : i ≤ m
  · have := ha.2 i q hq
    rw [hat, if_pos him]
    have hp : prevAt s (a.take (m + 1) ++ b.drop (m + 1)) i = prevAt s a i := by
      simp only [prevAt]
      split
      · rfl
      · rw [hat, if_pos (by omega)]
    rw [hp]; exact this
  · have := hb.2 i q hq
    rw [hat, if_neg him]
    have hp : prevAt s (a.take (m + 1) ++ b.drop (m + 1)) i = prevAt s b i := by
      simp only [prevAt]
      split
      · omega
      · rw [hat]
        split
        · have : i - 1 = m := by omega
          rw [this, heq]
        · rfl
    rw [hp]; exact this

theorem fin_eq (s : Nat) (tr : List Nat) : fin s tr = prevAt s tr tr.length := by
  simp only [fin, prevAt, stAt]
  cases tr with
  | nil => rfl
  | cons u tr =>
    simp [List.getLast?_eq_getElem?, List.getD]

/-- If `T` is the largest trace that ends where it does, then every trace over the same squares that ends no
later lies below it. -/
theorem dominated {s : Nat} {P : List Square} {T B : List Nat} (hT : Tr K s P T)
    (hmax : ∀ tr, Tr K s P tr → fin s tr = fin s T → ∀ i, stAt tr i ≤ stAt T i)
    (hB : Tr K s P B) (hle : fin s B ≤ fin s T) : ∀ i, stAt B i ≤ stAt T i := by
  intro i
  by_contra hlt
  have hi : i < P.length := by
    by_contra hn
    have : stAt B i = 0 := by
      simp [stAt, List.getD, List.getElem?_eq_none (show B.length ≤ i by rw [hB.1]; omega)]
    omega
  have hend : ∀ tr, Tr K s P tr → fin s tr = stAt tr (P.length - 1) := by
    intro tr ht
    rw [fin_eq, ht.1, prevAt, if_neg (by omega)]
  rw [hend T hT, hend B hB] at hle
  -- first crossing after `i`
  have hex : ∃ m, i < m ∧ m < P.length ∧ stAt B m ≤ stAt T m ∧ stAt T (m - 1) < stAt B (m - 1) := by
    by_contra hno
    have : ∀ d, i + d < P.length → stAt T (i + d) < stAt B (i + d) := by
      intro d
      induction d with
      | zero => intro _; simpa using hlt
      | succ d ih =>
        intro hd
        have := ih (by omega)
        by_contra hge
        exact hno ⟨i + (d + 1), by omega, hd, by omega, by simpa using this⟩
    have := this (P.length - 1 - i) (by omega)
    rw [show i + (P.length - 1 - i) = P.length - 1 by omega] at this
    omega
  obtain ⟨m, h1, h2, h3, h4⟩ := hex
  have sB := hB.step_le h2
  have sT := hT.step_le h2
  simp only [prevAt, if_neg (show m ≠ 0 by omega)] at sB sT
  have heq : stAt B m = stAt T m := by omega
  obtain ⟨hs, hat⟩ := hB.splice hT h2 heq
  have := hmax _ hs (by
    rw [hend _ hs, hend T hT, hat]
    split
    · have : P.length - 1 = m := by omega
      rw [this, heq]
    · rfl) i
  rw [hat, if_pos (by omega)] at this
  exact hlt this

end Nonogram
