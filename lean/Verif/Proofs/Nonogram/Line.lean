import Verif.Proofs.Nonogram.FindLeft
import Mathlib.Tactic.SplitIfs

/-! The line step: leftmost and rightmost completion, block numbers, deduced squares. -/
namespace Nonogram
open Spec

variable {K : List Bool}

/-! ### Block numbers -/

/-- Number of changes of value in `prev :: xs`. -/
def changes : Bool → List Bool → Nat
  | _, [] => 0
  | p, b :: xs => (if b = p then 0 else 1) + changes b xs

/-- The last element, `p` if there is none. -/
def lastB (p : Bool) (xs : List Bool) : Bool := xs.getLast?.getD p

@[simp] theorem lastB_nil (p : Bool) : lastB p [] = p := rfl
@[simp] theorem lastB_cons (p b : Bool) (xs : List Bool) : lastB p (b :: xs) = lastB b xs := by
  simp [lastB, List.getLast?_cons]
@[simp] theorem lastB_snoc (p b : Bool) (xs : List Bool) : lastB p (xs ++ [b]) = b := by simp [lastB]

theorem changes_append (p : Bool) (xs ys : List Bool) :
    changes p (xs ++ ys) = changes p xs + changes (lastB p xs) ys := by
  induction xs generalizing p with
  | nil => simp [changes]
  | cons b xs ih => simp only [List.cons_append, changes, ih, lastB_cons]; omega

theorem changes_snoc (p b : Bool) (xs : List Bool) :
    changes p (xs ++ [b]) = changes p xs + if b = lastB p xs then 0 else 1 := by
  rw [changes_append]; simp [changes]

theorem changes_reverse (p q : Bool) (xs : List Bool) :
    changes p (xs ++ [q]) = changes q (xs.reverse ++ [p]) := by
  induction xs generalizing p with
  | nil => simp only [List.nil_append, List.reverse_nil, changes]; cases p <;> cases q <;> rfl
  | cons b xs ih =>
    simp only [List.cons_append, changes, ih b, List.reverse_cons]
    rw [changes_snoc q p, lastB_snoc]
    cases p <;> cases b <;> simp <;> omega

theorem changes_le (p : Bool) (xs : List Bool) : changes p xs ≤ xs.length := by
  induction xs generalizing p with
  | nil => simp [changes]
  | cons b xs ih =>
    have := ih b
    simp only [changes, List.length_cons]
    split <;> omega

theorem changes_parity (p : Bool) (xs : List Bool) : changes p xs % 2 = if lastB p xs = p then 0 else 1 := by
  induction xs generalizing p with
  | nil => simp [changes]
  | cons b xs ih =>
    have := ih b
    simp only [changes, lastB_cons]
    generalize lastB b xs = l at *
    revert this
    cases l <;> cases b <;> cases p <;> simp <;> omega

/-- The number of the gap (even) or block (odd) that position `i` belongs to. -/
def blk (xs : List Bool) (i : Nat) : Nat := changes false (xs.take (i + 1))

theorem blk_parity {xs : List Bool} {i : Nat} {b : Bool} (h : xs[i]? = some b) : b = decide (blk xs i % 2 = 1) := by
  have hl : lastB false (xs.take (i + 1)) = b := by
    rw [lastB, List.getLast?_take, if_neg (by omega), Nat.add_sub_cancel, h]; rfl
  rw [blk, changes_parity, hl]
  cases b <;> simp

theorem blk_determines {xs ys : List Bool} {i : Nat} {a b : Bool} (ha : xs[i]? = some a) (hb : ys[i]? = some b)
    (h : blk xs i = blk ys i) : a = b := by
  rw [blk_parity ha, blk_parity hb, h]

/-! ### Reversal of lines -/

theorem split_first (xs : List Bool) :
    ∃ n, xs = List.replicate n true ∨ ∃ ys, xs = List.replicate n true ++ false :: ys := by
  induction xs with
  | nil => exact ⟨0, .inl rfl⟩
  | cons b xs ih =>
    cases b with
    | false => exact ⟨0, .inr ⟨xs, rfl⟩⟩
    | true =>
      obtain ⟨n, h | ⟨ys, h⟩⟩ := ih
      · exact ⟨n + 1, .inl (by rw [h]; rfl)⟩
      · exact ⟨n + 1, .inr ⟨ys, by rw [h]; rfl⟩⟩

theorem runs_append_false (xs ys : List Bool) : runs (xs ++ false :: ys) = runs xs ++ runs ys := by
  induction xs with
  | nil => simp
  | cons b xs ih =>
    cases b with
    | false => simpa using ih
    | true =>
      cases xs with
      | nil => simp
      | cons c xs =>
        cases c with
        | false => simpa using ih
        | true =>
          obtain ⟨n, ns, h1, h2⟩ := runs_true_true xs
          obtain ⟨n', ns', h1', h2'⟩ := runs_true_true (xs ++ false :: ys)
          simp only [List.cons_append] at ih ⊢
          rw [h1, h1'] at ih
          simp only [List.cons_append, List.cons.injEq] at ih
          rw [h2, h2', List.cons_append, ih.2]
          congr 1
          omega

theorem runs_replicate_true (n : Nat) : runs (List.replicate n true) = if n = 0 then [] else [n] := by
  cases n with
  | zero => rfl
  | succ n =>
    have := runs_replicate n (k := [false]) ⟨[], rfl⟩
    rw [runs_append_false] at this
    simpa using this

theorem runs_reverse (xs : List Bool) : runs xs.reverse = (runs xs).reverse := by
  induction h : xs.length using Nat.strong_induction_on generalizing xs with
  | _ len ih =>
    obtain ⟨n, rfl | ⟨ys, rfl⟩⟩ := split_first xs
    · rw [List.reverse_replicate, runs_replicate_true]; split <;> rfl
    · simp only [List.length_append, List.length_replicate, List.length_cons] at h
      rw [runs_append_false, List.reverse_append, List.reverse_append, List.reverse_cons, List.append_assoc,
        List.singleton_append, runs_append_false, ih ys.length (by omega) ys rfl, List.reverse_replicate,
        runs_replicate_true]
      split <;> rfl

/-! ### Rules with zeros -/

theorem runs_pad (g : Nat) (xs : List Bool) : runs (List.replicate g false ++ xs) = runs xs := by
  induction g with
  | zero => rfl
  | succ g ih => rw [List.replicate_succ, List.cons_append, runs_false, ih]

theorem runs_replicate_false (g : Nat) : runs (List.replicate g false) = [] := by
  have := runs_pad g []
  simpa using this

/-- The blocks of a line that satisfies a rule are the positive numbers of the rule. -/
theorem Spec.Follows.runs {rule : List Nat} : ∀ {xs}, Follows rule xs → Spec.runs xs = rule.filter (0 < ·) := by
  induction rule with
  | nil => rintro xs ⟨g, rfl⟩; exact runs_replicate_false g
  | cons a r ih =>
    have hblock : (if a = 0 then ([] : List Nat) else [a]) ++ r.filter (0 < ·) = (a :: r).filter (0 < ·) := by
      rw [List.filter_cons]
      by_cases ha : a = 0
      · simp [ha]
      · simp [ha, Nat.pos_of_ne_zero ha]
    intro xs h
    rw [← hblock]
    cases r with
    | nil =>
      obtain ⟨g, h, rfl⟩ := h
      rw [runs_pad]
      cases h with
      | zero => simp [runs_replicate_true]
      | succ h => rw [List.replicate_succ, runs_append_false, runs_replicate_false, runs_replicate_true]; rfl
    | cons b r =>
      obtain ⟨g, ys, rfl, hf⟩ := h
      rw [runs_pad, runs_append_false, ih hf, runs_replicate_true]

theorem follows_pad {rule : List Nat} (h : Nat) {xs : List Bool} (hx : Follows rule xs) :
    Follows rule (List.replicate h false ++ xs) := by
  match rule, hx with
  | [], ⟨g, e⟩ => exact ⟨h + g, by rw [e, List.replicate_append_replicate]⟩
  | [_], ⟨g, k, e⟩ => exact ⟨h + g, k, by rw [e, ← List.append_assoc, List.replicate_append_replicate]⟩
  | _ :: _ :: _, ⟨g, ys, e, hy⟩ => exact ⟨h + g, ys, by rw [e, ← List.append_assoc, List.replicate_append_replicate], hy⟩

theorem follows_append {r r' : List Nat} (h : r ≠ []) (h' : r' ≠ []) {xs : List Bool} :
    Follows (r ++ r') xs ↔ ∃ ys zs, xs = ys ++ false :: zs ∧ Follows r ys ∧ Follows r' zs := by
  induction r generalizing xs with
  | nil => exact absurd rfl h
  | cons a r ih =>
    cases r with
    | nil =>
      obtain ⟨b, s, rfl⟩ := List.exists_cons_of_ne_nil h'
      simp only [List.cons_append, List.nil_append]
      constructor
      · rintro ⟨g, ys, rfl, hf⟩
        exact ⟨List.replicate g false ++ List.replicate a true, ys, by simp, ⟨g, 0, by simp⟩, hf⟩
      · rintro ⟨ys, zs, rfl, ⟨g, k, rfl⟩, hf⟩
        refine ⟨g, List.replicate k false ++ zs, ?_, follows_pad k hf⟩
        rw [List.append_assoc, List.append_assoc, ← List.cons_append, ← List.replicate_succ, List.replicate_succ',
          List.append_assoc]
        rfl
    | cons b r =>
      simp only [List.cons_append, Follows]
      constructor
      · rintro ⟨g, ys, rfl, hf⟩
        obtain ⟨us, vs, rfl, h1, h2⟩ := (ih (by simp)).mp hf
        exact ⟨_, vs, by simp, ⟨g, us, rfl, h1⟩, h2⟩
      · rintro ⟨ys, zs, rfl, ⟨g, us, rfl, h1⟩, h2⟩
        exact ⟨g, us ++ false :: zs, by simp, (ih (by simp)).mpr ⟨us, zs, rfl, h1, h2⟩⟩

theorem follows_reverse {rule : List Nat} {xs : List Bool} : Follows rule.reverse xs.reverse ↔ Follows rule xs := by
  have key : ∀ {rule : List Nat} {xs : List Bool}, Follows rule xs → Follows rule.reverse xs.reverse := by
    intro rule
    induction rule with
    | nil => rintro xs ⟨g, rfl⟩; exact ⟨g, by simp⟩
    | cons a r ih =>
      intro xs h
      cases r with
      | nil =>
        obtain ⟨g, h, rfl⟩ := h
        exact ⟨h, g, by simp⟩
      | cons b r =>
        obtain ⟨g, ys, rfl, hf⟩ := h
        rw [List.reverse_cons, follows_append (by simp) (by simp)]
        exact ⟨ys.reverse, _, by simp, ih hf, 0, g, rfl⟩
  refine ⟨fun h => ?_, key⟩
  have := key h
  simpa using this

theorem agrees_reverse {line : List Square} {xs : List Bool} : Agrees line.reverse xs.reverse ↔ Agrees line xs := by
  have key : ∀ {line : List Square} {xs : List Bool}, Agrees line xs → Agrees line.reverse xs.reverse := by
    rintro line xs ⟨h1, h2⟩
    refine ⟨by simpa using h1, ?_⟩
    intro i q b hq hb
    have hi : i < line.length := by simpa using (List.getElem?_eq_some_iff.mp hq).1
    rw [List.getElem?_reverse hi] at hq
    rw [List.getElem?_reverse (by omega), h1] at hb
    exact h2 _ _ _ hq hb
  refine ⟨fun h => ?_, key⟩
  have := key h
  simpa using this

theorem completes_reverse {line : List Square} {rule : List Nat} {xs : List Bool} :
    Completes line.reverse rule.reverse xs.reverse ↔ Completes line rule xs := by
  simp only [Completes, agrees_reverse, follows_reverse]

theorem changes_total (xs : List Bool) : changes false (xs ++ [false]) = 2 * (runs xs).length := by
  induction h : xs.length using Nat.strong_induction_on generalizing xs with
  | _ len ih =>
    have hrep : ∀ n ys, changes false (List.replicate n true ++ false :: ys) =
        (if n = 0 then 0 else 2) + changes false ys := by
      intro n ys
      have hl : ∀ n, lastB true (List.replicate n true) = true := by
        intro n; induction n with
        | zero => rfl
        | succ n ih => simp only [List.replicate_succ, lastB_cons]; exact ih
      have hz : ∀ n, changes true (List.replicate n true) = 0 := by
        intro n; induction n with
        | zero => rfl
        | succ n ih => simp only [List.replicate_succ, changes]; simpa using ih
      cases n with
      | zero => simp [changes]
      | succ n =>
        rw [List.replicate_succ, List.cons_append]
        simp only [changes]
        rw [changes_append, hl, hz]
        simp [changes]; omega
    obtain ⟨n, rfl | ⟨ys, rfl⟩⟩ := split_first xs
    · have := hrep n []
      rw [this, runs_replicate_true]
      cases n <;> simp [changes]
    · simp only [List.length_append, List.length_replicate, List.length_cons] at h
      rw [List.append_assoc, List.cons_append, hrep, ih ys.length (by omega) ys rfl, runs_append_false,
        runs_replicate_true]
      cases n <;> simp <;> omega

/-- Block numbers counted from the other end. -/
theorem blk_reverse {xs : List Bool} {i : Nat} (hi : i < xs.length) :
    blk xs i + blk xs.reverse (xs.length - 1 - i) = 2 * (runs xs).length := by
  have hsplit : xs.take (i + 1) ++ xs.drop (i + 1) = xs := List.take_append_drop _ _
  have htake : xs.take (i + 1) = xs.take i ++ [xs[i]] := by rw [List.take_succ_eq_append_getElem hi]
  rw [← changes_total]
  have h1 : changes false (xs ++ [false]) =
      changes false (xs.take (i + 1)) + changes xs[i] (xs.drop (i + 1) ++ [false]) := by
    conv_lhs => rw [← hsplit, List.append_assoc, changes_append, htake, lastB_snoc]
    rw [htake]
  rw [h1, changes_reverse xs[i] false]
  have h2 : xs.reverse.take (xs.length - 1 - i + 1) = (xs.drop (i + 1)).reverse ++ [xs[i]] := by
    rw [List.take_reverse, show xs.length - (xs.length - 1 - i + 1) = i by omega, List.drop_eq_getElem_cons hi,
      List.reverse_cons]
  simp only [blk, h2]

/-! ### Block numbers of traces -/

/-- The block number of a state. -/
def seg (K : List Bool) (s : Nat) : Nat := changes false (K.take s)

theorem seg_succ {s : Nat} (hs : 1 ≤ s) {b c : Bool} (hc : K[s - 1]? = some c) (hb : K[s]? = some b) :
    seg K (s + 1) = seg K s + if b = c then 0 else 1 := by
  have hlt : s < K.length := (List.getElem?_eq_some_iff.mp hb).1
  have hbv : K[s] = b := (List.getElem?_eq_some_iff.mp hb).2
  rw [seg, List.take_succ_eq_append_getElem hlt, changes_snoc, hbv]
  have : lastB false (K.take s) = c := by
    rw [lastB, List.getLast?_take, if_neg (by omega), hc]; rfl
  rw [this]; rfl

theorem seg_mono {s t : Nat} (h : s ≤ t) : seg K s ≤ seg K t := by
  have : K.take t = K.take s ++ (K.take t).drop s := by
    conv_lhs => rw [← List.take_append_drop s (K.take t)]
    rw [List.take_take, show min s t = s by omega]
  rw [seg, seg, this, changes_append]
  omega

theorem trl_blk {s : Nat} {xs : List Bool} {tr : List Nat} (h : TrL K s xs tr) (hs : 1 ≤ s) {c : Bool}
    (hc : K[s - 1]? = some c) {i : Nat} (hi : i < xs.length) :
    changes c (xs.take (i + 1)) + seg K s = seg K (stAt tr i) := by
  induction xs generalizing s tr c i with
  | nil => simp at hi
  | cons b xs ih =>
    cases tr with
    | nil => exact absurd h id
    | cons u tr =>
      obtain ⟨⟨hu, hub, hmv⟩, ht⟩ := h
      have hseg : seg K u = seg K s + if b = c then 0 else 1 := by
        rcases hmv with rfl | ⟨rfl, rfl⟩
        · exact seg_succ hs hc (by simpa using hub)
        · rw [hc] at hub
          obtain rfl := Option.some.inj hub
          simp
      rw [List.take_succ_cons]
      simp only [changes]
      cases i with
      | zero => simp only [List.take_zero, changes, stAt, List.getD_cons_zero]; omega
      | succ i =>
        have := ih ht hu hub (i := i) (by simpa using hi)
        simp only [stAt, List.getD_cons_succ] at this ⊢
        rw [← this]
        omega

theorem full_blk (h0 : K[0]? = some false) {P : List Square} {tr : List Nat} (h : Tr K 1 P tr) {i : Nat}
    (hi : i < P.length) : blk (tr.map (kd K)) i = seg K (stAt tr i) := by
  rw [tr_iff_trl] at h
  have hl : (tr.map (kd K)).length = P.length := h.1.1
  have := trl_blk h.2 (le_refl 1) (by simpa using h0) (i := i) (by rw [hl]; exact hi)
  have h1 : seg K 1 = 0 := by
    cases K with
    | nil => simp at h0
    | cons b K =>
      simp only [List.getElem?_cons_zero, Option.some.injEq] at h0
      subst h0
      rfl
  rw [blk]; omega

/-- What the two calls of `find_left` find. -/
structure Extremes (line : List Square) (rule : List Nat) (L R : List Bool) : Prop where
  left : Completes line rule L
  right : Completes line rule R
  lo : ∀ xs, Completes line rule xs → ∀ i < line.length, blk R i ≤ blk xs i
  hi : ∀ xs, Completes line rule xs → ∀ i < line.length, blk xs i ≤ blk L i

theorem kinds_length (rule : List Nat) : (kinds rule).length = (rule.map (· + 1)).sum + 1 := by
  rw [kinds_body, List.length_cons, List.length_map, body_length]

theorem small_reverse {rule : List Nat} (h : Small rule) : Small rule.reverse := by
  unfold Small at h ⊢
  rw [List.map_reverse, List.sum_reverse]; exact h

theorem framed_reverse {rule : List Nat} (h : Framed rule) : Framed rule.reverse := by
  unfold Framed at h ⊢
  rw [List.head?_reverse, List.getLast?_reverse]
  exact ⟨h.2, h.1⟩

theorem framed_of_positive {rule : List Nat} (h : Positive rule) : Framed rule := by
  constructor
  · intro hh
    exact absurd (h 0 (List.mem_of_mem_head? hh)) (by omega)
  · intro hh
    exact absurd (h 0 (List.mem_of_mem_getLast? hh)) (by omega)

/-- `find_left` on a rule that does not start with a zero: the leftmost completion, if there is one. -/
theorem findLeft_rule {rule : List Nat} (hr : rule.head? ≠ some 0) (hs : Small rule) {st : List Node}
    (hst : St (kinds rule) st) (line : List Square) :
    ∃ o, findLeft st line = .ok o ∧
      match o with
      | none => ∀ xs, ¬ Completes line rule xs
      | some L => Completes line rule L ∧ ∀ xs, Completes line rule xs → ∀ i < line.length, blk xs i ≤ blk L i := by
  obtain ⟨k, hk⟩ := kinds_false rule
  have h0 : (kinds rule)[0]? = some false := by rw [hk]; rfl
  obtain ⟨o, ha, hf⟩ := findLeft_spec (kinds_frame hr) h0 hst (by
    rw [kinds_length]; unfold Small at hs; omega) line
  refine ⟨_, hf, ?_⟩
  cases o with
  | none =>
    intro xs hx
    obtain ⟨tr, ht, _⟩ := full_iff.mpr hx
    exact ha tr ht
  | some T =>
    refine ⟨full_iff.mp ⟨T, ha.1, rfl⟩, ?_⟩
    intro xs hx i hi
    obtain ⟨tr, ht, rfl⟩ := full_iff.mpr hx
    rw [full_blk h0 ht.1 hi, full_blk h0 ha.1.1 hi]
    exact seg_mono (ha.2 tr ht i)

/-! ### The loop -/

/-- The squares after the step, for the given extreme completions. -/
def deduceAt (L R : List Bool) (line : List Square) (i : Nat) : Square :=
  match line.getD i .Blank with
  | .Blank =>
    if blk L i = blk R i then (if L.getD i false = true then .Filled else .Blocked) else .Blank
  | q => q

/-- The line after the step. -/
def deduce (L R : List Bool) (line : List Square) : List Square :=
  (List.range line.length).map (deduceAt L R line)

/-- The squares after the step with counters that wrap around. -/
def deduceAtW (L R : List Bool) (line : List Square) (i : Nat) : Square :=
  match line.getD i .Blank with
  | .Blank =>
    if blk L i % 2 ^ 32 = blk R i % 2 ^ 32 then (if L.getD i false = true then .Filled else .Blocked) else .Blank
  | q => q

/-- The line after the step with counters that wrap around. -/
def deduceW (L R : List Bool) (line : List Square) : List Square :=
  (List.range line.length).map (deduceAtW L R line)

theorem incI32_ok (oc : Bool) {a : Nat} (h : oc = true → a + 1 < 2 ^ 31) : incI32 oc (a % 2 ^ 32) = .ok ((a + 1) % 2 ^ 32) := by
  unfold incI32
  rw [if_neg (by rintro ⟨h1, h2⟩; have := h h1; omega), Nat.mod_add_mod]

/-- The state of the loop after `i` iterations. -/
def stateAt (L R : List Bool) (line : List Square) (i : Nat) : LState :=
  { grid := (List.range line.length).map fun k => if k < i then deduceAtW L R line k else line.getD k .Blank
    changed := decide (∃ k < i, deduceAtW L R line k ≠ line.getD k .Blank)
    leftBlock := changes false (L.take i) % 2 ^ 32
    rightBlock := changes false (R.take i) % 2 ^ 32
    leftState := lastB false (L.take i)
    rightState := lastB false (R.take i) }

theorem bumpL (oc : Bool) {S : LState} {n : Nat} {p c : Bool} (h1 : S.leftBlock = n % 2 ^ 32) (h2 : S.leftState = p)
    (h : oc = true → n + (if c = p then 0 else 1) < 2 ^ 31) :
    (if c ≠ S.leftState then do
      let b ← incI32 oc S.leftBlock
      return { S with leftBlock := b, leftState := c }
    else return S : Prog LState) = .ok { S with leftBlock := (n + (if c = p then 0 else 1)) % 2 ^ 32, leftState := c } := by
  subst h2
  by_cases hc : c = S.leftState
  · rw [if_neg (by simpa using hc), if_pos hc, hc, Nat.add_zero, ← h1]; rfl
  · rw [if_neg hc] at h
    rw [if_pos hc, if_neg hc, h1, incI32_ok oc h]; rfl

theorem bumpR (oc : Bool) {S : LState} {n : Nat} {p c : Bool} (h1 : S.rightBlock = n % 2 ^ 32) (h2 : S.rightState = p)
    (h : oc = true → n + (if c = p then 0 else 1) < 2 ^ 31) :
    (if c ≠ S.rightState then do
      let b ← incI32 oc S.rightBlock
      return { S with rightBlock := b, rightState := c }
    else return S : Prog LState) = .ok { S with rightBlock := (n + (if c = p then 0 else 1)) % 2 ^ 32, rightState := c } := by
  subst h2
  by_cases hc : c = S.rightState
  · rw [if_neg (by simpa using hc), if_pos hc, hc, Nat.add_zero, ← h1]; rfl
  · rw [if_neg hc] at h
    rw [if_pos hc, if_neg hc, h1, incI32_ok oc h]; rfl

theorem lineBody_step (oc : Bool) {L R : List Bool} {line : List Square} (hL : L.length = line.length)
    (hR : R.length = line.length) {i : Nat} (hi : i < line.length) (hb : oc = true → blk L i < 2 ^ 31 ∧ blk R i < 2 ^ 31) :
    lineBody oc L R.reverse (stateAt L R line i) i = .ok (stateAt L R line (i + 1)) := by
  have hiL : i < L.length := by omega
  have hiR : i < R.length := by omega
  have hrev : R.reverse[R.reverse.length - 1 - i]? = some R[i] := by
    rw [List.getElem?_reverse (by simp; omega), List.length_reverse,
      show R.length - 1 - (R.length - 1 - i) = i by omega, List.getElem?_eq_getElem hiR]
  have tL : L.take (i + 1) = L.take i ++ [L[i]] := List.take_succ_eq_append_getElem hiL
  have tR : R.take (i + 1) = R.take i ++ [R[i]] := List.take_succ_eq_append_getElem hiR
  have bL : blk L i = changes false (L.take i) + if L[i] = lastB false (L.take i) then 0 else 1 := by
    rw [blk, tL, changes_snoc]
  have bR : blk R i = changes false (R.take i) + if R[i] = lastB false (R.take i) then 0 else 1 := by
    rw [blk, tR, changes_snoc]
  unfold lineBody
  rw [getP_ok hiL, Prog.ok_bind, subW_ok (by rw [List.length_reverse]; omega), Prog.ok_bind,
    subW_ok (by rw [List.length_reverse]; omega), Prog.ok_bind, getP_of hrev, Prog.ok_bind]
  -- the two counters
  rw [bumpL oc (S := stateAt L R line i) (n := changes false (L.take i)) (p := lastB false (L.take i)) rfl rfl
    (by rw [← bL]; exact fun h => (hb h).1), ← bL, Prog.ok_bind]
  rw [bumpR oc (S := { stateAt L R line i with leftBlock := blk L i % 2 ^ 32, leftState := L[i] })
    (n := changes false (R.take i)) (p := lastB false (R.take i)) rfl rfl (by rw [← bR]; exact fun h => (hb h).2), ← bR, Prog.ok_bind]
  have hg : (stateAt L R line i).grid[i]? = some (line.getD i .Blank) := by
    simp [stateAt, hi]
  simp only
  rw [getP_of hg, Prog.ok_bind]
  -- the state afterwards
  have hbl : blk L i = changes false (L.take (i + 1)) := rfl
  have hbr : blk R i = changes false (R.take (i + 1)) := rfl
  have hsl : lastB false (L.take (i + 1)) = L[i] := by rw [tL, lastB_snoc]
  have hsr : lastB false (R.take (i + 1)) = R[i] := by rw [tR, lastB_snoc]
  have hgrid : ∀ q, deduceAtW L R line i = q → (stateAt L R line i).grid.set i q = (stateAt L R line (i + 1)).grid := by
    intro q hq
    apply List.ext_getElem?
    intro k
    rw [List.getElem?_set]
    simp only [stateAt, List.getElem?_map, List.length_map, List.length_range]
    by_cases hk : k = i
    · subst hk
      simp [hi, hq]
    · rw [if_neg (by omega)]
      by_cases hkl : k < line.length
      · simp only [List.getElem?_range hkl, Option.map_some]
        by_cases h : k < i
        · rw [if_pos h, if_pos (by omega)]
        · rw [if_neg h, if_neg (by omega)]
      · rw [List.getElem?_eq_none (by simpa using hkl)]
        rfl
  have hgrid0 : deduceAtW L R line i = line.getD i .Blank →
      (stateAt L R line i).grid = (stateAt L R line (i + 1)).grid := by
    intro hq
    rw [← hgrid _ hq]
    have : (stateAt L R line i).grid[i]? = some (line.getD i .Blank) := hg
    obtain ⟨a, b⟩ := List.getElem?_eq_some_iff.mp this
    rw [← b, List.set_getElem_self]
  have hch : ∀ c, ((∃ k < i, deduceAtW L R line k ≠ line.getD k .Blank) ∨ deduceAtW L R line i ≠ line.getD i .Blank ↔ c = true) →
      c = (stateAt L R line (i + 1)).changed := by
    intro c hc
    simp only [stateAt]
    rw [Bool.eq_iff_iff, ← hc, decide_eq_true_eq]
    constructor
    · rintro (⟨k, h1, h2⟩ | h)
      · exact ⟨k, by omega, h2⟩
      · exact ⟨i, by omega, h⟩
    · rintro ⟨k, h1, h2⟩
      by_cases hk : k = i
      · subst hk; exact .inr h2
      · exact .inl ⟨k, by omega, h2⟩
  have hold : (∃ k < i, deduceAtW L R line k ≠ line.getD k .Blank) ↔ (stateAt L R line i).changed = true := by
    simp only [stateAt, decide_eq_true_eq]
  have fin0 : deduceAtW L R line i = line.getD i .Blank →
      ({ stateAt L R line i with leftBlock := blk L i % 2 ^ 32, leftState := L[i], rightBlock := blk R i % 2 ^ 32, rightState := R[i] } : LState) =
        stateAt L R line (i + 1) := by
    intro hq
    have e1 := hgrid0 hq
    have e2 := hch (stateAt L R line i).changed (by rw [hold]; simp [hq])
    simp only [e1, e2, hbl, hbr, ← hsl, ← hsr]
    rfl
  by_cases hq : line.getD i .Blank = .Blank
  · rw [if_neg (by simpa using hq)]
    by_cases hc : blk L i % 2 ^ 32 = blk R i % 2 ^ 32
    · have hLR : L[i] = R[i] := by
        rw [blk_parity (List.getElem?_eq_getElem hiL), blk_parity (List.getElem?_eq_getElem hiR),
          show blk L i % 2 = blk R i % 2 by omega]
      have hd : deduceAtW L R line i = if L[i] = true then .Filled else .Blocked := by
        simp only [deduceAtW, hq, if_pos hc]
        rw [List.getD_eq_getElem?_getD, List.getElem?_eq_getElem hiL]; rfl
      rw [if_pos ⟨hc, hLR⟩, setP_ok (by simpa [stateAt] using hi), Prog.ok_bind]
      have e1 := hgrid _ hd
      have e2 := hch true (by
        rw [hd, hq]; cases L[i] <;> simp)
      rw [e1]
      simp only [hbl, hbr, ← hsl, ← hsr, e2]
      rfl
    · rw [if_neg (by tauto)]
      have hd : deduceAtW L R line i = line.getD i .Blank := by
        simp only [deduceAtW, hq, if_neg hc]
      exact congrArg Prog.ok (fin0 hd)
  · rw [if_pos hq]
    have hd : deduceAtW L R line i = line.getD i .Blank := by
      unfold deduceAtW
      split
      · rename_i h; exact absurd h hq
      · rfl
    exact congrArg Prog.ok (fin0 hd)

theorem lineLoop (oc : Bool) {L R : List Bool} {line : List Square} (hL : L.length = line.length)
    (hR : R.length = line.length) (hb : oc = true → ∀ i < line.length, blk L i < 2 ^ 31 ∧ blk R i < 2 ^ 31) :
    _root_.forIn' (List.range L.length) (stateAt L R line 0) (lineBody oc L R.reverse) =
      .ok (stateAt L R line line.length) := by
  obtain ⟨s', h1, h2⟩ := forIn'_spec (List.range L.length) (lineBody oc L R.reverse)
    (fun pre s => s = stateAt L R line pre.length) (by
      intro pre x post s hpre hs
      have hlen := congrArg List.length hpre
      simp only [List.length_range, List.length_append, List.length_cons] at hlen
      have hx : x = pre.length := by
        have := congrArg (fun l => l[pre.length]?) hpre
        simp only [List.getElem?_append_right (le_refl _), Nat.sub_self, List.getElem?_cons_zero] at this
        rw [List.getElem?_range (by omega)] at this
        exact (Option.some.inj this).symm
      subst hx hs
      exact ⟨_, lineBody_step oc hL hR (by omega) fun h => hb h _ (by omega), by simp⟩) _ rfl
  rw [show stateAt L R line 0 = stateAt L R line ([] : List Nat).length from rfl, h1, h2, List.length_range, hL]

/-- The machine of a rule. -/
def IsMachine (rule : List Nat) (m : RuleMachine) : Prop :=
  St (kinds rule) m.leftStates ∧ St (kinds rule.reverse) m.rightStates

theorem machine_new {rule : List Nat} (hs : Small rule) : ∃ m, RuleMachine.new rule = .ok m ∧ IsMachine rule m := by
  have hb : ∀ r, Small r → (r.map (· + 1)).sum + 2 < 2 ^ 63 := by intro r h; unfold Small at h; omega
  obtain ⟨st, h1, h2⟩ := ruleStates_spec (hb _ hs)
  obtain ⟨st', h1', h2'⟩ := ruleStates_spec (hb _ (small_reverse hs))
  refine ⟨⟨st, st'⟩, ?_, h2, h2'⟩
  unfold RuleMachine.new
  rw [h1, Prog.ok_bind, h1', Prog.ok_bind]
  rfl

/-- The counters stay within `i32`. -/
theorem blk_fits {line : List Square} {rule : List Nat} {xs : List Bool} (h : Completes line rule xs)
    (hc : CountsFit line.length rule) {i : Nat} (hi : i < line.length) : blk xs i < 2 ^ 31 := by
  have hl : xs.length = line.length := h.1.1
  rcases hc.2 with hc | hc
  · have := changes_le false (xs.take (i + 1))
    rw [List.length_take] at this
    unfold blk
    omega
  · have h1 := blk_reverse (xs := xs) (i := i) (by omega)
    have h2 := List.length_filter_le (fun a => decide (0 < a)) rule
    rw [h.2.runs] at h1
    omega

/-- The line step: `NoSolution`, or the loop over the squares with the extreme completions. -/
theorem rightLeft_loop (oc : Bool) {rule : List Nat} (hr : Framed rule) (hs : Small rule) {m : RuleMachine}
    (hm : IsMachine rule m) {line : List Square} :
    ((∀ xs, ¬ Completes line rule xs) ∧ m.rightLeft oc line = .ok (.error .NoSolution)) ∨
    ∃ L R, Extremes line rule L R ∧
      m.rightLeft oc line = _root_.forIn' (List.range L.length) (stateAt L R line 0) (lineBody oc L R.reverse) >>= fun s =>
        .ok (.ok (s.grid, s.changed)) := by
  obtain ⟨o, h1, h2⟩ := findLeft_rule hr.1 hs hm.1 line
  obtain ⟨o', h1', h2'⟩ := findLeft_rule (framed_reverse hr).1 (small_reverse hs) hm.2 line.reverse
  unfold RuleMachine.rightLeft
  rw [h1, Prog.ok_bind]
  cases o with
  | none => exact .inl ⟨h2, rfl⟩
  | some L =>
    simp only at h2 ⊢
    rw [h1', Prog.ok_bind]
    cases o' with
    | none =>
      exfalso
      exact h2' _ (completes_reverse.mpr h2.1)
    | some R' =>
      simp only at h2' ⊢
      have hRc : Completes line rule R'.reverse := by
        rw [← completes_reverse, List.reverse_reverse]; exact h2'.1
      have hLl : L.length = line.length := h2.1.1.1
      have hRl : R'.reverse.length = line.length := hRc.1.1
      right
      have hE : Extremes line rule L R'.reverse := by
        refine ⟨h2.1, hRc, ?_, h2.2⟩
        intro xs hx i hi
        have hxl : xs.length = line.length := hx.1.1
        have e1 := blk_reverse (xs := xs) (i := i) (by omega)
        have e2 := blk_reverse (xs := R'.reverse) (i := i) (by omega)
        rw [hx.2.runs] at e1
        rw [hRc.2.runs, List.reverse_reverse] at e2
        have e3 := h2'.2 _ (completes_reverse.mpr hx) (line.length - 1 - i) (by rw [List.length_reverse]; omega)
        rw [hxl] at e1
        rw [hRl] at e2
        omega
      refine ⟨L, R'.reverse, hE, ?_⟩
      have h0 : stateAt L R'.reverse line 0 = ⟨line, false, 0, 0, false, false⟩ := by
        simp only [stateAt, List.take_zero, changes, lastB_nil]
        congr 1
        · apply List.ext_getElem?
          intro k
          by_cases hk : k < line.length
          · simp [hk]
          · simp [hk]
      rw [h0, List.reverse_reverse]
      rfl

/-- The line step, completely: with overflow checks as long as the counters stay within `i32`. -/
theorem rightLeft_gen (oc : Bool) {rule : List Nat} (hr : Framed rule) (hs : Small rule) {m : RuleMachine}
    (hm : IsMachine rule m) {line : List Square}
    (hb : oc = true → ∀ L R, Extremes line rule L R → ∀ i < line.length, blk L i < 2 ^ 31 ∧ blk R i < 2 ^ 31) :
    ((∀ xs, ¬ Completes line rule xs) ∧ m.rightLeft oc line = .ok (.error .NoSolution)) ∨
    ∃ L R, Extremes line rule L R ∧
      m.rightLeft oc line = .ok (.ok (deduceW L R line, decide (deduceW L R line ≠ line))) := by
  rcases rightLeft_loop oc hr hs hm (line := line) with h | ⟨L, R, hE, h⟩
  · exact .inl h
  · refine .inr ⟨L, R, hE, ?_⟩
    rw [h, lineLoop oc hE.left.1.1 hE.right.1.1 fun h => hb h _ _ hE, Prog.ok_bind]
    have hg : (stateAt L R line line.length).grid = deduceW L R line := by
      simp only [stateAt, deduceW]
      apply List.map_congr_left
      intro k hk
      rw [if_pos (List.mem_range.mp hk)]
    have hc : (stateAt L R line line.length).changed = decide (deduceW L R line ≠ line) := by
      simp only [stateAt]
      congr 1
      apply propext
      constructor
      · rintro ⟨k, h1, h2⟩ he
        apply h2
        have := congrArg (fun l => l.getD k .Blank) he
        simpa [deduceW, h1] using this
      · intro hne
        by_contra hno
        apply hne
        apply List.ext_getElem?
        intro k
        by_cases hk : k < line.length
        · have : deduceAtW L R line k = line.getD k .Blank := by
            by_contra hh
            exact hno ⟨k, hk, hh⟩
          simp only [deduceW, List.getElem?_map, List.getElem?_range hk, Option.map_some, this]
          simp [hk]
        · simp [deduceW, hk]
    rw [hg, hc]

theorem deduceW_eq {L R : List Bool} {line : List Square}
    (h : ∀ i < line.length, blk L i % 2 ^ 32 = blk R i % 2 ^ 32 → blk L i = blk R i) : deduceW L R line = deduce L R line := by
  unfold deduceW deduce
  apply List.map_congr_left
  intro i hi
  have hi := List.mem_range.mp hi
  unfold deduceAtW deduceAt
  split
  · by_cases hb : blk L i = blk R i
    · rw [if_pos hb, if_pos (by rw [hb])]
    · rw [if_neg hb, if_neg (fun e => hb (h i hi e))]
  · rfl

/-- The line step, completely. -/
theorem rightLeft_line (oc : Bool) {rule : List Nat} (hr : Framed rule) (hs : Small rule) {m : RuleMachine}
    (hm : IsMachine rule m) {line : List Square} (hb : CountsFit line.length rule) :
    ((∀ xs, ¬ Completes line rule xs) ∧ m.rightLeft oc line = .ok (.error .NoSolution)) ∨
    ∃ L R, Extremes line rule L R ∧
      m.rightLeft oc line = .ok (.ok (deduce L R line, decide (deduce L R line ≠ line))) := by
  have hf : ∀ L R, Extremes line rule L R → ∀ i < line.length, blk L i < 2 ^ 31 ∧ blk R i < 2 ^ 31 :=
    fun L R he i hi => ⟨blk_fits he.left hb hi, blk_fits he.right hb hi⟩
  rcases rightLeft_gen oc hr hs hm fun _ => hf with h | ⟨L, R, he, h⟩
  · exact .inl h
  · refine .inr ⟨L, R, he, ?_⟩
    rwa [deduceW_eq fun i hi e => ?_] at h
    have := hf L R he i hi
    omega

end Nonogram
