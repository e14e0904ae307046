import Verif.Proofs.Nonogram.Trace

/-! `find_left` keeps, for every state, the largest trace that ends there, and returns the largest full trace. -/
namespace Nonogram
open Spec

variable {K : List Bool}

/-! ### The state list -/

/-- The node list `st` implements the kinds `K`. -/
structure St (K : List Bool) (st : List Node) : Prop where
  len : st.length = K.length + 1
  zero : st[0]? = some .Start
  node : ∀ (i : Nat) b, K[i]? = some b →
    st[i + 1]? = some (if b = true then .Fill else if i = 0 ∨ i + 1 = K.length then .End else .Space)

/-- The nodes pushed by the construction loop. -/
def body (rule : List Nat) : List Node := rule.flatMap fun a => List.replicate a .Fill ++ [.Space]

theorem body_length (rule : List Nat) : (body rule).length = (rule.map (· + 1)).sum := by
  induction rule with
  | nil => rfl
  | cons a r ih => simp [body, List.flatMap_cons] at ih ⊢; omega

theorem kinds_body (rule : List Nat) : kinds rule = false :: (body rule).map (fun n => decide (n = .Fill)) := by
  induction rule with
  | nil => rfl
  | cons a r ih => rw [kinds, ih]; simp [body, List.flatMap_cons]

theorem body_mem {rule : List Nat} {n : Node} (h : n ∈ body rule) : n = .Fill ∨ n = .Space := by
  simp only [body, List.mem_flatMap, List.mem_append, List.mem_replicate, List.mem_singleton] at h
  obtain ⟨_, _, ⟨_, h⟩ | h⟩ := h
  · exact .inl h
  · exact .inr h

theorem kinds_last (rule : List Nat) : (kinds rule)[(kinds rule).length - 1]? = some false := by
  induction rule with
  | nil => rfl
  | cons a r ih =>
    obtain ⟨k, hk⟩ := kinds_false r
    rw [kinds]
    have : (false :: (List.replicate a true ++ kinds r)).length - 1 = 1 + a + ((kinds r).length - 1) := by
      rw [hk]; simp; omega
    rw [this, show false :: (List.replicate a true ++ kinds r) = (false :: List.replicate a true) ++ kinds r from rfl,
      List.getElem?_append_right (by simp; omega)]
    rw [show 1 + a + ((kinds r).length - 1) - (false :: List.replicate a true).length = (kinds r).length - 1 by
      simp; omega]
    exact ih

theorem pushBlocks (rule : List Nat) (st : List Node) (h : st.length + (rule.map (· + 1)).sum < 2 ^ 63) :
    forIn' rule st pushBlock = .ok (st ++ body rule) := by
  induction rule generalizing st with
  | nil => simp [body]
  | cons a r ih =>
    simp only [List.map_cons, List.sum_cons] at h
    have h1 : pushBlock st a = .ok (st ++ List.replicate a .Fill ++ [.Space]) := by
      unfold pushBlock vecRepeat
      rw [if_pos (by omega), Prog.ok_bind, if_pos (by omega)]
    rw [forIn'_cons, h1, Prog.ok_bind, ih _ (by simp; omega)]
    simp [body, List.flatMap_cons]

theorem ruleStates_spec {rule : List Nat} (h : (rule.map (· + 1)).sum + 2 < 2 ^ 63) :
    ∃ st, ruleStates rule = .ok st ∧ St (kinds rule) st := by
  have hl : (kinds rule).length = (body rule).length + 1 := by rw [kinds_body]; simp
  have hlen : ([Node.Start, Node.End] ++ body rule).length = (kinds rule).length + 1 := by
    rw [hl]; simp
  refine ⟨([Node.Start, Node.End] ++ body rule).set (([Node.Start, Node.End] ++ body rule).length - 1) Node.End, ?_, ?_, ?_, ?_⟩
  · unfold ruleStates
    rw [pushBlocks rule _ (by simp; omega), Prog.ok_bind, setP_ok (by rw [hlen]; omega)]
  · rw [List.length_set, hlen]
  · rw [hlen, List.getElem?_set_ne (by rw [hl]; omega)]; rfl
  · intro i b hb
    have hi : i < (kinds rule).length := (List.getElem?_eq_some_iff.mp hb).1
    rw [hlen, Nat.add_sub_cancel]
    by_cases hlast : i + 1 = (kinds rule).length
    · have hf := kinds_last rule
      rw [show (kinds rule).length - 1 = i by omega, hb] at hf
      obtain rfl := Option.some.inj hf
      rw [hlast, List.getElem?_set_self (by rw [hlen]; omega)]
      simp [hlast]
    · rw [List.getElem?_set_ne (by omega)]
      cases i with
      | zero =>
        rw [kinds_body] at hb
        simp only [List.getElem?_cons_zero, Option.some.injEq] at hb
        subst hb
        simp
      | succ i =>
        rw [kinds_body, List.getElem?_cons_succ, List.getElem?_map] at hb
        simp only [List.cons_append, List.getElem?_cons_succ, List.nil_append]
        cases hn : (body rule)[i]? with
        | none => rw [hn] at hb; simp at hb
        | some n =>
          rw [hn] at hb
          simp only [Option.map_some, Option.some.injEq] at hb
          subst hb
          rcases body_mem (List.mem_of_getElem? hn) with rfl | rfl
          · simp
          · simp [hlast]

/-! ### One state -/

/-- The (possibly missing) square allows kind `b`. -/
def okO (sq : Option Square) (b : Bool) : Prop := if b = true then sq ≠ some .Blocked else sq ≠ some .Filled

theorem okO_some {q : Square} {b : Bool} : okO (some q) b ↔ Compat q b := by
  cases q <;> cases b <;> simp [okO, Compat]

/-- A move allowed by the current square. -/
def StepO (K : List Bool) (sq : Option Square) (s u : Nat) : Prop := ∃ b, okO sq b ∧ Mv K b s u

theorem stepO_some {q : Square} {s u : Nat} : StepO K (some q) s u ↔ Step K q s u := by
  simp only [StepO, Step, okO_some]

theorem stepO_iff {sq : Option Square} {s u : Nat} (hs : 1 ≤ s) {c : Bool} (hc : K[s - 1]? = some c) :
    StepO K sq s u ↔ (u = s ∧ c = false ∧ sq ≠ some .Filled) ∨ (u = s + 1 ∧ ∃ b, K[s]? = some b ∧ okO sq b) := by
  constructor
  · rintro ⟨b, h1, h2, h3, h4 | ⟨rfl, h4⟩⟩
    · subst h4
      exact .inr ⟨rfl, b, by simpa using h3, h1⟩
    · subst h4
      rw [hc] at h3
      obtain rfl := Option.some.inj h3
      exact .inl ⟨rfl, rfl, by simpa [okO] using h1⟩
  · rintro (⟨rfl, rfl, h⟩ | ⟨rfl, b, h1, h2⟩)
    · exact ⟨false, by simpa [okO] using h, hs, hc, .inr ⟨rfl, rfl⟩⟩
    · exact ⟨b, h2, by omega, by simpa using h1, .inl rfl⟩

theorem getP_of {α : Type} {v : List α} {i : Nat} {a : α} (h : v[i]? = some a) : getP v i = .ok a := by
  simp [getP, h]

/-- What `find_left` needs: a leading gap followed by a block, and a gap at the end. -/
structure Frame (K : List Bool) : Prop where
  first : K[0]? = some false
  second : 1 < K.length → K[1]? = some true
  last_false : ∀ {s : Nat}, s + 1 = K.length → K[s]? = some false

theorem kinds_frame {rule : List Nat} (h : rule.head? ≠ some 0) : Frame (kinds rule) := by
  refine ⟨?_, kinds_second h, fun {s} hs => ?_⟩
  · obtain ⟨k, hk⟩ := kinds_false rule
    rw [hk]; rfl
  · have := kinds_last rule
    rwa [show (kinds rule).length - 1 = s by omega] at this

theorem Frame.len_ne_two (hK : Frame K) : K.length ≠ 2 := by
  intro h
  have h1 := hK.second (by omega)
  have h2 := hK.last_false (s := 1) (by omega)
  rw [h2] at h1; cases h1

/-- The effect of staying in a gap. -/
theorem stay_gap {sq : Option Square} {s : Nat} {m : List Nat} {new : Matches} {p : Prop} [Decidable p] (hs : s < new.length) :
    stay (if (false : Bool) = true then Node.Fill else if p then Node.End else Node.Space) sq s m new =
      .ok (if sq ≠ some .Filled then new.set s (some (m ++ [s])) else new) := by
  have : (if (false : Bool) = true then Node.Fill else if p then Node.End else Node.Space) = .Space ∨
      (if (false : Bool) = true then Node.Fill else if p then Node.End else Node.Space) = .End := by
    simp only [Bool.false_eq_true, if_false]
    split
    · exact .inr rfl
    · exact .inl rfl
  rcases this with h | h <;> rw [h] <;> simp only [stay] <;> split <;> first | rfl | (rw [setP_ok hs])

open Classical in
/-- The effect of visiting one state that does not accept. -/
theorem visitState_next (hK : Frame K) (h0 : K[0]? = some false) {st : List Node} (hst : St K st)
    {sq : Option Square} {rest : List Square} {s : Nat} {m : List Nat} {new : Matches} (hs : s < K.length)
    (hn : new.length = K.length + 2)
    (hrej : s + 1 = K.length → ∃ q, sq = some q ∧ lookahead (s + 1) (q :: rest) m = none) :
    ∃ new', visitState st sq rest s m new = .ok (.next new') ∧ new'.length = new.length ∧
      ∀ u, new'[u]? = if StepO K sq (max s 1) u ∧ u ≠ K.length then some (some (m ++ [u])) else new[u]? := by
  have hnext := fun b hb => hst.node s b hb
  obtain ⟨b, hb⟩ : ∃ b, K[s]? = some b := ⟨K[s], List.getElem?_eq_getElem hs⟩
  have hnx := hnext b hb
  by_cases hlast : s + 1 = K.length
  · -- rejected look-ahead
    obtain ⟨q, rfl, hla⟩ := hrej hlast
    have hbf : b = false := by
      have := hK.last_false hlast
      rw [hb] at this
      exact Option.some.inj this
    subst hbf
    have hnx' : st[s + 1]? = some .End := by simpa [hlast] using hnx
    have hnn : st[s + 2]? = none := List.getElem?_eq_none (by rw [hst.len]; omega)
    by_cases hz : s = 0
    · subst hz
      refine ⟨new, ?_, rfl, ?_⟩
      · unfold visitState
        rw [getP_of hst.zero, Prog.ok_bind, getP_of hnx', Prog.ok_bind]
        simp [stay, hnn, hla]
      · intro u
        rw [if_neg]
        rintro ⟨⟨b', _, h1, h2, h3⟩, h4⟩
        have : u - 1 < K.length := (List.getElem?_eq_some_iff.mp h2).1
        omega
    · obtain ⟨c, hc⟩ : ∃ c, K[s - 1]? = some c := ⟨K[s - 1], List.getElem?_eq_getElem (by omega)⟩
      have hcur := hst.node _ _ hc
      rw [show s - 1 + 1 = s by omega] at hcur
      have hstep := fun u => stepO_iff (sq := some q) (u := u) (show 1 ≤ s by omega) hc
      rw [show max s 1 = s by omega]
      simp only [hstep]
      unfold visitState
      rw [getP_of hcur, Prog.ok_bind, getP_of hnx', Prog.ok_bind]
      cases c with
      | true =>
        simp only [if_true, stay, Prog.ok_bind, hnn, hla]
        refine ⟨new, rfl, rfl, fun u => ?_⟩
        rw [if_neg]
        rintro ⟨⟨_, h, _⟩ | ⟨h, _⟩, h4⟩
        · cases h
        · omega
      | false =>
        rw [stay_gap (by omega), Prog.ok_bind]
        simp only [hnn, hla]
        refine ⟨_, rfl, by split <;> simp, fun u => ?_⟩
        by_cases hf : q = .Filled
        · subst hf
          rw [if_neg (by simp), if_neg]
          rintro ⟨⟨_, _, h⟩ | ⟨h, _⟩, h4⟩
          · exact h rfl
          · omega
        · rw [if_pos (by simpa using hf), List.getElem?_set]
          by_cases hu : s = u
          · subst hu
            rw [if_pos rfl, if_pos (by omega), if_pos ⟨.inl (by simpa using hf), by omega⟩]
          · rw [if_neg hu, if_neg]
            rintro ⟨⟨h, _⟩ | ⟨h, _⟩, h4⟩ <;> omega
  · have hlt : s + 1 < K.length := by omega
    by_cases hz : s = 0
    · subst hz
      rw [h0] at hb
      obtain rfl := Option.some.inj hb
      have hnx' : st[0 + 1]? = some .End := by simpa using hnx
      have hK1 := hK.second (by omega)
      have h3 : 2 < K.length := by have := hK.len_ne_two; omega
      have hnn : st[0 + 2]? = some .Fill := by simpa using hst.node 1 true hK1
      unfold visitState
      rw [getP_of hst.zero, Prog.ok_bind, getP_of hnx', Prog.ok_bind]
      have hstep : ∀ u, StepO K sq (max 0 1) u ↔ (u = 1 ∧ sq ≠ some .Filled) ∨ (u = 2 ∧ sq ≠ some .Blocked) := by
        intro u
        rw [show max 0 1 = 1 from rfl, stepO_iff (le_refl _) (by simpa using h0)]
        have : K[1]? = some true := by simpa using hK1
        simp [this, okO]
      simp only [stay, Prog.ok_bind, hnn, hstep]
      by_cases hf : sq = some .Filled
      · subst hf
        simp only [ne_eq, not_true_eq_false, if_false, Prog.ok_bind, reduceCtorEq, Option.some.injEq,
          not_false_eq_true, if_true, and_false, and_true, false_or, Prog.pure_eq]
        rw [setP_ok (by omega), Prog.ok_bind]
        refine ⟨_, rfl, by simp, ?_⟩
        intro u
        rw [List.getElem?_set]
        by_cases h2 : u = 2
        · subst h2
          rw [if_pos rfl, if_pos (by simp; omega), if_pos (by simp; omega)]
        · rw [if_neg (by omega), if_neg (by omega)]
      · simp only [hf, ne_eq, not_false_eq_true, if_true, and_true]
        rw [setP_ok (by omega), Prog.ok_bind]
        by_cases hbk : sq = some .Blocked
        · subst hbk
          simp only [ne_eq, not_true_eq_false, if_false, Prog.ok_bind, and_false, or_false, Prog.pure_eq]
          refine ⟨_, rfl, by simp, ?_⟩
          intro u
          rw [List.getElem?_set]
          by_cases h2 : u = 1
          · subst h2
            simp [show (1 : Nat) ≠ K.length by omega, show (1 : Nat) < new.length by omega]
          · rw [if_neg (by omega), if_neg (by omega)]
        · simp only [hbk, ne_eq, not_false_eq_true, if_true, and_true]
          rw [setP_ok (by simp; omega), Prog.ok_bind]
          refine ⟨_, rfl, by simp, ?_⟩
          intro u
          rw [List.getElem?_set, List.getElem?_set]
          by_cases h2 : u = 2
          · subst h2
            rw [if_pos rfl, if_pos (by simp; omega), if_pos (by simp; omega)]
          · by_cases h1 : u = 1
            · subst h1
              simp [show (1 : Nat) ≠ K.length by omega, show (1 : Nat) < new.length by omega]
            · rw [if_neg (by omega), if_neg (by omega), if_neg (by omega)]
    · obtain ⟨c, hc⟩ : ∃ c, K[s - 1]? = some c := ⟨K[s - 1], List.getElem?_eq_getElem (by omega)⟩
      have hcur := hst.node _ _ hc
      rw [show s - 1 + 1 = s by omega] at hcur
      have hstep := fun u => stepO_iff (sq := sq) (u := u) (show 1 ≤ s by omega) hc
      rw [show max s 1 = s by omega]
      simp only [hstep, hb, Option.some.injEq, exists_eq_left']
      unfold visitState
      rw [getP_of hcur, Prog.ok_bind, getP_of hnx, Prog.ok_bind]
      cases c with
      | false =>
        rw [stay_gap (by omega), Prog.ok_bind]
        cases b with
        | false =>
          have hs1 : s ≠ 1 := by
            rintro rfl
            have := hK.second (by omega)
            rw [hb] at this; cases this
          simp only [Bool.false_eq_true, if_false, show ¬ (s = 0 ∨ s + 1 = K.length) by omega, okO, true_and]
          by_cases hf : sq = some .Filled
          · subst hf
            simp only [ne_eq, not_true_eq_false, if_false, and_false, false_and, or_false, Prog.pure_eq]
            exact ⟨_, rfl, rfl, fun u => rfl⟩
          · simp only [hf, ne_eq, not_false_eq_true, if_true, and_true]
            rw [setP_ok (by simp; omega), Prog.ok_bind]
            refine ⟨_, rfl, by simp, ?_⟩
            intro u
            rw [List.getElem?_set, List.getElem?_set]
            by_cases h2 : u = s + 1
            · subst h2
              rw [if_pos rfl, if_pos (by simp; omega), if_pos ⟨.inr rfl, by omega⟩]
            · by_cases h1 : u = s
              · subst h1
                rw [if_neg (by omega), if_pos rfl, if_pos (by omega), if_pos ⟨.inl rfl, by omega⟩]
              · rw [if_neg (by omega), if_neg (by omega), if_neg (by omega)]
        | true =>
          simp only [if_true, okO, true_and]
          by_cases hf : sq = some .Filled
          · subst hf
            simp only [ne_eq, not_true_eq_false, if_false, reduceCtorEq, Option.some.injEq,
              not_false_eq_true, if_true, and_false, and_true, false_or, Prog.pure_eq]
            rw [setP_ok (by omega), Prog.ok_bind]
            refine ⟨_, rfl, by simp, ?_⟩
            intro u
            rw [List.getElem?_set]
            by_cases h2 : u = s + 1
            · subst h2
              rw [if_pos rfl, if_pos (by omega), if_pos ⟨rfl, by omega⟩]
            · rw [if_neg (by omega), if_neg (by omega)]
          · simp only [hf, ne_eq, not_false_eq_true, if_true, and_true]
            by_cases hbk : sq = some .Blocked
            · subst hbk
              simp only [ne_eq, not_true_eq_false, if_false, and_false, or_false, Prog.pure_eq]
              refine ⟨_, rfl, by simp, ?_⟩
              intro u
              rw [List.getElem?_set]
              by_cases h2 : u = s
              · subst h2
                rw [if_pos rfl, if_pos (by omega), if_pos ⟨rfl, by omega⟩]
              · rw [if_neg (by omega), if_neg (by omega)]
            · simp only [hbk, ne_eq, not_false_eq_true, if_true, and_true]
              rw [setP_ok (by simp; omega), Prog.ok_bind]
              refine ⟨_, rfl, by simp, ?_⟩
              intro u
              rw [List.getElem?_set, List.getElem?_set]
              by_cases h2 : u = s + 1
              · subst h2
                rw [if_pos rfl, if_pos (by simp; omega), if_pos ⟨.inr rfl, by omega⟩]
              · by_cases h1 : u = s
                · subst h1
                  rw [if_neg (by omega), if_pos rfl, if_pos (by omega), if_pos ⟨.inl rfl, by omega⟩]
                · rw [if_neg (by omega), if_neg (by omega), if_neg (by omega)]
      | true =>
        simp only [if_true, stay, Prog.ok_bind, reduceCtorEq, false_and, and_false, false_or]
        cases b with
        | true =>
          simp only [if_true, okO]
          by_cases hbk : sq = some .Blocked
          · subst hbk
            simp only [ne_eq, not_true_eq_false, if_false, and_false, false_and, Prog.pure_eq]
            exact ⟨_, rfl, rfl, fun u => rfl⟩
          · simp only [hbk, ne_eq, not_false_eq_true, if_true, and_true]
            rw [setP_ok (by omega), Prog.ok_bind]
            refine ⟨_, rfl, by simp, ?_⟩
            intro u
            rw [List.getElem?_set]
            by_cases h2 : u = s + 1
            · subst h2
              rw [if_pos rfl, if_pos (by omega), if_pos ⟨rfl, by omega⟩]
            · rw [if_neg (by omega), if_neg (by omega)]
        | false =>
          simp only [Bool.false_eq_true, if_false, show ¬ (s = 0 ∨ s + 1 = K.length) by omega, okO]
          by_cases hbk : sq = some .Filled
          · subst hbk
            simp only [ne_eq, not_true_eq_false, if_false, and_false, false_and, Prog.pure_eq]
            exact ⟨_, rfl, rfl, fun u => rfl⟩
          · simp only [hbk, ne_eq, not_false_eq_true, if_true, and_true]
            rw [setP_ok (by omega), Prog.ok_bind]
            refine ⟨_, rfl, by simp, ?_⟩
            intro u
            rw [List.getElem?_set]
            by_cases h2 : u = s + 1
            · subst h2
              rw [if_pos rfl, if_pos (by omega), if_pos ⟨rfl, by omega⟩]
            · rw [if_neg (by omega), if_neg (by omega)]

theorem lookahead_eq (l : Nat) (qs : List Square) (m : List Nat) :
    lookahead l qs m = if Square.Filled ∈ qs then none else some (m ++ List.replicate qs.length l) := by
  induction qs generalizing m with
  | nil => simp [lookahead]
  | cons q qs ih =>
    rw [lookahead]
    by_cases hq : q = .Filled
    · simp [hq]
    · rw [if_neg hq, ih]
      have : (Square.Filled ∈ q :: qs) ↔ Square.Filled ∈ qs := by
        simp only [List.mem_cons]
        constructor
        · rintro (h | h)
          · exact absurd h.symm hq
          · exact h
        · exact .inr
      simp only [this]
      split
      · rfl
      · simp [List.replicate_succ]

/-- The effect of visiting the accepting state. -/
theorem visitState_accept (hK : Frame K) {st : List Node} (hst : St K st)
    {sq : Option Square} {rest : List Square} {s : Nat} {m m' : List Nat} {new : Matches} (hs : s + 1 = K.length)
    (hn : new.length = K.length + 2)
    (hacc : (match sq with
        | some q => lookahead (s + 1) (q :: rest) m
        | none => some m) = some m') :
    ∃ new' : Matches, visitState st sq rest s m new = .ok (.breakOuter (new'.set (K.length + 1) (some m'))) ∧
      new'.length = K.length + 2 := by
  have hb := hK.last_false hs
  have hnx : st[s + 1]? = some .End := by simpa [hs] using hst.node s _ hb
  have hnn : st[s + 2]? = none := List.getElem?_eq_none (by rw [hst.len]; omega)
  have hcur : ∃ n new', st[s]? = some n ∧ stay n sq s m new = .ok new' ∧ new'.length = K.length + 2 := by
    by_cases hz : s = 0
    · subst hz; exact ⟨_, new, hst.zero, rfl, hn⟩
    · obtain ⟨c, hc⟩ : ∃ c, K[s - 1]? = some c := ⟨K[s - 1], List.getElem?_eq_getElem (by omega)⟩
      have := hst.node _ _ hc
      rw [show s - 1 + 1 = s by omega] at this
      cases c with
      | true => exact ⟨_, new, this, rfl, hn⟩
      | false => exact ⟨_, _, this, stay_gap (by omega), by split <;> simpa using hn⟩
  obtain ⟨n, new', hn1, hn2, hn3⟩ := hcur
  refine ⟨new', ?_, hn3⟩
  unfold visitState
  rw [getP_of hn1, Prog.ok_bind, getP_of hnx, Prog.ok_bind]
  rw [hn2, Prog.ok_bind]
  simp only [hnn]
  rw [show s + 2 = K.length + 1 by omega]
  cases sq with
  | none =>
    simp only [Option.some.injEq] at hacc
    subst hacc
    simp only
    rw [setP_ok (by omega), Prog.ok_bind]; rfl
  | some q =>
    simp only at hacc ⊢
    rw [hacc]
    simp only
    rw [setP_ok (by omega), Prog.ok_bind]; rfl

/-! ### One round -/

open Classical in
/-- The trace written last to state `u` by the states below `j`. -/
noncomputable def lastW (K : List Bool) (sq : Option Square) (old : Matches) (u : Nat) : Nat → Option (List Nat)
  | 0 => none
  | j + 1 =>
    match old[j]? with
    | some (some m) => if StepO K sq (max j 1) u ∧ u ≠ K.length then some (m ++ [u]) else lastW K sq old u j
    | _ => lastW K sq old u j

/-- Only states below the last can be occupied. -/
def Occ (K : List Bool) (old : Matches) : Prop :=
  old.length = K.length + 2 ∧ ∀ s, K.length ≤ s → ∀ m, old[s]? ≠ some (some m)

theorem visitStates_next (hK : Frame K) (h0 : K[0]? = some false) {st : List Node} (hst : St K st)
    {sq : Option Square} {rest : List Square} {old : Matches} (hocc : Occ K old)
    (hrej : ∀ m, old[K.length - 1]? = some (some m) → ∃ q, sq = some q ∧ Square.Filled ∈ q :: rest)
    {new0 : Matches} (hn : new0.length = K.length + 2) (hnone : ∀ (u : Nat) m, new0[u]? ≠ some (some m)) :
    ∃ new', visitStates st sq rest old.zipIdx new0 = .ok (.next new') ∧ new'.length = K.length + 2 ∧
      ∀ u < K.length + 2, new'[u]? = some (lastW K sq old u (K.length + 2)) := by
  suffices h : ∀ l j new, old.drop j = l → new.length = K.length + 2 →
      (∀ u < K.length + 2, new[u]? = some (lastW K sq old u j)) →
      ∃ new', visitStates st sq rest (l.zipIdx j) new = .ok (.next new') ∧ new'.length = K.length + 2 ∧
        ∀ u < K.length + 2, new'[u]? = some (lastW K sq old u (j + l.length)) by
    obtain ⟨new', h1, h2, h3⟩ := h old 0 new0 rfl hn (by
      intro u hu
      simp only [lastW]
      cases hx : new0[u]? with
      | none => rw [List.getElem?_eq_none_iff] at hx; omega
      | some o =>
        cases o with
        | none => rfl
        | some m => exact absurd hx (hnone u m))
    refine ⟨new', h1, h2, ?_⟩
    rw [Nat.zero_add, hocc.1] at h3
    exact h3
  intro l
  induction l with
  | nil => intro j new _ hl hw; exact ⟨new, rfl, hl, hw⟩
  | cons o l ih =>
    intro j new hd hl hw
    have hj : old[j]? = some o := by
      have := congrArg (fun l => l[0]?) hd
      simpa using this
    have hd' : old.drop (j + 1) = l := by
      have := congrArg (fun l => l.drop 1) hd
      simpa [List.drop_drop] using this
    have hlen : j + (o :: l).length = j + 1 + l.length := by simp; omega
    rw [hlen, List.zipIdx_cons]
    cases o with
    | none =>
      simp only [visitStates]
      refine ih (j + 1) new hd' hl ?_
      intro u hu
      rw [hw u hu]
      simp only [lastW, hj]
    | some m =>
      have hjK : j < K.length := by
        by_contra hge
        exact hocc.2 j (by omega) m hj
      obtain ⟨new', h1, h2, h3⟩ := visitState_next (rest := rest) (sq := sq) (m := m) hK h0 hst hjK hl (by
        intro hlast
        obtain ⟨q, rfl, hq⟩ := hrej m (by rw [← hlast]; simpa using hj)
        exact ⟨q, rfl, by rw [lookahead_eq, if_pos hq]⟩)
      simp only [visitStates, h1, Prog.ok_bind]
      refine ih (j + 1) new' hd' (h2.trans hl) ?_
      intro u hu
      rw [h3 u]
      simp only [lastW, hj]
      split
      · rfl
      · exact hw u hu

theorem visitStates_accept (hK : Frame K) (h0 : K[0]? = some false) {st : List Node} (hst : St K st)
    {sq : Option Square} {rest : List Square} {old : Matches} (hocc : Occ K old) {m m' : List Nat}
    (hm : old[K.length - 1]? = some (some m))
    (hacc : (match sq with
        | some q => lookahead K.length (q :: rest) m
        | none => some m) = some m')
    {new0 : Matches} (hn : new0.length = K.length + 2) :
    ∃ new', visitStates st sq rest old.zipIdx new0 = .ok (.breakOuter new') ∧ new'.length = K.length + 2 ∧
      new'[K.length + 1]? = some (some m') := by
  have hpos : 0 < K.length := (List.getElem?_eq_some_iff.mp h0).1
  suffices h : ∀ l j new, old.drop j = l → j ≤ K.length - 1 → new.length = K.length + 2 →
      ∃ new', visitStates st sq rest (l.zipIdx j) new = .ok (.breakOuter new') ∧ new'.length = K.length + 2 ∧
        new'[K.length + 1]? = some (some m') from h old 0 new0 rfl (by omega) hn
  intro l
  induction l with
  | nil =>
    intro j new hd hj hl
    have := congrArg List.length hd
    simp [hocc.1] at this
    omega
  | cons o l ih =>
    intro j new hd hjle hl
    have hj : old[j]? = some o := by
      have := congrArg (fun l => l[0]?) hd
      simpa using this
    have hd' : old.drop (j + 1) = l := by
      have := congrArg (fun l => l.drop 1) hd
      simpa [List.drop_drop] using this
    rw [List.zipIdx_cons]
    by_cases hjk : j = K.length - 1
    · subst hjk
      rw [hm] at hj
      obtain rfl := Option.some.inj hj
      obtain ⟨new', hv, hl'⟩ := visitState_accept (rest := rest) (sq := sq) (m := m) (m' := m') hK hst
        (show K.length - 1 + 1 = K.length by omega) hl (by
          rw [show K.length - 1 + 1 = K.length by omega]; exact hacc)
      simp only [visitStates, hv, Prog.ok_bind]
      exact ⟨_, rfl, by simpa using hl', by rw [List.getElem?_set_self (by omega)]⟩
    · cases o with
      | none =>
        simp only [visitStates]
        exact ih (j + 1) new hd' (by omega) hl
      | some m1 =>
        obtain ⟨new', h1, h2, _⟩ := visitState_next (rest := rest) (sq := sq) (m := m1) hK h0 hst
          (show j < K.length by omega) hl (by intro hlast; omega)
        simp only [visitStates, h1, Prog.ok_bind]
        exact ih (j + 1) new' hd' (by omega) (h2.trans hl)

/-! ### Trace lemmas -/

theorem tr_append {s : Nat} {P Q : List Square} {a b : List Nat} (hl : a.length = P.length) :
    Tr K s (P ++ Q) (a ++ b) ↔ Tr K s P a ∧ Tr K (fin s a) Q b := by
  induction P generalizing s a with
  | nil =>
    have := List.eq_nil_of_length_eq_zero hl
    subst this
    have : Tr K s [] [] := ⟨rfl, by simp⟩
    simp [this]
  | cons q P ih =>
    cases a with
    | nil => simp at hl
    | cons u a =>
      simp only [List.cons_append, tr_cons, fin_cons]
      rw [ih (by simpa using hl), and_assoc]

theorem tr_singleton {s : Nat} {q : Square} {u : Nat} : Tr K s [q] [u] ↔ Step K q s u := by
  rw [tr_cons]
  have : Tr K u [] [] := ⟨rfl, by simp⟩
  simp [this]

theorem tr_snoc {s : Nat} {P : List Square} {q : Square} {tr : List Nat} :
    Tr K s (P ++ [q]) tr ↔ ∃ tr0 u, tr = tr0 ++ [u] ∧ Tr K s P tr0 ∧ Step K q (fin s tr0) u := by
  constructor
  · intro h
    have hl := h.1
    simp only [List.length_append, List.length_cons, List.length_nil, Nat.zero_add] at hl
    have hne : tr ≠ [] := by rintro rfl; simp at hl
    have hd := List.dropLast_concat_getLast hne
    have hl' : tr.dropLast.length = P.length := by simp; omega
    rw [← hd, tr_append hl', tr_singleton] at h
    exact ⟨_, _, hd.symm, h.1, h.2⟩
  · rintro ⟨tr0, u, rfl, h1, h2⟩
    rw [tr_append h1.1, tr_singleton]
    exact ⟨h1, h2⟩

theorem Tr.bounds {s : Nat} {P : List Square} {tr : List Nat} (h : Tr K s P tr) {i : Nat} (hi : i < P.length) :
    1 ≤ stAt tr i ∧ stAt tr i ≤ K.length := by
  obtain ⟨b, _, h1, h2, _⟩ := h.2 i P[i] (List.getElem?_eq_getElem hi)
  have := (List.getElem?_eq_some_iff.mp h2).1
  omega

theorem Tr.le_len {s : Nat} {P : List Square} {tr : List Nat} (h : Tr K s P tr) (i : Nat) : stAt tr i ≤ K.length := by
  by_cases hi : i < P.length
  · exact (h.bounds hi).2
  · simp [stAt, List.getD, List.getElem?_eq_none (show tr.length ≤ i by rw [h.1]; omega)]

theorem fin_ne_nil {s s' : Nat} {tr : List Nat} (h : tr ≠ []) : fin s tr = fin s' tr := by
  cases tr with
  | nil => exact absurd rfl h
  | cons u tr => simp

theorem Tr.fin_one {P : List Square} {tr : List Nat} (h : Tr K 1 P tr) : fin 1 tr = max (fin 0 tr) 1 := by
  by_cases hn : tr = []
  · subst hn; rfl
  · have hp : 0 < P.length := by rw [← h.1]; exact List.length_pos_iff.mpr hn
    rw [fin_ne_nil (s := 0) (s' := 1) hn]
    have : 1 ≤ fin 1 tr := by
      rw [fin_eq, h.1, prevAt, if_neg (by omega)]
      exact (h.bounds (by omega)).1
    omega

theorem Tr.fin_eq_iff {P : List Square} {a b : List Nat} (ha : Tr K 1 P a) (hb : Tr K 1 P b)
    (h : fin 1 a = fin 1 b) : fin 0 a = fin 0 b := by
  by_cases hn : a = []
  · subst hn
    have : b = [] := List.eq_nil_of_length_eq_zero (by rw [hb.1, ← ha.1]; rfl)
    subst this; rfl
  · have : b ≠ [] := by
      rintro rfl
      exact hn (List.eq_nil_of_length_eq_zero (by rw [ha.1, ← hb.1]; rfl))
    rw [fin_ne_nil (s := 0) (s' := 1) hn, h, fin_ne_nil this]

theorem Tr.mono {s : Nat} {P : List Square} {tr : List Nat} (h : Tr K s P tr) {i j : Nat} (hij : i ≤ j)
    (hj : j < P.length) : stAt tr i ≤ stAt tr j := by
  obtain ⟨d, rfl⟩ := Nat.exists_eq_add_of_le hij
  clear hij
  induction d with
  | zero => exact le_refl _
  | succ d ih =>
    have h1 := ih (by omega)
    have h2 := (h.step_le hj).1
    simp only [prevAt, if_neg (show i + (d + 1) ≠ 0 by omega), show i + (d + 1) - 1 = i + d by omega] at h2
    omega

/-! ### The invariant -/

/-- `o` is the largest element of `S`. -/
def IsBest (S : List Nat → Prop) : Option (List Nat) → Prop
  | none => ∀ tr, ¬ S tr
  | some T => S T ∧ ∀ tr, S tr → ∀ i, stAt tr i ≤ stAt T i

/-- After the squares `P`, every state holds the largest trace that ends there. -/
def Inv (K : List Bool) (P : List Square) (old : Matches) : Prop :=
  Occ K old ∧ ∀ s < K.length, ∃ o, old[s]? = some o ∧ IsBest (fun tr => Tr K 1 P tr ∧ fin 0 tr = s) o

theorem Inv.dom {P : List Square} {old : Matches} (h : Inv K P old) {s : Nat} (hs : s < K.length) {m : List Nat}
    (hm : old[s]? = some (some m)) :
    Tr K 1 P m ∧ fin 0 m = s ∧ ∀ tr, Tr K 1 P tr → fin 0 tr ≤ s → ∀ i, stAt tr i ≤ stAt m i := by
  obtain ⟨o, h1, h2⟩ := h.2 s hs
  rw [hm] at h1
  obtain rfl := Option.some.inj h1
  obtain ⟨⟨a1, a2⟩, a3⟩ := h2
  refine ⟨a1, a2, ?_⟩
  intro tr ht hle
  refine dominated a1 ?_ ht ?_
  · intro tr' ht' he
    exact a3 tr' ⟨ht', by rw [ht'.fin_eq_iff a1 he, a2]⟩
  · rw [ht.fin_one, a1.fin_one]; omega

theorem Inv.next {P : List Square} {old new : Matches} (h : Inv K P old) (q : Square)
    (hl : new.length = K.length + 2)
    (hw : ∀ u < K.length + 2, new[u]? = some (lastW K (some q) old u (K.length + 2))) :
    Inv K (P ++ [q]) new := by
  have key : ∀ u, u < K.length → ∀ j, j ≤ K.length → IsBest (fun tr => ∃ tr0, tr = tr0 ++ [u] ∧ Tr K 1 P tr0 ∧
      fin 0 tr0 < j ∧ Step K q (fin 1 tr0) u) (lastW K (some q) old u j) := by
    intro u hu j
    induction j with
    | zero => intro _; rintro tr ⟨_, _, _, h, _⟩; omega
    | succ j ih =>
      intro hj
      have ih := ih (by omega)
      obtain ⟨o, ho, hbest⟩ := h.2 j (by omega)
      simp only [lastW, ho]
      cases o with
      | none =>
        simp only
        have hno : ∀ tr0, Tr K 1 P tr0 → fin 0 tr0 ≠ j := fun tr0 h1 h2 => hbest tr0 ⟨h1, h2⟩
        generalize lastW K (some q) old u j = o at ih ⊢
        have hS : ∀ tr, (∃ tr0, tr = tr0 ++ [u] ∧ Tr K 1 P tr0 ∧ fin 0 tr0 < j + 1 ∧ Step K q (fin 1 tr0) u) ↔
            (∃ tr0, tr = tr0 ++ [u] ∧ Tr K 1 P tr0 ∧ fin 0 tr0 < j ∧ Step K q (fin 1 tr0) u) := by
          intro tr
          constructor
          · rintro ⟨tr0, a, b, c, d⟩
            have := hno tr0 b
            exact ⟨tr0, a, b, by omega, d⟩
          · rintro ⟨tr0, a, b, c, d⟩
            exact ⟨tr0, a, b, by omega, d⟩
        simp only [hS]
        exact ih
      | some m =>
        obtain ⟨m1, m2, m3⟩ := h.dom (show j < K.length by omega) ho
        simp only
        have hf1 : fin 1 m = max j 1 := by rw [m1.fin_one, m2]
        split
        · rename_i hs
          rw [stepO_some, ← hf1] at hs
          refine ⟨⟨m, rfl, m1, by omega, hs.1⟩, ?_⟩
          rintro tr ⟨tr0, rfl, b, c, d⟩ i
          have hd := m3 tr0 b (by omega)
          have hll : tr0.length = m.length := b.1.trans m1.1.symm
          simp only [stAt, List.getD_eq_getElem?_getD]
          by_cases hi : i < m.length
          · rw [List.getElem?_append_left (by omega), List.getElem?_append_left hi]
            simpa [stAt, List.getD_eq_getElem?_getD] using hd i
          · rw [List.getElem?_append_right (by omega), List.getElem?_append_right (by omega), hll]
        · rename_i hs
          rw [stepO_some, ← hf1] at hs
          have hno : ¬ Step K q (fin 1 m) u := fun hst => hs ⟨hst, by omega⟩
          generalize lastW K (some q) old u j = o at ih ⊢
          have hS : ∀ tr, (∃ tr0, tr = tr0 ++ [u] ∧ Tr K 1 P tr0 ∧ fin 0 tr0 < j + 1 ∧ Step K q (fin 1 tr0) u) ↔
              (∃ tr0, tr = tr0 ++ [u] ∧ Tr K 1 P tr0 ∧ fin 0 tr0 < j ∧ Step K q (fin 1 tr0) u) := by
            intro tr
            constructor
            · rintro ⟨tr0, a, b, c, d⟩
              refine ⟨tr0, a, b, ?_, d⟩
              by_contra hge
              have he : fin 0 tr0 = j := by omega
              have : fin 1 tr0 = fin 1 m := by rw [b.fin_one, he, hf1]
              rw [this] at d
              exact hno d
            · rintro ⟨tr0, a, b, c, d⟩
              exact ⟨tr0, a, b, by omega, d⟩
          simp only [hS]
          exact ih
  have hextra : ∀ u, ∀ d, d ≤ 2 → lastW K (some q) old u (K.length + d) = lastW K (some q) old u K.length := by
    intro u d
    induction d with
    | zero => intro _; rfl
    | succ d ih =>
      intro hd
      rw [← ih (by omega), ← Nat.add_assoc]
      simp only [lastW]
      split
      · rename_i m hm
        exact absurd hm (h.1.2 _ (by omega) m)
      · rfl
  refine ⟨⟨hl, ?_⟩, ?_⟩
  · intro s hs m hm
    have hs2 : s < K.length + 2 := by
      have := (List.getElem?_eq_some_iff.mp hm).1
      omega
    rw [hw s hs2] at hm
    have hm := Option.some.inj hm
    have hnone : ∀ j, lastW K (some q) old s j = none := by
      intro j
      induction j with
      | zero => rfl
      | succ j ih =>
        simp only [lastW]
        split
        · rw [if_neg, ih]
          rintro ⟨⟨b, _, _, h2, _⟩, hne⟩
          have := (List.getElem?_eq_some_iff.mp h2).1
          omega
        · exact ih
    rw [hnone] at hm
    cases hm
  · intro s hs
    refine ⟨_, hw s (by omega), ?_⟩
    rw [hextra s 2 (le_refl _)]
    have hk := key s hs K.length (le_refl _)
    have hS : ∀ tr, (∃ tr0, tr = tr0 ++ [s] ∧ Tr K 1 P tr0 ∧ fin 0 tr0 < K.length ∧ Step K q (fin 1 tr0) s) ↔
        (Tr K 1 (P ++ [q]) tr ∧ fin 0 tr = s) := by
      intro tr
      rw [tr_snoc]
      constructor
      · rintro ⟨tr0, rfl, b, _, d⟩
        exact ⟨⟨tr0, s, rfl, b, d⟩, by simp⟩
      · rintro ⟨⟨tr0, u, rfl, b, d⟩, e⟩
        simp only [fin_snoc] at e
        subst e
        refine ⟨tr0, rfl, b, ?_, d⟩
        by_contra hge
        obtain ⟨c, _, _, _, h4⟩ := d
        have := b.fin_one
        omega
    simp only [hS] at hk
    exact hk

theorem inv_start (h0 : K[0]? = some false) :
    Inv K [] ((List.replicate (K.length + 2) (none : Option (List Nat))).set 0 (some [])) := by
  have hpos : 0 < K.length := (List.getElem?_eq_some_iff.mp h0).1
  have hnil : ∀ tr, Tr K 1 [] tr ↔ tr = [] := by
    intro tr
    constructor
    · rintro ⟨h, _⟩; exact List.eq_nil_of_length_eq_zero h
    · rintro rfl; exact ⟨rfl, by simp⟩
  refine ⟨⟨by simp, ?_⟩, ?_⟩
  · intro s hs m hm
    rw [List.getElem?_set_ne (by omega), List.getElem?_replicate] at hm
    split at hm <;> simp at hm
  · intro s hs
    by_cases hz : s = 0
    · subst hz
      refine ⟨some [], by rw [List.getElem?_set_self (by simp)], ⟨(hnil _).mpr rfl, rfl⟩, ?_⟩
      rintro tr ⟨h1, _⟩ i
      rw [(hnil _).mp h1]
    · refine ⟨none, ?_, ?_⟩
      · rw [List.getElem?_set_ne (by omega), List.getElem?_replicate, if_pos (by omega)]
      · rintro tr ⟨h1, h2⟩
        rw [(hnil _).mp h1] at h2
        exact hz h2.symm

/-! ### The whole loop -/

/-- The answer read from `new_state[states.len()]`. -/
def Answer (K : List Bool) (P : List Square) (o : Option (List Nat)) : Prop :=
  IsBest (Full K P) o

theorem full_take {P Q : List Square} {B : List Nat} (h : Tr K 1 (P ++ Q) B) :
    Tr K 1 P (B.take P.length) ∧ Tr K (fin 1 (B.take P.length)) Q (B.drop P.length) := by
  have hl := h.1
  rw [List.length_append] at hl
  rw [← List.take_append_drop P.length B, tr_append (by rw [List.length_take]; omega)] at h
  exact h

theorem stAt_take {B : List Nat} {n i : Nat} (hi : i < n) : stAt (B.take n) i = stAt B i := by
  simp [stAt, List.getD_eq_getElem?_getD, List.getElem?_take_of_lt hi]

theorem accept_best (hK : Frame K) (h0 : K[0]? = some false) {P rest : List Square} {old : Matches}
    (hinv : Inv K P old) (hH : ∀ B, Full K (P ++ rest) B → fin 0 (B.take P.length) < K.length)
    {m : List Nat} (hm : old[K.length - 1]? = some (some m)) (hclear : Square.Filled ∉ rest) :
    Answer K (P ++ rest) (some (m ++ List.replicate rest.length K.length)) := by
  have hpos : 0 < K.length := (List.getElem?_eq_some_iff.mp h0).1
  obtain ⟨m1, m2, m3⟩ := hinv.dom (show K.length - 1 < K.length by omega) hm
  have hlast := hK.last_false (s := K.length - 1) (by omega)
  have hstep : ∀ q ∈ rest, ∀ s, s + 1 = K.length ∨ s = K.length → Step K q s K.length := by
    intro q hq s hs
    have hne : q ≠ .Filled := by rintro rfl; exact hclear hq
    refine ⟨false, ⟨fun h => absurd h hne, fun _ => rfl⟩, hpos, hlast, ?_⟩
    rcases hs with h | h
    · exact .inl h.symm
    · exact .inr ⟨rfl, h.symm⟩
  have htail : ∀ (l : List Square) s, (∀ q ∈ l, q ∈ rest) → (s + 1 = K.length ∨ s = K.length) →
      Tr K s l (List.replicate l.length K.length) := by
    intro l
    induction l with
    | nil => intro s _ _; exact ⟨rfl, by simp⟩
    | cons q l ih =>
      intro s hq hs
      rw [List.length_cons, List.replicate_succ, tr_cons]
      exact ⟨hstep q (hq q (by simp)) s hs, ih _ (fun q' h => hq q' (by simp [h])) (.inr rfl)⟩
  have hf : fin 1 m + 1 = K.length ∨ fin 1 m = K.length := by
    rw [m1.fin_one, m2]; omega
  have hT : Tr K 1 (P ++ rest) (m ++ List.replicate rest.length K.length) := by
    rw [tr_append m1.1]
    exact ⟨m1, htail rest _ (fun _ h => h) hf⟩
  refine ⟨⟨hT, ?_⟩, ?_⟩
  · by_cases hr : rest = []
    · subst hr; simp; omega
    · obtain ⟨n, hn⟩ : ∃ n, rest.length = n + 1 := ⟨rest.length - 1, by
        have := List.length_pos_iff.mpr hr; omega⟩
      rw [hn, List.replicate_succ', ← List.append_assoc, fin_snoc]
      omega
  · intro B hB i
    obtain ⟨b1, b2⟩ := full_take hB.1
    have hle := m3 _ b1 (by have := hH B hB; omega)
    by_cases hi : i < P.length
    · have := hle i
      rw [stAt_take hi] at this
      have e : stAt (m ++ List.replicate rest.length K.length) i = stAt m i := by
        simp only [stAt, List.getD_eq_getElem?_getD]
        rw [List.getElem?_append_left (by rw [m1.1]; exact hi)]
      rw [e]; exact this
    · by_cases hi2 : i < (P ++ rest).length
      · have e : stAt (m ++ List.replicate rest.length K.length) i = K.length := by
          simp only [stAt, List.getD_eq_getElem?_getD]
          rw [List.getElem?_append_right (by rw [m1.1]; omega), List.getElem?_replicate, if_pos]
          · rfl
          · rw [m1.1]; simp at hi2; omega
        rw [e]
        exact hB.1.le_len i
      · have : stAt B i = 0 := by
          simp [stAt, List.getD, List.getElem?_eq_none (show B.length ≤ i by rw [hB.1.1]; omega)]
        omega

theorem findLoop_spec (hK : Frame K) (h0 : K[0]? = some false) {st : List Node} (hst : St K st)
    (rest : List Square) : ∀ P old new, Inv K P old → new.length = K.length + 2 →
      (∀ (u : Nat) m, new[u]? ≠ some (some m)) →
      (∀ B, Full K (P ++ rest) B → fin 0 (B.take P.length) < K.length) →
      ∃ new' o, findLoop st rest old new = .ok new' ∧ new'[K.length + 1]? = some o ∧ Answer K (P ++ rest) o := by
  have hpos : 0 < K.length := (List.getElem?_eq_some_iff.mp h0).1
  induction rest with
  | nil =>
    intro P old new hinv hnl hnn hH
    by_cases hacc : ∃ m, old[K.length - 1]? = some (some m)
    · obtain ⟨m, hm⟩ := hacc
      obtain ⟨new', h1, _, h3⟩ := visitStates_accept (sq := none) (rest := []) (m' := m) hK h0 hst hinv.1 hm rfl hnl
      refine ⟨new', some m, ?_, h3, ?_⟩
      · simp [findLoop, h1]
      · have := accept_best hK h0 hinv hH hm (by simp)
        simpa using this
    · obtain ⟨new', h1, _, h3⟩ := visitStates_next (sq := none) (rest := []) hK h0 hst hinv.1
        (fun m hm => absurd ⟨m, hm⟩ hacc) hnl hnn
      refine ⟨new', _, ?_, h3 _ (by omega), ?_⟩
      · simp [findLoop, h1]
      · have hnone : ∀ j, lastW K none old (K.length + 1) j = none := by
          intro j
          induction j with
          | zero => rfl
          | succ j ih =>
            simp only [lastW]
            split
            · rw [if_neg, ih]
              rintro ⟨⟨b, _, _, h2, _⟩, hne⟩
              have := (List.getElem?_eq_some_iff.mp h2).1
              omega
            · exact ih
        rw [hnone]
        intro B hB
        have hb := hH B hB
        rw [List.append_nil] at hB
        rw [List.take_of_length_le (by rw [hB.1.1])] at hb
        have hf := hB.2
        rw [hB.1.fin_one] at hf
        have hne2 := hK.len_ne_two
        obtain ⟨o, ho, hbest⟩ := hinv.2 (K.length - 1) (by omega)
        cases o with
        | some m => exact hacc ⟨m, ho⟩
        | none => exact hbest B ⟨hB.1, by omega⟩
  | cons q rest ih =>
    intro P old new hinv hnl hnn hH
    by_cases hacc : ∃ m, old[K.length - 1]? = some (some m) ∧ Square.Filled ∉ q :: rest
    · obtain ⟨m, hm, hcl⟩ := hacc
      obtain ⟨new', h1, _, h3⟩ := visitStates_accept (sq := some q) (rest := rest)
        (m' := m ++ List.replicate (q :: rest).length K.length) hK h0 hst hinv.1 hm
        (by simp only [lookahead_eq, if_neg hcl]) hnl
      refine ⟨new', _, ?_, h3, accept_best hK h0 hinv hH hm hcl⟩
      simp [findLoop, h1]
    · obtain ⟨new', h1, h2, h3⟩ := visitStates_next (sq := some q) (rest := rest) hK h0 hst hinv.1
        (fun m hm => ⟨q, rfl, by
          by_contra hn
          exact hacc ⟨m, hm, hn⟩⟩) hnl hnn
      have hinv' := hinv.next q h2 h3
      obtain ⟨new'', o, r1, r2, r3⟩ := ih (P ++ [q]) new' (old.map fun _ => none) hinv' (by simpa using hinv.1.1)
        (by intro u m hm; rw [List.getElem?_map] at hm; cases h : old[u]? <;> simp [h] at hm) (by
        intro B hB
        rw [List.append_assoc, List.singleton_append] at hB
        by_contra hge
        have hlenB := hB.1.1
        simp only [List.length_append, List.length_cons] at hlenB
        -- the state at position `P.length` is the last state
        have hat : stAt B P.length = K.length := by
          have hle := hB.1.le_len P.length
          have : fin 0 (B.take (P ++ [q]).length) = stAt B P.length := by
            have hl : (B.take (P ++ [q]).length).length = P.length + 1 := by
              rw [List.length_take, List.length_append, List.length_singleton]; omega
            rw [fin_eq, prevAt, hl, if_neg (by omega), stAt_take (by
              rw [List.length_append, List.length_singleton]; omega), Nat.add_sub_cancel]
          omega
        have hb := hH B hB
        obtain ⟨b1, b2⟩ := full_take hB.1
        have hprev : prevAt 1 B P.length = fin 1 (B.take P.length) := by
          rw [fin_eq]
          simp only [prevAt, List.length_take]
          rw [show min P.length B.length = P.length by omega]
          split
          · rfl
          · rw [stAt_take (by omega)]
        obtain ⟨c, hc1, _, hc2, hc3⟩ := hB.1.2 P.length q (by simp)
        rw [hat, hprev, b1.fin_one] at hc3
        have hne2 := hK.len_ne_two
        have hend : fin 0 (B.take P.length) = K.length - 1 := by omega
        obtain ⟨o, ho, hbest⟩ := hinv.2 (K.length - 1) (by omega)
        cases o with
        | none => exact hbest _ ⟨b1, hend⟩
        | some m =>
          refine hacc ⟨m, ho, ?_⟩
          intro hmem
          obtain ⟨k, hk2⟩ := List.getElem?_of_mem hmem
          have hkl : k < (q :: rest).length := (List.getElem?_eq_some_iff.mp hk2).1
          have hq2 : (P ++ q :: rest)[P.length + k]? = some .Filled := by
            rw [List.getElem?_append_right (by omega), Nat.add_sub_cancel_left]; exact hk2
          obtain ⟨c', e1, _, e2, _⟩ := hB.1.2 _ _ hq2
          have hmono := hB.1.mono (show P.length ≤ P.length + k by omega) (by simp at hkl ⊢; omega)
          have hle := hB.1.le_len (P.length + k)
          have heq : stAt B (P.length + k) = K.length := by omega
          rw [heq, hK.last_false (s := K.length - 1) (by omega)] at e2
          obtain rfl := Option.some.inj e2
          exact absurd (e1.1 rfl) (by simp))
      refine ⟨new'', o, ?_, r2, ?_⟩
      · rw [findLoop, h1, Prog.ok_bind]; exact r1
      · simpa using r3

theorem mapP_ok {α β : Type} {f : α → Prog β} {g : α → β} {l : List α} (h : ∀ x ∈ l, f x = .ok (g x)) :
    mapP f l = .ok (l.map g) := by
  induction l with
  | nil => rfl
  | cons x l ih =>
    rw [mapP, h x (by simp), Prog.ok_bind, ih fun y hy => h y (by simp [hy]), Prog.ok_bind]
    rfl

/-- `find_left` returns the kinds of the largest full trace, or `None` if there is none. -/
theorem findLeft_spec (hK : Frame K) (h0 : K[0]? = some false) {st : List Node} (hst : St K st)
    (hsz : (K.length + 2) * 24 < 2 ^ 63) (grid : List Square) :
    ∃ o, Answer K grid o ∧ findLeft st grid = .ok (o.map fun tr => tr.map (kd K)) := by
  have hpos : 0 < K.length := (List.getElem?_eq_some_iff.mp h0).1
  obtain ⟨new', o, h1, h2, h3⟩ := findLoop_spec hK h0 hst grid [] _ (List.replicate (K.length + 2) none)
    (inv_start h0) (by simp) (by intro u m hm; rw [List.getElem?_replicate] at hm; split at hm <;> simp at hm)
    (by intro B _; simpa using hpos)
  rw [List.nil_append] at h3
  refine ⟨o, h3, ?_⟩
  unfold findLeft
  have hv : vecRepeat 24 (none : Option (List Nat)) (st.length + 1) = .ok (List.replicate (K.length + 2) none) := by
    rw [hst.len]; simp only [vecRepeat]; rw [if_pos (by omega)]
  rw [hv, Prog.ok_bind, Prog.ok_bind, setP_ok (by simp), Prog.ok_bind, h1, Prog.ok_bind, hst.len,
    getP_of h2, Prog.ok_bind]
  cases o with
  | none => rfl
  | some T =>
    have hm : mapP (stateFilled st) T = .ok (T.map (kd K)) := by
      apply mapP_ok
      intro u hu
      obtain ⟨i, hu⟩ := List.getElem?_of_mem hu
      have hi := (List.getElem?_eq_some_iff.mp hu).1
      have hTr : Tr K 1 grid T := h3.1.1
      have hi' : i < grid.length := by rw [← hTr.1]; exact hi
      obtain ⟨b, _, hb1, hb2, _⟩ := hTr.2 i grid[i] (List.getElem?_eq_getElem hi')
      have hst' : stAt T i = u := by simp [stAt, List.getD, hu]
      rw [hst'] at hb1 hb2
      have hn := hst.node _ _ hb2
      rw [show u - 1 + 1 = u by omega] at hn
      have hkd : kd K u = b := by simp [kd, List.getD, hb2]
      unfold stateFilled
      rw [getP_of hn, Prog.ok_bind, hkd]
      cases b with
      | true => rfl
      | false =>
        simp only [Bool.false_eq_true, if_false]
        split <;> rename_i hx <;> first | rfl | (split at hx <;> cases hx)
    simp only [hm, Prog.ok_bind]
    rfl

end Nonogram
