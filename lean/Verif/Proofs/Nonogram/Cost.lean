import Verif.Proofs.Counted
import Verif.Proofs.Nonogram.Passes
import Verif.Spec.NonogramCost

/-! Helper lemmas: the number of steps of `solve_nonogram`. -/
namespace Nonogram.Cost
open Nonogram Nonogram.Spec Counted

/-! ### The machines -/

theorem pushBlock_length {states st : List Node} {v : Nat} (h : pushBlock states v = .ok st) :
    st.length = states.length + (v + 1) := by
  unfold pushBlock vecRepeat at h
  split at h
  · simp only [Prog.ok_bind] at h
    split at h
    · cases h; simp [Nat.add_assoc]
    · cases h
  · cases h

theorem blocks_cost (rule : List Nat) : ∀ states : List Node, Costs (forIn' rule states pushBlock)
    (Counted.forIn rule states countedBlock) (fun st => st.length = states.length + (rule.map (· + 1)).sum)
    (rule.map (· + 1)).sum := by
  induction rule with
  | nil => intro states; exact Costs.ret (by simp)
  | cons v rule ih =>
    intro states
    have h1 : Costs (pushBlock states v) (countedBlock states v) (fun st => st.length = states.length + (v + 1)) (v + 1) :=
      Costs.tick ((Costs.lift _).mono (fun a h _ => pushBlock_length h) (Nat.le_refl _))
    refine Costs.le (Costs.bind h1 fun st _ h => (ih st).mono (fun a _ h' => ?_) (Nat.le_refl _)) ?_
    · rw [h', h]; simp; omega
    · simp

theorem states_cost (rule : List Nat) : Costs (ruleStates rule) (countedStates rule)
    (fun st => st.length = 2 + (rule.map (· + 1)).sum) (2 + (rule.map (· + 1)).sum) := by
  unfold ruleStates countedStates
  refine Costs.tick (Costs.le (Costs.bind (blocks_cost rule _) fun st _ h => (Costs.lift _).mono (fun a h' _ => ?_) (Nat.le_refl 0)) (by simp))
  unfold setP at h'
  split at h'
  · cases h'; simpa using h
  · cases h'

/-- Both tables of a machine have at most `M + 2` entries. -/
def SmallMachine (M : Nat) (m : RuleMachine) : Prop := m.leftStates.length ≤ M + 2 ∧ m.rightStates.length ≤ M + 2

theorem new_cost {M : Nat} (rule : List Nat) (hM : (rule.map (· + 1)).sum ≤ M) :
    Costs (RuleMachine.new rule) (countedNew rule) (SmallMachine M) (2 * (M + 2)) := by
  have hr : (rule.reverse.map (· + 1)).sum = (rule.map (· + 1)).sum := by
    rw [List.map_reverse, List.sum_reverse]
  unfold RuleMachine.new countedNew
  refine Costs.le (Costs.bind (states_cost rule) fun st _ h => Costs.bind (states_cost rule.reverse) fun st' _ h' => Costs.ret ?_) ?_
  · rw [hr] at h'
    exact ⟨by show st.length ≤ _; omega, by show st'.length ≤ _; omega⟩
  · omega

theorem machines_cost {M : Nat} (rules : List (List Nat)) (hM : ∀ r ∈ rules, (r.map (· + 1)).sum ≤ M) :
    Costs (mapP RuleMachine.new rules) (countedMachines rules)
      (fun ms => ms.length = rules.length ∧ ∀ m ∈ ms, SmallMachine M m) (rules.length * (2 * (M + 2))) := by
  induction rules with
  | nil => exact (Costs.ret ⟨rfl, by simp⟩).le (by simp)
  | cons r rules ih =>
    unfold mapP countedMachines
    refine Costs.le (Costs.bind (new_cost r (hM r (by simp))) fun m _ h =>
      Costs.bind (ih fun r hr => hM r (by simp [hr])) fun ms _ h' => Costs.ret ⟨by simp [h'.1], ?_⟩) ?_
    · intro x hx
      rcases List.mem_cons.mp hx with rfl | hx
      · exact h
      · exact h'.2 x hx
    · rw [List.length_cons, Nat.add_mul]; omega

/-! ### find_left -/

/-- All traces have at most `b` items. -/
def Bounded (b : Nat) (ms : Matches) : Prop := ∀ m, some m ∈ ms → m.length ≤ b

theorem Bounded.mono {b b' : Nat} {ms : Matches} (h : Bounded b ms) (hb : b ≤ b') : Bounded b' ms :=
  fun m hm => Nat.le_trans (h m hm) hb

theorem set_cost {b i : Nat} {ms : Matches} {m : List Nat} (h : Bounded b ms) (hm : m.length ≤ b) :
    Costs (setP ms i (some m)) (liftM (setP ms i (some m)) : Counted Matches)
      (fun new => Bounded b new ∧ new.length = ms.length) 0 := by
  refine (Costs.lift _).mono (fun new e _ => ?_) (Nat.le_refl 0)
  unfold setP at e
  split at e
  · cases e
    refine ⟨fun x hx => ?_, by simp⟩
    rcases List.mem_or_eq_of_mem_set hx with hx | hx
    · exact h x hx
    · cases hx; exact hm
  · cases e

theorem lookahead_cost (last : Nat) (qs : List Square) : ∀ m : List Nat,
    Costs (.ok (lookahead last qs m)) (countedLookahead last qs m)
      (fun r => ∀ m', r = some m' → m'.length = m.length + qs.length) qs.length := by
  induction qs with
  | nil => intro m; exact Costs.ret (fun m' h => by cases h; simp)
  | cons q qs ih =>
    intro m
    unfold lookahead countedLookahead
    refine Costs.le (Costs.tick (n := qs.length) ?_) (by simp; omega)
    split
    · exact (Costs.ret (fun m' h => by cases h)).le (Nat.zero_le _)
    · refine (ih _).mono (fun r _ h m' hm' => ?_) (Nat.le_refl _)
      rw [h m' hm']
      simp
      omega

/-- What is known of the outcome of a visit: the lengths of the traces and of the vector. -/
def VisitOk (b c l : Nat) : Visit → Prop
  | .next new => Bounded b new ∧ new.length = l
  | .breakOuter new => Bounded c new ∧ new.length = l

theorem stay_cost (curr : Node) (square : Option Square) (state : Nat) {k : Nat} {m : List Nat} (hm : m.length ≤ k) {new : Matches}
    (hnew : Bounded (k + 1) new) : Costs (stay curr square state m new) (countedStay curr square state m new)
      (fun n => Bounded (k + 1) n ∧ n.length = new.length) k := by
  have hm' : (m ++ [state]).length ≤ k + 1 := by simp; omega
  unfold stay countedStay
  cases curr with
  | Start => exact (Costs.ret ⟨hnew, rfl⟩).le (Nat.zero_le _)
  | Fill => exact (Costs.ret ⟨hnew, rfl⟩).le (Nat.zero_le _)
  | Space =>
    simp only
    split
    · exact (Costs.tick (set_cost hnew hm')).le (by omega)
    · exact (Costs.ret ⟨hnew, rfl⟩).le (Nat.zero_le _)
  | End =>
    simp only
    split
    · exact (Costs.tick (set_cost hnew hm')).le (by omega)
    · exact (Costs.ret ⟨hnew, rfl⟩).le (Nat.zero_le _)

theorem visit_cost (states : List Node) (square : Option Square) (rest : List Square) (state : Nat) {k : Nat} {m : List Nat}
    (hm : m.length ≤ k) {new : Matches} (hnew : Bounded (k + 1) new) :
    Costs (visitState states square rest state m new) (countedVisit states square rest state m new)
      (VisitOk (k + 1) (k + 1 + rest.length) new.length)
      (2 * k + if state + 2 = states.length then rest.length + 1 else 0) := by
  have push : ∀ i : Nat, (m ++ [i]).length ≤ k + 1 := fun i => by simp; omega
  unfold visitState countedVisit
  refine Costs.le (Costs.bind (Costs.lift _) fun curr _ _ => Costs.bind (Costs.lift _) fun next hnext _ =>
    Costs.bind (stay_cost curr square state hm hnew) fun new' _ h' =>
      (?_ : Costs _ _ _ (k + if state + 2 = states.length then rest.length + 1 else 0))) (by omega)
  obtain ⟨hb, hl⟩ := h'
  rw [← hl]
  cases next with
  | Start => exact rfl
  | Fill =>
    simp only
    split
    · exact Costs.le (Costs.bind (set_cost hb (push _)) fun n _ h => Costs.ret ⟨h.1, h.2⟩) (by omega)
    · exact (Costs.ret ⟨hb, rfl⟩).le (Nat.zero_le _)
  | Space =>
    simp only
    split
    · exact Costs.le (Costs.bind (set_cost hb (push _)) fun n _ h => Costs.ret ⟨h.1, h.2⟩) (by omega)
    · exact (Costs.ret ⟨hb, rfl⟩).le (Nat.zero_le _)
  | End =>
    simp only
    cases hs : states[state + 2]? with
    | some nd =>
      cases nd with
      | Fill =>
        simp only
        have second : ∀ n : Matches, Bounded (k + 1) n → n.length = new'.length → Costs
            (if square ≠ some .Blocked then do
              let new ← setP n (state + 2) (some (m ++ [state + 2]))
              pure (Visit.next new)
            else pure (.next n))
            (if square ≠ some .Blocked then do
              let new ← liftM (setP n (state + 2) (some (m ++ [state + 2])))
              pure (Visit.next new)
            else pure (.next n) : Counted Visit) (VisitOk (k + 1) (k + 1 + rest.length) new'.length) 0 := by
          intro n h1 h2
          split
          · exact Costs.bind (set_cost h1 (push _)) fun n' _ h => Costs.ret ⟨h.1, h.2.trans h2⟩
          · exact Costs.ret ⟨h1, h2⟩
        by_cases h1 : square ≠ some .Filled
        · simp only [if_pos h1]
          refine Costs.le (Costs.bind (Costs.tick (set_cost (i := state + 1) hb (push (state + 1)))) fun n _ h => second n h.1 h.2) (by omega)
        · simp only [if_neg h1]
          exact Costs.le (Costs.bind (Costs.ret (Q := fun n => Bounded (k + 1) n ∧ n.length = new'.length) ⟨hb, rfl⟩) fun n _ h => second n h.1 h.2) (by omega)
      | Start => exact rfl
      | Space => exact rfl
      | End => exact rfl
    | none =>
      simp only
      have hlen : state + 2 = states.length := by
        have h1 := List.getElem?_eq_none_iff.mp hs
        unfold getP at hnext
        split at hnext
        · rename_i h2
          have := (List.getElem?_eq_some_iff.mp h2).1
          omega
        · cases hnext
      rw [if_pos hlen]
      have fin : ∀ r : Option (List Nat), (∀ m', r = some m' → m'.length ≤ k + 1 + rest.length) → Costs
          (match r with
            | none => (pure (.next new') : Prog Visit)
            | some m' => do
              let new ← setP new' (state + 2) (some m')
              return .breakOuter new)
          (match r with
            | none => (pure (.next new') : Counted Visit)
            | some m' => do
              let new ← liftM (setP new' (state + 2) (some m'))
              pure (.breakOuter new)) (VisitOk (k + 1) (k + 1 + rest.length) new'.length) 0 := by
        intro r hr
        cases r with
        | none => exact Costs.ret ⟨hb, rfl⟩
        | some m' => exact Costs.bind (set_cost (hb.mono (by omega)) (hr m' rfl)) fun n _ h => Costs.ret ⟨h.1, h.2⟩
      cases square with
      | some q =>
        have := Costs.bind (lookahead_cost (state + 1) (q :: rest) m) fun r _ h => fin r fun m' hm' => by
          rw [h m' hm']; simp; omega
        exact Costs.le (n := (q :: rest).length + 0) this (by simp)
      | none =>
        have := Costs.bind (Costs.ret (a := some m) (Q := fun r => r = some m) rfl) fun r _ h => fin r fun m' hm' => by
          rw [h] at hm'; cases hm'; omega
        exact Costs.le (n := 0 + 0) this (Nat.zero_le _)

theorem visits_cost (states : List Node) (square : Option Square) (rest : List Square) {k : Nat} (old : Matches) :
    Bounded k old → ∀ (i : Nat) (new : Matches), Bounded (k + 1) new →
    Costs (visitStates states square rest (old.zipIdx i) new) (countedVisits states square rest (old.zipIdx i) new)
      (VisitOk (k + 1) (k + 1 + rest.length) new.length)
      (old.length * (2 * k + 1) + if i + 2 ≤ states.length then rest.length + 1 else 0) := by
  induction old with
  | nil => intro _ i new hnew; exact (Costs.ret ⟨hnew, rfl⟩).le (Nat.zero_le _)
  | cons o old ih =>
    intro hold i new hnew
    have hold' : Bounded k old := fun m hm => hold m (by simp [hm])
    rw [List.zipIdx_cons, List.length_cons, Nat.add_mul, Nat.one_mul]
    have mono : (if i + 1 + 2 ≤ states.length then rest.length + 1 else 0) ≤ if i + 2 ≤ states.length then rest.length + 1 else 0 := by
      split
      · rw [if_pos (by omega)]
      · exact Nat.zero_le _
    cases o with
    | none =>
      unfold visitStates countedVisits
      exact (Costs.tick (ih hold' (i + 1) new hnew)).le (by omega)
    | some m =>
      unfold visitStates countedVisits
      have sum : (if i + 2 = states.length then rest.length + 1 else 0) +
          (if i + 1 + 2 ≤ states.length then rest.length + 1 else 0) ≤ if i + 2 ≤ states.length then rest.length + 1 else 0 := by
        by_cases h1 : i + 2 = states.length
        · rw [if_pos h1, if_neg (by omega), if_pos (by omega)]
        · rw [if_neg h1]; omega
      refine Costs.le (Costs.tick (Costs.bind (visit_cost states square rest i (hold m (by simp)) hnew) fun v _ hv =>
        (?_ : Costs _ _ _ (old.length * (2 * k + 1) + if i + 1 + 2 ≤ states.length then rest.length + 1 else 0)))) (by omega)
      cases v with
      | next n =>
        have := ih hold' (i + 1) n hv.1
        rw [hv.2] at this
        exact this
      | breakOuter n => exact (Costs.ret hv).le (Nat.zero_le _)

theorem loop_cost (states : List Node) (L : Nat) (qs : List Square) : ∀ (k : Nat) (old new : Matches), k + qs.length = L →
    Bounded k old → Bounded 0 new → old.length = states.length + 1 → new.length = states.length + 1 →
    Costs (findLoop states qs old new) (countedLoop states qs old new) (fun n => Bounded (L + 1) n)
      ((qs.length + 1) * ((states.length + 1) * (2 * L + 1) + L + 2)) := by
  induction qs with
  | nil =>
    intro k old new hk hold hnew lo ln
    unfold findLoop countedLoop
    simp only [List.length_nil, Nat.add_zero] at hk
    subst hk
    refine Costs.le (Costs.tick (Costs.bind (visits_cost states none [] old hold 0 new (hnew.mono (Nat.zero_le _))) fun v _ hv =>
      (?_ : Costs _ _ _ 0))) ?_
    · cases v with
      | next n => exact Costs.ret hv.1
      | breakOuter n => exact Costs.ret hv.1
    · rw [lo]
      simp only [List.length_nil, Nat.zero_add, Nat.one_mul]
      split <;> omega
  | cons q qs ih =>
    intro k old new hk hold hnew lo ln
    rw [List.length_cons] at hk
    unfold findLoop countedLoop
    refine Costs.le (Costs.tick (Costs.bind (visits_cost states (some q) qs old hold 0 new (hnew.mono (Nat.zero_le _))) fun v _ hv =>
      (?_ : Costs _ _ _ ((qs.length + 1) * ((states.length + 1) * (2 * L + 1) + L + 2))))) ?_
    · cases v with
      | next n =>
        refine ih (k + 1) n _ (by omega) hv.1 (fun m hm => ?_) (hv.2.trans ln) (by simp [lo])
        simp at hm
      | breakOuter n => exact (Costs.ret (hv.1.mono (by omega))).le (Nat.zero_le _)
    · rw [lo, List.length_cons, Nat.add_mul (qs.length + 1) 1, Nat.one_mul]
      have : (states.length + 1) * (2 * k + 1) ≤ (states.length + 1) * (2 * L + 1) := Nat.mul_le_mul_left _ (by omega)
      split <;> omega

theorem mapP_length {α β : Type} {f : α → Prog β} {l : List α} {r : List β} (h : mapP f l = .ok r) : r.length = l.length := by
  induction l generalizing r with
  | nil => cases h; rfl
  | cons x l ih =>
    unfold mapP at h
    obtain ⟨y, _, h⟩ := Prog.bind_eq_ok.mp h
    obtain ⟨ys, h1, h⟩ := Prog.bind_eq_ok.mp h
    cases h
    simp [ih h1]

theorem find_cost (states : List Node) (grid : List Square) : Costs (findLeft states grid) (countedFindLeft states grid)
    (fun r => ∀ bs, r = some bs → bs.length ≤ grid.length + 1) (findCost states.length grid.length) := by
  have rep : ∀ a : List (Option (List Nat)), vecRepeat 24 (none : Option (List Nat)) (states.length + 1) = .ok a →
      a = List.replicate (states.length + 1) none := by
    intro a h
    unfold vecRepeat at h
    split at h
    · cases h; rfl
    · cases h
  have repb : Bounded 0 (List.replicate (states.length + 1) none) := fun m hm => by simp [List.mem_replicate] at hm
  unfold findLeft countedFindLeft findCost
  rw [Nat.add_assoc]
  refine Costs.tick (Costs.le (Costs.bind (Costs.lift _) fun old ho _ => Costs.bind (Costs.lift _) fun new hn _ =>
    Costs.bind (set_cost (b := 0) (i := 0) (m := []) (by rw [rep old ho]; exact repb) (Nat.le_refl 0)) fun old' _ ho' =>
    Costs.bind (loop_cost states grid.length grid 0 old' new (Nat.zero_add _) ho'.1 (by rw [rep new hn]; exact repb)
      (by rw [ho'.2, rep old ho]; simp) (by rw [rep new hn]; simp)) fun n _ hb => Costs.bind (Costs.lift _) fun o hg _ =>
    (?_ : Costs _ _ _ (grid.length + 1))) (by omega))
  cases o with
  | none => exact (Costs.ret (fun _ h => by cases h)).le (Nat.zero_le _)
  | some m =>
    have hm : m.length ≤ grid.length + 1 := by
      unfold getP at hg
      split at hg
      · rename_i a ha; cases hg; exact hb m (List.mem_of_getElem? ha)
      · cases hg
    refine Costs.le (Costs.tick (Costs.bind (Costs.lift _) fun bs hbs _ => Costs.ret fun _ h => ?_)) (by omega : m.length + (0 + 0) ≤ _)
    cases h
    rw [mapP_length hbs]; exact hm

/-! ### Lines -/

theorem findCost_mono {S S' L : Nat} (h : S ≤ S') : findCost S L ≤ findCost S' L := by
  unfold findCost
  have h1 : (S + 1) * (2 * L + 1) ≤ (S' + 1) * (2 * L + 1) := Nat.mul_le_mul_right _ (by omega)
  have h2 : (L + 1) * ((S + 1) * (2 * L + 1) + L + 2) ≤ (L + 1) * ((S' + 1) * (2 * L + 1) + L + 2) := Nat.mul_le_mul_left _ (by omega)
  omega

theorem rightLeft_cost (oc : Bool) {M : Nat} {m : RuleMachine} (hm : SmallMachine M m) (grid : List Square) :
    Costs (m.rightLeft oc grid) (countedRightLeft oc m grid) (fun _ => True)
      (2 * findCost (M + 2) grid.length + (grid.length + 1)) := by
  unfold RuleMachine.rightLeft countedRightLeft
  have h1 := (find_cost m.leftStates grid).le (findCost_mono (L := grid.length) hm.1)
  have h2 := (find_cost m.rightStates grid.reverse).le (findCost_mono (L := grid.reverse.length) hm.2)
  rw [List.length_reverse] at h2
  refine Costs.le (Costs.bind h1 fun l _ hl => (?_ : Costs _ _ _ (findCost (M + 2) grid.length + (grid.length + 1)))) (by omega)
  cases l with
  | none => exact (Costs.ret trivial).le (Nat.zero_le _)
  | some left =>
    refine Costs.bind h2 fun r _ hr => ?_
    cases r with
    | none => exact (Costs.ret trivial).le (Nat.zero_le _)
    | some right =>
      refine Costs.le (Costs.bind (Costs.forIn (I := fun _ => True) (k := 1) (fun s x _ _ =>
        Costs.tick ((Costs.lift _).mono (fun _ _ _ => trivial) (Nat.le_refl 0))) _ trivial) fun s _ _ => Costs.ret trivial) ?_
      rw [List.length_range]
      have := hl left rfl
      omega

theorem step_cost (oc : Bool) {M : Nat} {m : RuleMachine} (hm : SmallMachine M m) (ps : List Nat) (s : List Square × Bool) :
    Costs (lineStep oc m ps s) (countedStep oc m ps s) (fun r => ∀ s', r = .ok s' → s'.1.length = s.1.length)
      (lineCost M ps.length) := by
  have hread : (readAt s.1 ps).length ≤ ps.length := by unfold readAt; exact List.length_filterMap_le ..
  have hwrite : ∀ (ps : List Nat) (g line : List Square), (writeAt g ps line).length = g.length := by
    intro ps
    induction ps with
    | nil => intro g line; cases line <;> rfl
    | cons p ps ih => intro g line; cases line with
      | nil => rfl
      | cons q qs => rw [writeAt, ih]; simp
  have hmono : 2 * findCost (M + 2) (readAt s.1 ps).length + ((readAt s.1 ps).length + 1) ≤
      2 * findCost (M + 2) ps.length + (ps.length + 1) := by
    generalize (readAt s.1 ps).length = a at hread
    generalize ps.length = b at hread
    unfold findCost
    have h1 : (M + 2 + 1) * (2 * a + 1) ≤ (M + 2 + 1) * (2 * b + 1) := Nat.mul_le_mul_left _ (by omega)
    have h2 : (a + 1) * ((M + 2 + 1) * (2 * a + 1) + a + 2) ≤ (b + 1) * ((M + 2 + 1) * (2 * b + 1) + b + 2) :=
      Nat.mul_le_mul (by omega) (by omega)
    omega
  unfold lineStep countedStep lineCost
  refine Costs.tick (Costs.le (Costs.bind (rightLeft_cost oc hm _) fun r _ _ => (?_ : Costs _ _ _ 0)) hmono)
  cases r with
  | error e => exact Costs.ret (fun _ h => by cases h)
  | ok p => exact Costs.ret (fun s' h => by cases h; exact hwrite ps s.1 p.1)

theorem cols_cost (oc : Bool) {M w h : Nat} (hh : 1 ≤ h) (ms : List RuleMachine) (hm : ∀ m ∈ ms, SmallMachine M m) :
    ∀ (k : Nat) (s : List Square × Bool), k + ms.length ≤ w → s.1.length = w * h →
    Costs (colLoop oc w (ms.zipIdx k) s) (countedCols oc w (ms.zipIdx k) s)
      (fun r => ∀ s', r = .ok s' → s'.1.length = w * h) (ms.length * lineCost M h) := by
  induction ms with
  | nil => intro k s _ hs; exact (Costs.ret (fun s' h => by cases h; exact hs)).le (Nat.zero_le _)
  | cons m ms ih =>
    intro k s hk hs
    rw [List.length_cons] at hk
    rw [List.zipIdx_cons, List.length_cons, Nat.add_mul, Nat.one_mul]
    unfold colLoop countedCols
    refine Costs.le (Costs.bind (Costs.lift _) fun ps hps _ => (?_ : Costs _ _ _ (lineCost M h + ms.length * lineCost M h))) (by omega)
    have hl : ps.length = h := by
      rw [hs, colPositions_eq (by omega) hh] at hps
      cases hps
      simp [colPs]
    have := step_cost oc (hm m (by simp)) ps s
    rw [hl] at this
    refine Costs.bind this fun r _ hr => ?_
    cases r with
    | error e => exact (Costs.ret (fun _ h => by cases h)).le (Nat.zero_le _)
    | ok s' => exact ih (fun m hm' => hm m (by simp [hm'])) (k + 1) s' (by omega) ((hr s' rfl).trans hs)

theorem rows_cost (oc : Bool) {M w h : Nat} (hb : w * h < 2 ^ 64) (hh : h < 2 ^ 64) (ms : List RuleMachine) (hm : ∀ m ∈ ms, SmallMachine M m) :
    ∀ (k : Nat) (s : List Square × Bool), k + ms.length ≤ h → s.1.length = w * h →
    Costs (rowLoop oc w (ms.zipIdx k) s) (countedRows oc w (ms.zipIdx k) s)
      (fun r => ∀ s', r = .ok s' → s'.1.length = w * h) (ms.length * lineCost M w) := by
  induction ms with
  | nil => intro k s _ hs; exact (Costs.ret (fun s' h => by cases h; exact hs)).le (Nat.zero_le _)
  | cons m ms ih =>
    intro k s hk hs
    rw [List.length_cons] at hk
    rw [List.zipIdx_cons, List.length_cons, Nat.add_mul, Nat.one_mul]
    unfold rowLoop countedRows
    refine Costs.le (Costs.bind (Costs.lift _) fun ps hps _ => (?_ : Costs _ _ _ (lineCost M w + ms.length * lineCost M w))) (by omega)
    have hl : ps.length = w := by
      rw [hs, rowPositions_eq oc (by omega) hb hh] at hps
      cases hps
      simp [rowPs]
    have := step_cost oc (hm m (by simp)) ps s
    rw [hl] at this
    refine Costs.bind this fun r _ hr => ?_
    cases r with
    | error e => exact (Costs.ret (fun _ h => by cases h)).le (Nat.zero_le _)
    | ok s' => exact ih (fun m hm' => hm m (by simp [hm'])) (k + 1) s' (by omega) ((hr s' rfl).trans hs)

/-- A bound on the steps of one pass. -/
def passCost (M w h : Nat) : Nat := w * lineCost M h + h * lineCost M w

theorem pass_cost (oc : Bool) {col row : List (List Nat)} (hf : Fits col row) {M : Nat} {cs rs : List RuleMachine}
    (hc : List.Forall₂ IsMachine col cs) (hr : List.Forall₂ IsMachine row rs) (hcs : ∀ m ∈ cs, SmallMachine M m)
    (hrs : ∀ m ∈ rs, SmallMachine M m) (g : List Square) (hg : g.length = col.length * row.length) :
    Costs (passBody oc col.length cs rs g) (countedPass oc col.length cs rs g)
      (fun r => match r with
        | .inl g' => g'.length = col.length * row.length ∧ blanks g' < blanks g
        | .inr _ => True)
      (passCost M col.length row.length) := by
  have lc : cs.length = col.length := hc.length_eq.symm
  have lr : rs.length = row.length := hr.length_eq.symm
  have hb : col.length * row.length < 2 ^ 64 :=
    Nat.lt_of_lt_of_le hf.size (by decide)
  have key : Costs (passBody oc col.length cs rs g) (countedPass oc col.length cs rs g) (fun _ => True)
      (passCost M col.length row.length) := by
    unfold passBody countedPass passCost
    have h1 := cols_cost oc hf.rows cs hcs 0 (g, false) (by omega) hg
    rw [lc] at h1
    refine Costs.bind h1 fun r _ hr' => ?_
    cases r with
    | error e => exact (Costs.ret trivial).le (Nat.zero_le _)
    | ok s =>
      have h2 := rows_cost oc hb (Nat.lt_of_lt_of_le hf.height.1 (by decide)) rs hrs 0 s (by omega) (hr' s rfl)
      rw [lr] at h2
      refine Costs.le (Costs.bind h2 fun r _ _ => (?_ : Costs _ _ _ 0)) (Nat.le_refl _)
      cases r with
      | error e => exact Costs.ret trivial
      | ok s =>
        simp only
        split <;> exact Costs.ret trivial
  refine key.mono (fun r hr' _ => ?_) (Nat.le_refl _)
  rcases passBody_spec oc hf hc hr hg with ⟨_, h⟩ | ⟨g', hrun, h⟩
  · rw [h] at hr'; cases hr'; trivial
  · rw [h] at hr'
    split at hr'
    · cases hr'; trivial
    · rename_i hne
      cases hr'
      have hle := Run.le (allJobs_good hf) hg hrun
      exact ⟨hle.1.trans hg, (blanks_le hle).2 (fun e => hne e.symm)⟩

/-- A bound on the steps of `solve_nonogram`. -/
def solveCost (M w h : Nat) : Nat := 2 * (w * h) + 2 * (M + 2) * (w + h) + (w * h + 1) * passCost M w h

end Nonogram.Cost
