import Verif.Proofs.Nonogram.Stable

/-! Rules that start or end with a zero: `find_left` runs into the `panic!` for a second end state. -/
namespace Nonogram
open Spec

theorem findLeft_zero {rule : List Nat} (hr : rule.head? = some 0) (hs : Small rule) {st : List Node}
    (hst : St (kinds rule) st) (line : List Square) : findLeft st line = .panic := by
  obtain ⟨r, rfl⟩ : ∃ r, rule = 0 :: r := by
    cases rule with
    | nil => cases hr
    | cons a r => exact ⟨r, by rw [Option.some.inj hr]⟩
  obtain ⟨k, hk⟩ := kinds_false r
  have hK : kinds (0 :: r) = false :: false :: k := by rw [kinds, hk]; rfl
  have h1 : st[1]? = some .End := by
    have := hst.node 0 false (by rw [hK]; rfl)
    simpa using this
  have h2 : st[2]? = some .End ∨ st[2]? = some .Space := by
    have := hst.node 1 false (by rw [hK]; rfl)
    simp only [Bool.false_eq_true, if_false] at this
    split at this
    · exact .inl this
    · exact .inr this
  have hv : ∀ sq rest new, visitState st sq rest 0 [] new = .panic := by
    intro sq rest new
    unfold visitState
    rw [getP_of hst.zero, Prog.ok_bind, getP_of h1, Prog.ok_bind]
    simp only [stay, Prog.ok_bind]
    rcases h2 with h | h <;> rw [h]
  have hlen : st.length + 1 = (st.length) + 1 := rfl
  have hb : (st.length + 1) * 24 < 2 ^ 63 := by
    rw [hst.len, kinds_length]; unfold Small at hs; omega
  unfold findLeft
  simp only [vecRepeat]
  rw [if_pos (by omega), Prog.ok_bind, Prog.ok_bind, setP_ok (by simp), Prog.ok_bind]
  have hold : ((List.replicate (st.length + 1) (none : Option (List Nat))).set 0 (some [])) =
      some [] :: List.replicate st.length none := by
    rw [List.replicate_succ]; rfl
  rw [hold]
  cases line with
  | nil =>
    simp only [findLoop, List.zipIdx_cons, visitStates, hv]
    rfl
  | cons q rest =>
    simp only [findLoop, List.zipIdx_cons, visitStates, hv]
    rfl

/-- The line step for a rule that starts or ends with a zero. -/
theorem rightLeft_zero (oc : Bool) {rule : List Nat} (hr : ¬ Framed rule) (hs : Small rule) {m : RuleMachine}
    (hm : IsMachine rule m) (line : List Square) :
    (rule.head? ≠ some 0 ∧ (∀ xs, ¬ Completes line rule xs) ∧ m.rightLeft oc line = .ok (.error .NoSolution)) ∨
    ((rule.head? = some 0 ∨ ∃ xs, Completes line rule xs) ∧ m.rightLeft oc line = .panic) := by
  unfold RuleMachine.rightLeft
  by_cases h0 : rule.head? = some 0
  · right
    rw [findLeft_zero h0 hs hm.1]
    exact ⟨.inl h0, rfl⟩
  · obtain ⟨o, h1, h2⟩ := findLeft_rule h0 hs hm.1 line
    rw [h1, Prog.ok_bind]
    cases o with
    | none => exact .inl ⟨h0, h2, rfl⟩
    | some L =>
      right
      have hl : rule.reverse.head? = some 0 := by
        rw [List.head?_reverse]
        by_contra hn
        exact hr ⟨h0, hn⟩
      simp only
      rw [findLeft_zero hl (small_reverse hs) hm.2]
      exact ⟨.inr ⟨L, h2.1⟩, rfl⟩

theorem lineStep_zero (oc : Bool) {j : Job} {m : RuleMachine} {g : List Square} (hj : j.Sized g.length)
    (hz : ¬ Framed j.rule) (hm : IsMachine j.rule m) (c : Bool) :
    (j.rule.head? ≠ some 0 ∧ Stuck j g ∧ lineStep oc m j.ps (g, c) = .ok (.error .NoSolution)) ∨
    ((j.rule.head? = some 0 ∨ ¬ Stuck j g) ∧ lineStep oc m j.ps (g, c) = .panic) := by
  have hread : readAt g j.ps = j.line g := readAt_eq hj.bound
  unfold lineStep
  simp only
  rw [hread]
  rcases rightLeft_zero oc hz hj.small hm (j.line g) with ⟨h0, h1, h2⟩ | ⟨h1, h2⟩
  · exact .inl ⟨h0, h1, by rw [h2]; rfl⟩
  · refine .inr ⟨h1.imp_right ?_, by rw [h2]; rfl⟩
    rintro ⟨xs, hx⟩ hs
    exact hs xs hx

/-- The first line whose rule starts or ends with a zero ends the pass. -/
inductive Crash : List Job → List Square → Bool → Prop
  /-- The line step panics. -/
  | here {j js g} (hz : ¬ Framed j.rule) (h : j.rule.head? = some 0 ∨ ¬ Stuck j g) : Crash (j :: js) g true
  /-- The line has no completion. -/
  | stuck {j js g} (h0 : j.rule.head? ≠ some 0) (h : Stuck j g) : Crash (j :: js) g false
  | step {j js g g' b} (hf : Framed j.rule) (h : Ded j g g') (t : Crash js g' b) : Crash (j :: js) g b

/-- What a crashing loop returns. -/
def crashed (b : Bool) : Prog (Except NonogramError (List Square × Bool)) :=
  if b = true then .panic else .ok (.error .NoSolution)

theorem colLoop_zero (oc : Bool) {w h : Nat} (hh : 1 ≤ h) {rules : List (List Nat)} {ms : List RuleMachine}
    (hm : List.Forall₂ IsMachine rules ms) (k : Nat) (hk : k + rules.length ≤ w) {g : List Square} (hg : g.length = w * h)
    (hj : ∀ j ∈ jobs (colPs w h) rules k, j.Sized (w * h)) (hz : ∃ r ∈ rules, ¬ Framed r) (c : Bool) :
    ∃ b, Crash (jobs (colPs w h) rules k) g b ∧ colLoop oc w (ms.zipIdx k) (g, c) = crashed b := by
  induction hm generalizing k g c with
  | nil => obtain ⟨_, h, _⟩ := hz; cases h
  | @cons rule m rules ms hm _ ih =>
    rw [List.length_cons] at hk
    have hjs : jobs (colPs w h) (rule :: rules) k = ⟨rule, colPs w h k⟩ :: jobs (colPs w h) rules (k + 1) := by
      simp [jobs, List.zipIdx_cons]
    rw [hjs] at hj ⊢
    rw [List.zipIdx_cons, colLoop]
    simp only
    rw [hg, colPositions_eq (by omega) hh, Prog.ok_bind]
    have hj0 := hj _ (List.mem_cons_self ..)
    by_cases hf : Framed rule
    · have hgood : (⟨rule, colPs w h k⟩ : Job).Good (w * h) := ⟨hj0, hf⟩
      rcases lineStep_spec oc (j := ⟨rule, colPs w h k⟩) (g := g) (by rw [hg]; exact hgood) hm c with
        ⟨hs, he⟩ | ⟨g', hd, he⟩
      · exact ⟨false, .stuck hf.1 hs, by rw [he]; rfl⟩
      · have hle := Ded.le hgood hg hd
        obtain ⟨b, h1, h2⟩ := ih (k + 1) (by omega) (hle.1.trans hg) (fun j hj' => hj j (by simp [hj']))
          (by
            obtain ⟨r, hr, hnf⟩ := hz
            rcases List.mem_cons.mp hr with rfl | hr
            · exact absurd hf hnf
            · exact ⟨r, hr, hnf⟩) (c || decide (g' ≠ g))
        exact ⟨b, .step hf hd h1, by rw [he, Prog.ok_bind]; exact h2⟩
    · rcases lineStep_zero oc (j := ⟨rule, colPs w h k⟩) (g := g) (by rw [hg]; exact hj0) hf hm c with
        ⟨h0, hs, he⟩ | ⟨hs, he⟩
      · exact ⟨false, .stuck h0 hs, by rw [he]; rfl⟩
      · exact ⟨true, .here hf hs, by rw [he]; rfl⟩

theorem rowLoop_zero (oc : Bool) {w h : Nat} (hb : w * h < 2 ^ 64) (hh : h < 2 ^ 64) {rules : List (List Nat)}
    {ms : List RuleMachine}
    (hm : List.Forall₂ IsMachine rules ms) (k : Nat) (hk : k + rules.length ≤ h) {g : List Square} (hg : g.length = w * h)
    (hj : ∀ j ∈ jobs (rowPs w) rules k, j.Sized (w * h)) (hz : ∃ r ∈ rules, ¬ Framed r) (c : Bool) :
    ∃ b, Crash (jobs (rowPs w) rules k) g b ∧ rowLoop oc w (ms.zipIdx k) (g, c) = crashed b := by
  induction hm generalizing k g c with
  | nil => obtain ⟨_, h, _⟩ := hz; cases h
  | @cons rule m rules ms hm _ ih =>
    rw [List.length_cons] at hk
    have hjs : jobs (rowPs w) (rule :: rules) k = ⟨rule, rowPs w k⟩ :: jobs (rowPs w) rules (k + 1) := by
      simp [jobs, List.zipIdx_cons]
    rw [hjs] at hj ⊢
    rw [List.zipIdx_cons, rowLoop]
    simp only
    rw [hg, rowPositions_eq oc (by omega) hb hh, Prog.ok_bind]
    have hj0 := hj _ (List.mem_cons_self ..)
    by_cases hf : Framed rule
    · have hgood : (⟨rule, rowPs w k⟩ : Job).Good (w * h) := ⟨hj0, hf⟩
      rcases lineStep_spec oc (j := ⟨rule, rowPs w k⟩) (g := g) (by rw [hg]; exact hgood) hm c with
        ⟨hs, he⟩ | ⟨g', hd, he⟩
      · exact ⟨false, .stuck hf.1 hs, by rw [he]; rfl⟩
      · have hle := Ded.le hgood hg hd
        obtain ⟨b, h1, h2⟩ := ih (k + 1) (by omega) (hle.1.trans hg) (fun j hj' => hj j (by simp [hj']))
          (by
            obtain ⟨r, hr, hnf⟩ := hz
            rcases List.mem_cons.mp hr with rfl | hr
            · exact absurd hf hnf
            · exact ⟨r, hr, hnf⟩) (c || decide (g' ≠ g))
        exact ⟨b, .step hf hd h1, by rw [he, Prog.ok_bind]; exact h2⟩
    · rcases lineStep_zero oc (j := ⟨rule, rowPs w k⟩) (g := g) (by rw [hg]; exact hj0) hf hm c with
        ⟨h0, hs, he⟩ | ⟨hs, he⟩
      · exact ⟨false, .stuck h0 hs, by rw [he]; rfl⟩
      · exact ⟨true, .here hf hs, by rw [he]; rfl⟩

theorem Crash.append {js ks : List Job} {g : List Square} {b : Bool} (h : Crash js g b) : Crash (js ++ ks) g b := by
  induction h with
  | here hz h => exact .here hz h
  | stuck h0 h => exact .stuck h0 h
  | step hf h _ ih => exact .step hf h ih

theorem Run.crash_none {js ks : List Job} (hj : ∀ j ∈ js, Framed j.rule) {g : List Square} (h : Run js g none) :
    Crash (js ++ ks) g false := by
  generalize he : none = p at h
  induction h with
  | nil => cases he
  | stuck hs => exact .stuck (hj _ (by simp)).1 hs
  | step hd _ ih => exact .step (hj _ (by simp)) hd (ih (fun k hk => hj k (by simp [hk])) he)

theorem Run.crash {js ks : List Job} (hj : ∀ j ∈ js, Framed j.rule) {g g' : List Square} {b : Bool}
    (h : Run js g (some g')) (h' : Crash ks g' b) : Crash (js ++ ks) g b := by
  generalize he : some g' = p at h
  induction h with
  | nil => obtain rfl := Option.some.inj he; exact h'
  | stuck => cases he
  | step hd _ ih => exact .step (hj _ (by simp)) hd (ih (fun k hk => hj k (by simp [hk])) he)

/-- With a rule that starts or ends with a zero the first pass is the last. -/
theorem passBody_zero (oc : Bool) {col row : List (List Nat)} (hf : Spec.Sized col row) (hz : ∃ r ∈ col ++ row, ¬ Framed r)
    {cs rs : List RuleMachine} (hc : List.Forall₂ IsMachine col cs) (hr : List.Forall₂ IsMachine row rs) {g : List Square}
    (hg : g.length = col.length * row.length) :
    ∃ b, Crash (allJobs col row) g b ∧
      passBody oc col.length cs rs g = if b = true then .panic else .ok (.inr (.error .NoSolution)) := by
  have hsized := allJobs_sized hf
  have hsc : ∀ j ∈ jobs (colPs col.length row.length) col 0, j.Sized (col.length * row.length) :=
    fun j hj => hsized j (by simp [allJobs, hj])
  have hsr : ∀ j ∈ jobs (rowPs col.length) row 0, j.Sized (col.length * row.length) :=
    fun j hj => hsized j (by simp [allJobs, hj])
  unfold passBody
  by_cases hcz : ∃ r ∈ col, ¬ Framed r
  · obtain ⟨b, h1, h2⟩ := colLoop_zero oc hf.rows hc 0 (by omega) hg hsc hcz false
    refine ⟨b, h1.append, ?_⟩
    rw [h2]
    cases b <;> rfl
  · have hcf : ∀ r ∈ col, Framed r := by
      intro r hr
      by_contra hn
      exact hcz ⟨r, hr, hn⟩
    have hjf : ∀ j ∈ jobs (colPs col.length row.length) col 0, Framed j.rule := by
      intro j hj
      obtain ⟨i, hi, _⟩ := mem_jobs.mp hj
      exact hcf _ (List.mem_of_getElem? hi)
    have hgc : ∀ j ∈ jobs (colPs col.length row.length) col 0, j.Good (col.length * row.length) :=
      fun j hj => ⟨hsc j hj, hjf j hj⟩
    have hrz : ∃ r ∈ row, ¬ Framed r := by
      obtain ⟨r, hr, hn⟩ := hz
      rcases List.mem_append.mp hr with h | h
      · exact absurd (hcf r h) hn
      · exact ⟨r, h, hn⟩
    rcases colLoop_spec oc hf.rows hc 0 (by omega) hg hgc false with ⟨h, he⟩ | ⟨g', h, he⟩
    · exact ⟨false, h.crash_none hjf, by rw [he]; rfl⟩
    · have hle := Run.le hgc hg h
      obtain ⟨b, h1, h2⟩ := rowLoop_zero oc (by have := hf.size; omega) (by have := hf.height.1; omega) hr 0 (by omega)
        (hle.1.trans hg) hsr hrz (decide (g' ≠ g))
      refine ⟨b, h.crash hjf h1, ?_⟩
      rw [he, Prog.ok_bind, Bool.false_or]
      simp only
      rw [h2]
      cases b <;> rfl

theorem solve_zero (oc : Bool) {col row : List (List Nat)} (hf : Spec.Sized col row) (hz : ∃ r ∈ col ++ row, ¬ Framed r) :
    ∃ b, Crash (allJobs col row) (blank col row) b ∧
      solveNonogram oc col row = if b = true then .panic else .ok (.error .NoSolution) := by
  obtain ⟨cs, hc, hcm⟩ := machines (fun r hr => hf.small r (List.mem_append_left _ hr))
  obtain ⟨rs, hr, hrm⟩ := machines (fun r hr => hf.small r (List.mem_append_right _ hr))
  obtain ⟨b, h1, h2⟩ := passBody_zero oc hf hz hcm hrm (g := blank col row) (by simp [blank])
  refine ⟨b, h1, ?_⟩
  have hs := hf.size
  unfold solveNonogram
  simp only
  rw [mulW_ok (by omega), Prog.ok_bind, vecRepeat, if_pos (by omega), Prog.ok_bind]
  unfold rightLeft
  simp only
  rw [hc, Prog.ok_bind, hr, Prog.ok_bind]
  cases b with
  | true =>
    rw [loop_panic (by simpa [blank] using h2)]; rfl
  | false =>
    rw [loop_inr (by simpa [blank] using h2)]; rfl

/-- Below a solution nothing gets stuck. -/
theorem Crash.sound {n : Nat} {js : List Job} {g : List Square} {b : List Bool} {p : Bool}
    (hj : ∀ j ∈ js, j.Sized n) (hg : g.length = n) (hb : ∀ j ∈ js, Follows j.rule (j.vals b)) (ha : Agrees g b)
    (h : Crash js g p) : p = true := by
  induction h with
  | here => rfl
  | @stuck j js g _ hs => exact absurd ⟨job_agrees (hj j (by simp)) hg ha, hb j (by simp)⟩ (hs _)
  | @step j js g g' o hf hd _ ih =>
    have h1 := Ded.le ⟨hj j (by simp), hf⟩ hg hd
    exact ih (fun k hk => hj k (by simp [hk])) (h1.1.trans hg) (fun k hk => hb k (by simp [hk]))
      (Ded.sound ⟨hj j (by simp), hf⟩ hg hd ha (hb j (by simp)))

/-! ### Columns of the blank grid -/

/-- An empty line has a completion exactly if the numbers and the gaps between them fit. -/
theorem completes_blank {rule : List Nat} {n : Nat} :
    (∃ xs, Completes (List.replicate n .Blank) rule xs) ↔ minLength rule ≤ n := by
  have hlen : ∀ (rule : List Nat) xs, Follows rule xs → minLength rule ≤ xs.length := by
    intro rule
    induction rule with
    | nil => intro xs _; simp [minLength]
    | cons a r ih =>
      intro xs h
      cases r with
      | nil =>
        obtain ⟨g, k, rfl⟩ := h
        simp [minLength]; omega
      | cons b r =>
        obtain ⟨g, ys, rfl, hf⟩ := h
        have := ih ys hf
        simp [minLength] at this ⊢; omega
  have hex : ∀ (rule : List Nat) n, minLength rule ≤ n → ∃ xs : List Bool, xs.length = n ∧ Follows rule xs := by
    intro rule
    induction rule with
    | nil => intro n _; exact ⟨List.replicate n false, by simp, n, rfl⟩
    | cons a r ih =>
      intro n hn
      cases r with
      | nil =>
        simp [minLength] at hn
        exact ⟨_, by simp; omega, 0, n - a, rfl⟩
      | cons b r =>
        obtain ⟨ys, h1, h2⟩ := ih (n - a - 1) (by simp [minLength] at hn ⊢; omega)
        refine ⟨_, ?_, 0, ys, rfl, h2⟩
        simp [minLength] at hn
        simp; omega
  constructor
  · rintro ⟨xs, h1, h2⟩
    have := hlen rule xs h2
    rwa [h1.1, List.length_replicate] at this
  · intro h
    obtain ⟨xs, h1, h2⟩ := hex rule n h
    exact ⟨xs, agrees_blank h1, h2⟩

theorem col_disjoint {w h x y : Nat} (hx : x < w) (hy : y < w) (hne : x ≠ y) {p : Nat} (hp : p ∈ colPs w h x) :
    p ∉ colPs w h y := by
  intro hq
  simp only [colPs, List.mem_map, List.mem_range] at hp hq
  obtain ⟨a, _, rfl⟩ := hp
  obtain ⟨b, _, hb⟩ := hq
  have h1 : (w * a + x) % w = x := by rw [Nat.mul_add_mod, Nat.mod_eq_of_lt hx]
  have h2 : (w * b + y) % w = y := by rw [Nat.mul_add_mod, Nat.mod_eq_of_lt hy]
  rw [← hb, h2] at h1
  exact hne h1.symm

/-- If every column fits, the columns of the first pass never get stuck. -/
theorem Crash.columns {w h : Nat} {rules : List (List Nat)} {ks : List Job} {k : Nat} (hk : k + rules.length ≤ w)
    {g : List Square} (hg : g.length = w * h) (hj : ∀ j ∈ jobs (colPs w h) rules k, j.Sized (w * h))
    (hfit : ∀ r ∈ rules, minLength r ≤ h) (hz : ∃ r ∈ rules, ¬ Framed r)
    (hb : ∀ x, k ≤ x → x < w → ∀ p ∈ colPs w h x, g.getD p .Blank = .Blank) {b : Bool}
    (hc : Crash (jobs (colPs w h) rules k ++ ks) g b) : b = true := by
  induction rules generalizing k g with
  | nil => obtain ⟨_, h, _⟩ := hz; cases h
  | cons rule rules ih =>
    rw [List.length_cons] at hk
    have hjs : jobs (colPs w h) (rule :: rules) k = ⟨rule, colPs w h k⟩ :: jobs (colPs w h) rules (k + 1) := by
      simp [jobs, List.zipIdx_cons]
    rw [hjs] at hj hc
    have hj0 := hj _ (List.mem_cons_self ..)
    have hline : Job.line ⟨rule, colPs w h k⟩ g = List.replicate h .Blank := by
      unfold Job.line
      rw [List.map_congr_left (g := fun _ => Square.Blank) (hb k (le_refl _) (by omega)), List.map_const']
      simp [colPs]
    have hns : ¬ Stuck ⟨rule, colPs w h k⟩ g := by
      intro hs
      obtain ⟨xs, hx⟩ := completes_blank.mpr (hfit rule (by simp))
      exact hs xs (by rw [hline]; exact hx)
    cases hc with
    | here => rfl
    | stuck _ hs => exact absurd hs hns
    | @step _ _ _ g' _ hf hd ht =>
      have hgood : (⟨rule, colPs w h k⟩ : Job).Good (w * h) := ⟨hj0, hf⟩
      have hle := Ded.le hgood hg hd
      refine ih (k := k + 1) (by omega) (hle.1.trans hg) (fun j hj' => hj j (by simp [hj']))
        (fun r hr => hfit r (by simp [hr])) ?_ ?_ ht
      · obtain ⟨r, hr, hnf⟩ := hz
        rcases List.mem_cons.mp hr with rfl | hr
        · exact absurd hf hnf
        · exact ⟨r, hr, hnf⟩
      · intro x hx hxw p hp
        obtain ⟨L, R, _, hg'⟩ := hd
        rw [hg', List.getD_eq_getElem?_getD, writeAt_notMem (col_disjoint hxw (by omega) (by omega) hp),
          ← List.getD_eq_getElem?_getD]
        exact hb x (by omega) hxw p hp

end Nonogram
