import Verif.Proofs.Nonogram.Grid
import Mathlib.Logic.Relation
import Mathlib.Data.List.Forall2
import Mathlib.Data.List.Nodup

/-! The propagation loop of `solve_nonogram`. -/
namespace Nonogram
open Spec

/-! ### Positions of rows and columns -/

theorem stepBy_get {α : Type} {k : Nat} (hk : 1 ≤ k) (n : Nat) (l : List α) (j : Nat) :
    (stepBy k n l)[j]? = l[n + k * j]? := by
  induction l generalizing n j with
  | nil => cases n <;> simp [stepBy]
  | cons x xs ih =>
    cases n with
    | zero =>
      rw [stepBy]
      cases j with
      | zero => simp
      | succ j =>
        rw [List.getElem?_cons_succ, ih, show 0 + k * (j + 1) = (k - 1 + k * j) + 1 by rw [Nat.mul_succ]; omega,
          List.getElem?_cons_succ]
    | succ n =>
      rw [stepBy, ih, show n + 1 + k * j = (n + k * j) + 1 by omega, List.getElem?_cons_succ]

/-- Positions of a column. -/
def colPs (w h x : Nat) : List Nat := (List.range h).map fun y => w * y + x
/-- Positions of a row. -/
def rowPs (w y : Nat) : List Nat := (List.range w).map fun x => w * y + x

theorem cell_lt {w h x y : Nat} (hx : x < w) (hy : y < h) : w * y + x < w * h := by
  calc w * y + x < w * y + w := by omega
    _ = w * (y + 1) := by rw [Nat.mul_succ]
    _ ≤ w * h := Nat.mul_le_mul_left _ hy

theorem colPositions_eq {w h x : Nat} (hx : x < w) (hh : 1 ≤ h) : colPositions (w * h) w x = .ok (colPs w h x) := by
  have hle : x ≤ w * h := by
    have := cell_lt hx hh
    omega
  unfold colPositions
  rw [if_pos ⟨hle, by omega⟩]
  congr 1
  apply List.ext_getElem?
  intro j
  rw [stepBy_get (by omega), List.getElem?_drop]
  simp only [colPs, List.getElem?_map]
  by_cases hj : j < h
  · rw [List.getElem?_range hj, List.getElem?_range (by have := cell_lt hx hj; omega)]
    simp only [Option.map_some]
    congr 1; omega
  · have : w * h ≤ w * j := Nat.mul_le_mul_left _ (by omega)
    rw [List.getElem?_eq_none (l := List.range (w * h)) (by rw [List.length_range]; omega),
      List.getElem?_eq_none (l := List.range h) (by rw [List.length_range]; omega)]
    rfl

theorem rowPositions_eq (oc : Bool) {w h y : Nat} (hy : y < h) (hb : w * h < 2 ^ 64) (hh : h < 2 ^ 64) :
    rowPositions oc (w * h) w y = .ok (rowPs w y) := by
  have h1 : w * y ≤ w * (y + 1) := Nat.mul_le_mul_left _ (by omega)
  have h2 : w * (y + 1) ≤ w * h := Nat.mul_le_mul_left _ hy
  unfold rowPositions
  rw [mulW_ok (by omega), Prog.ok_bind, addW_ok (by omega), Prog.ok_bind, mulW_ok (by omega), Prog.ok_bind,
    if_pos ⟨h1, h2⟩, show w * (y + 1) - w * y = w by rw [Nat.mul_succ]; omega]
  rw [Prog.pure_eq, List.range'_eq_map_range]
  rfl

/-! ### Passes -/

/-- A sequence of line steps; `none` if some line has no completion. -/
inductive Run : List Job → List Square → Option (List Square) → Prop
  | nil (g) : Run [] g (some g)
  | stuck {j js g} (h : Stuck j g) : Run (j :: js) g none
  | step {j js g g' o} (h : Ded j g g') (t : Run js g' o) : Run (j :: js) g o

theorem Run.append {js ks : List Job} {g g' : List Square} {o : Option (List Square)} (h : Run js g (some g'))
    (h' : Run ks g' o) : Run (js ++ ks) g o := by
  generalize he : some g' = p at h
  induction h with
  | nil => obtain rfl := Option.some.inj he; exact h'
  | stuck => cases he
  | step hd _ ih => exact .step hd (ih he)

theorem Run.append_none {js ks : List Job} {g : List Square} (h : Run js g none) : Run (js ++ ks) g none := by
  generalize he : none = p at h
  induction h with
  | nil => cases he
  | stuck hs => exact .stuck hs
  | step hd _ ih => exact .step hd (ih he)

theorem Run.le {n : Nat} {js : List Job} {g g' : List Square} (hj : ∀ j ∈ js, j.Good n) (hg : g.length = n)
    (h : Run js g (some g')) : Le g g' := by
  generalize he : some g' = p at h
  induction h with
  | nil => obtain rfl := Option.some.inj he; exact Le.refl _
  | stuck => cases he
  | step hd _ ih =>
    have h1 := Ded.le (hj _ (by simp)) hg hd
    exact h1.trans (ih (fun j hj' => hj j (by simp [hj'])) (h1.1.trans hg) he)

/-- A pass that changes nothing: every step changes nothing. -/
theorem Run.fix {n : Nat} {js : List Job} {g : List Square} (hj : ∀ j ∈ js, j.Good n) (hg : g.length = n)
    (h : Run js g (some g)) : ∀ j ∈ js, Ded j g g := by
  generalize he : some g = p at h
  suffices ∀ (js : List Job) (a : List Square) (p : Option (List Square)), Run js a p → (∀ j ∈ js, j.Good n) → a.length = n →
      a = g → p = some g → ∀ j ∈ js, Ded j g g from this js g p h hj hg rfl he.symm
  intro js a p h
  induction h with
  | nil => intro _ _ _ _ j hj; cases hj
  | stuck => intro _ _ _ h; cases h
  | @step j js a a' o hd ht ih =>
    intro hgood hlen ha ho
    subst ho ha
    have h1 := Ded.le (hgood j (by simp)) hlen hd
    have h2 := Run.le (fun k hk => hgood k (by simp [hk])) (h1.1.trans hlen) ht
    obtain rfl := h1.antisymm h2
    intro k hk
    rcases List.mem_cons.mp hk with rfl | hk
    · exact hd
    · exact ih (fun k hk => hgood k (by simp [hk])) hlen rfl rfl k hk

/-- The jobs of a list of lines. -/
def jobs (f : Nat → List Nat) (rules : List (List Nat)) (k : Nat) : List Job :=
  (rules.zipIdx k).map fun r => ⟨r.1, f r.2⟩

/-- The outcome of a loop over jobs. -/
def Outcome (js : List Job) (g : List Square) (c : Bool) (r : Prog (Except NonogramError (List Square × Bool))) : Prop :=
  (Run js g none ∧ r = .ok (.error .NoSolution)) ∨
  ∃ g', Run js g (some g') ∧ r = .ok (.ok (g', c || decide (g' ≠ g)))

theorem outcome_step {js : List Job} {j : Job} {g g' : List Square} {c : Bool} {n : Nat}
    {r : Prog (Except NonogramError (List Square × Bool))} (hg : g.length = n)
    (hj : ∀ k ∈ j :: js, k.Good n) (hd : Ded j g g') (h : Outcome js g' (c || decide (g' ≠ g)) r) :
    Outcome (j :: js) g c r := by
  have h1 := Ded.le (hj j (by simp)) hg hd
  rcases h with ⟨h, rfl⟩ | ⟨g'', h, rfl⟩
  · exact .inl ⟨.step hd h, rfl⟩
  · refine .inr ⟨g'', .step hd h, ?_⟩
    have h2 := Run.le (fun k hk => hj k (by simp [hk])) (h1.1.trans hg) h
    rw [Bool.or_assoc]
    congr 4
    rw [Bool.eq_iff_iff, Bool.or_eq_true, decide_eq_true_eq, decide_eq_true_eq, decide_eq_true_eq]
    constructor
    · rintro (h | h) rfl
      · exact h (h2.antisymm h1)
      · exact h (h1.antisymm h2)
    · intro h
      by_contra hn
      rw [not_or, not_not, not_not] at hn
      exact h (hn.2.trans hn.1)

theorem colLoop_spec (oc : Bool) {w h : Nat} (hh : 1 ≤ h) {rules : List (List Nat)} {ms : List RuleMachine}
    (hm : List.Forall₂ IsMachine rules ms) (k : Nat) (hk : k + rules.length ≤ w) {g : List Square} (hg : g.length = w * h)
    (hj : ∀ j ∈ jobs (colPs w h) rules k, j.Good (w * h)) (c : Bool) :
    Outcome (jobs (colPs w h) rules k) g c (colLoop oc w (ms.zipIdx k) (g, c)) := by
  induction hm generalizing k g c with
  | nil =>
    refine .inr ⟨g, .nil g, ?_⟩
    simp [colLoop]
  | @cons rule m rules ms hm _ ih =>
    rw [List.length_cons] at hk
    have hjs : jobs (colPs w h) (rule :: rules) k = ⟨rule, colPs w h k⟩ :: jobs (colPs w h) rules (k + 1) := by
      simp [jobs, List.zipIdx_cons]
    rw [hjs] at hj ⊢
    rw [List.zipIdx_cons, colLoop]
    simp only
    rw [hg, colPositions_eq (by omega) hh, Prog.ok_bind]
    rcases lineStep_spec oc (j := ⟨rule, colPs w h k⟩) (g := g) (by rw [hg]; exact hj _ (by simp)) hm c with
      ⟨hs, he⟩ | ⟨g', hd, he⟩
    · left
      refine ⟨.stuck hs, ?_⟩
      rw [he, Prog.ok_bind]; rfl
    · rw [he, Prog.ok_bind]
      simp only
      have hle := Ded.le (hj _ (by simp)) hg hd
      exact outcome_step hg hj hd (ih (k + 1) (by omega) (hle.1.trans hg) (fun j hj' => hj j (by simp [hj'])) _)

theorem rowLoop_spec (oc : Bool) {w h : Nat} (hb : w * h < 2 ^ 64) (hh : h < 2 ^ 64) {rules : List (List Nat)}
    {ms : List RuleMachine}
    (hm : List.Forall₂ IsMachine rules ms) (k : Nat) (hk : k + rules.length ≤ h) {g : List Square} (hg : g.length = w * h)
    (hj : ∀ j ∈ jobs (rowPs w) rules k, j.Good (w * h)) (c : Bool) :
    Outcome (jobs (rowPs w) rules k) g c (rowLoop oc w (ms.zipIdx k) (g, c)) := by
  induction hm generalizing k g c with
  | nil =>
    refine .inr ⟨g, .nil g, ?_⟩
    simp [rowLoop]
  | @cons rule m rules ms hm _ ih =>
    rw [List.length_cons] at hk
    have hjs : jobs (rowPs w) (rule :: rules) k = ⟨rule, rowPs w k⟩ :: jobs (rowPs w) rules (k + 1) := by
      simp [jobs, List.zipIdx_cons]
    rw [hjs] at hj ⊢
    rw [List.zipIdx_cons, rowLoop]
    simp only
    rw [hg, rowPositions_eq oc (by omega) hb hh, Prog.ok_bind]
    rcases lineStep_spec oc (j := ⟨rule, rowPs w k⟩) (g := g) (by rw [hg]; exact hj _ (by simp)) hm c with
      ⟨hs, he⟩ | ⟨g', hd, he⟩
    · left
      refine ⟨.stuck hs, ?_⟩
      rw [he, Prog.ok_bind]; rfl
    · rw [he, Prog.ok_bind]
      simp only
      have hle := Ded.le (hj _ (by simp)) hg hd
      exact outcome_step hg hj hd (ih (k + 1) (by omega) (hle.1.trans hg) (fun j hj' => hj j (by simp [hj'])) _)

/-- All lines of a puzzle, in the order in which they are visited. -/
def allJobs (col row : List (List Nat)) : List Job :=
  jobs (colPs col.length row.length) col 0 ++ jobs (rowPs col.length) row 0

theorem mem_jobs {f : Nat → List Nat} {rules : List (List Nat)} {j : Job} :
    j ∈ jobs f rules 0 ↔ ∃ i, rules[i]? = some j.rule ∧ j.ps = f i := by
  simp only [jobs, List.mem_map, Prod.exists, List.mem_zipIdx_iff_getElem?]
  constructor
  · rintro ⟨r, i, h, rfl⟩; exact ⟨i, h, rfl⟩
  · rintro ⟨i, h1, h2⟩; exact ⟨j.rule, i, h1, by cases j; simp_all⟩

theorem nodup_colPs {w h x : Nat} (hw : 1 ≤ w) : (colPs w h x).Nodup := by
  apply List.Nodup.map _ List.nodup_range
  intro a b hab
  simp only at hab
  exact Nat.eq_of_mul_eq_mul_left hw (by omega)

theorem nodup_rowPs {w y : Nat} : (rowPs w y).Nodup := by
  apply List.Nodup.map _ List.nodup_range
  intro a b hab
  simp only at hab
  omega

theorem allJobs_sized {col row : List (List Nat)} (hf : Spec.Sized col row) :
    ∀ j ∈ allJobs col row, j.Sized (col.length * row.length) := by
  intro j hj
  simp only [allJobs, List.mem_append, mem_jobs] at hj
  rcases hj with ⟨x, hr, hp⟩ | ⟨y, hr, hp⟩
  · have hx := (List.getElem?_eq_some_iff.mp hr).1
    have hm := List.mem_of_getElem? hr
    refine ⟨hf.small _ (by simp [hm]), ?_, ?_, ?_⟩
    · rw [hp]; exact nodup_colPs (by omega)
    · intro p hpm
      rw [hp] at hpm
      simp only [colPs, List.mem_map, List.mem_range] at hpm
      obtain ⟨y, hy, rfl⟩ := hpm
      exact cell_lt hx hy
    · rw [hp]; simpa [colPs] using hf.height.2 _ hm
  · have hy := (List.getElem?_eq_some_iff.mp hr).1
    have hm := List.mem_of_getElem? hr
    refine ⟨hf.small _ (by simp [hm]), ?_, ?_, ?_⟩
    · rw [hp]; exact nodup_rowPs
    · intro p hpm
      rw [hp] at hpm
      simp only [rowPs, List.mem_map, List.mem_range] at hpm
      obtain ⟨x, hx, rfl⟩ := hpm
      exact cell_lt hx hy
    · rw [hp]; simpa [rowPs] using hf.width.2 _ hm

theorem allJobs_good {col row : List (List Nat)} (hf : Fits col row) :
    ∀ j ∈ allJobs col row, j.Good (col.length * row.length) := by
  intro j hj
  refine ⟨allJobs_sized hf.toSized j hj, ?_⟩
  simp only [allJobs, List.mem_append, mem_jobs] at hj
  rcases hj with ⟨x, hr, _⟩ | ⟨y, hr, _⟩
  · exact hf.framed _ (by simp [List.mem_of_getElem? hr])
  · exact hf.framed _ (by simp [List.mem_of_getElem? hr])

theorem passBody_spec (oc : Bool) {col row : List (List Nat)} (hf : Fits col row) {cs rs : List RuleMachine}
    (hc : List.Forall₂ IsMachine col cs) (hr : List.Forall₂ IsMachine row rs) {g : List Square}
    (hg : g.length = col.length * row.length) :
    (Run (allJobs col row) g none ∧ passBody oc col.length cs rs g = .ok (.inr (.error .NoSolution))) ∨
    ∃ g', Run (allJobs col row) g (some g') ∧
      passBody oc col.length cs rs g = if g' = g then .ok (.inr (.ok g)) else .ok (.inl g') := by
  have hgood := allJobs_good hf
  have hgc : ∀ j ∈ jobs (colPs col.length row.length) col 0, j.Good (col.length * row.length) :=
    fun j hj => hgood j (by simp [allJobs, hj])
  have hgr : ∀ j ∈ jobs (rowPs col.length) row 0, j.Good (col.length * row.length) :=
    fun j hj => hgood j (by simp [allJobs, hj])
  unfold passBody
  rcases colLoop_spec oc hf.rows hc 0 (by omega) hg hgc false with ⟨h, he⟩ | ⟨g', h, he⟩
  · rw [he, Prog.ok_bind]
    exact .inl ⟨h.append_none, rfl⟩
  · rw [he, Prog.ok_bind, Bool.false_or]
    simp only
    have hle := Run.le hgc hg h
    rcases rowLoop_spec oc (by have := hf.size; omega) (by have := hf.height.1; omega) hr 0 (by omega) (hle.1.trans hg) hgr
      (decide (g' ≠ g)) with ⟨h', he'⟩ | ⟨g'', h', he'⟩
    · rw [he', Prog.ok_bind]
      exact .inl ⟨h.append h', rfl⟩
    · rw [he', Prog.ok_bind]
      simp only
      have hle' := Run.le hgr (hle.1.trans hg) h'
      refine .inr ⟨g'', h.append h', ?_⟩
      by_cases hgg : g'' = g
      · subst hgg
        obtain rfl := hle.antisymm hle'
        simp
      · rw [if_neg hgg, if_pos]
        · rfl
        · rw [Bool.or_eq_true, decide_eq_true_eq, decide_eq_true_eq]
          by_contra hn
          rw [not_or, not_not, not_not] at hn
          exact hgg (hn.2.trans hn.1)

/-- Repeated passes. -/
def Passes (js : List Job) : List Square → List Square → Prop :=
  Relation.ReflTransGen fun g g' => Run js g (some g')

theorem Passes.le {n : Nat} {js : List Job} {g g' : List Square} (hj : ∀ j ∈ js, j.Good n) (hg : g.length = n)
    (h : Passes js g g') : Le g g' := by
  induction h with
  | refl => exact Le.refl _
  | tail _ h ih => exact ih.trans (Run.le hj (ih.1.trans hg) h)

theorem machines {rules : List (List Nat)} (h : ∀ rule ∈ rules, Small rule) :
    ∃ ms, mapP RuleMachine.new rules = .ok ms ∧ List.Forall₂ IsMachine rules ms := by
  induction rules with
  | nil => exact ⟨[], rfl, .nil⟩
  | cons rule rules ih =>
    obtain ⟨ms, h1, h2⟩ := ih (fun r hr => h r (by simp [hr]))
    obtain ⟨m, h3, h4⟩ := machine_new (h rule (by simp))
    refine ⟨m :: ms, ?_, .cons h4 h2⟩
    rw [mapP, h3, Prog.ok_bind, h1, Prog.ok_bind]
    rfl

/-- The propagation: it stops, with an error exactly when a line has no completion, otherwise at a grid on which a
whole pass changes nothing. -/
theorem rightLeft_spec (oc : Bool) {col row : List (List Nat)} (hf : Fits col row) {g0 : List Square}
    (hg : g0.length = col.length * row.length) :
    (∃ g, Passes (allJobs col row) g0 g ∧ Run (allJobs col row) g none ∧
      rightLeft oc g0 col row = .ok (.error .NoSolution)) ∨
    ∃ g, Passes (allJobs col row) g0 g ∧ Run (allJobs col row) g (some g) ∧ rightLeft oc g0 col row = .ok (.ok g) := by
  obtain ⟨cs, hc, hcm⟩ := machines (fun r hr => hf.small r (List.mem_append_left _ hr))
  obtain ⟨rs, hr, hrm⟩ := machines (fun r hr => hf.small r (List.mem_append_right _ hr))
  have hgood := allJobs_good hf
  unfold rightLeft
  simp only
  rw [hc, Prog.ok_bind, hr, Prog.ok_bind]
  obtain ⟨a, h1, h2⟩ := loop_spec (body := passBody oc col.length cs rs)
    (fun g => Passes (allJobs col row) g0 g) blanks
    (fun a => (∃ g, Passes (allJobs col row) g0 g ∧ Run (allJobs col row) g none ∧ a = .error .NoSolution) ∨
      ∃ g, Passes (allJobs col row) g0 g ∧ Run (allJobs col row) g (some g) ∧ a = .ok g) (by
      intro g hI
      have hlen : g.length = col.length * row.length := (Passes.le hgood hg hI).1.trans hg
      rcases passBody_spec oc hf hcm hrm hlen with ⟨hrun, hb⟩ | ⟨g', hrun, hb⟩
      · exact .inr ⟨_, hb, .inl ⟨g, hI, hrun, rfl⟩⟩
      · by_cases hgg : g' = g
        · rw [if_pos hgg] at hb
          subst hgg
          exact .inr ⟨_, hb, .inr ⟨g', hI, hrun, rfl⟩⟩
        · rw [if_neg hgg] at hb
          exact .inl ⟨g', hb, hI.tail hrun, (blanks_le (Run.le hgood hlen hrun)).2 (fun e => hgg e.symm)⟩)
    g0 .refl
  rcases h2 with ⟨g, ha, hb, rfl⟩ | ⟨g, ha, hb, rfl⟩
  · exact .inl ⟨g, ha, hb, h1⟩
  · exact .inr ⟨g, ha, hb, h1⟩

/-! ### Consequences -/

/-- A fixpoint above the start bounds everything that is reached, and no line gets stuck below it. -/
theorem Run.bounded {n : Nat} {js : List Job} {g F : List Square} {o : Option (List Square)} (hj : ∀ j ∈ js, j.Good n)
    (hg : g.length = n) (hle : Le g F) (hF : ∀ j ∈ js, Ded j F F) (h : Run js g o) : ∃ g', o = some g' ∧ Le g' F := by
  induction h with
  | nil g => exact ⟨g, rfl, hle⟩
  | @stuck j js g hs =>
    obtain ⟨L, R, he, _⟩ := hF j (by simp)
    exact absurd he.left (Stuck.mono (hj j (by simp)) hg hle hs L)
  | @step j js g g' o hd _ ih =>
    have h1 := Ded.le (hj j (by simp)) hg hd
    exact ih (fun k hk => hj k (by simp [hk])) (h1.1.trans hg) (Ded.mono (hj j (by simp)) hg hle hd (hF j (by simp)))
      (fun k hk => hF k (by simp [hk]))

theorem Passes.bounded {n : Nat} {js : List Job} {g g' F : List Square} (hj : ∀ j ∈ js, j.Good n)
    (hg : g.length = n) (hle : Le g F) (hF : ∀ j ∈ js, Ded j F F) (h : Passes js g g') : Le g' F := by
  induction h with
  | refl => exact hle
  | tail hp h ih =>
    have hl := (Passes.le hj hg hp).1.trans hg
    obtain ⟨g'', he, hb⟩ := Run.bounded hj hl ih hF h
    obtain rfl := Option.some.inj he
    exact hb

theorem Run.sound {n : Nat} {js : List Job} {g : List Square} {b : List Bool} {o : Option (List Square)}
    (hj : ∀ j ∈ js, j.Good n) (hg : g.length = n) (hb : ∀ j ∈ js, Follows j.rule (j.vals b)) (ha : Agrees g b)
    (h : Run js g o) : ∃ g', o = some g' ∧ Agrees g' b := by
  induction h with
  | nil g => exact ⟨g, rfl, ha⟩
  | @stuck j js g hs => exact absurd ⟨job_agrees (hj j (by simp)).toSized hg ha, hb j (by simp)⟩ (hs _)
  | @step j js g g' o hd _ ih =>
    have h1 := Ded.le (hj j (by simp)) hg hd
    exact ih (fun k hk => hj k (by simp [hk])) (h1.1.trans hg) (fun k hk => hb k (by simp [hk]))
      (Ded.sound (hj j (by simp)) hg hd ha (hb j (by simp)))

theorem Passes.sound {n : Nat} {js : List Job} {g g' : List Square} {b : List Bool}
    (hj : ∀ j ∈ js, j.Good n) (hg : g.length = n) (hb : ∀ j ∈ js, Follows j.rule (j.vals b)) (ha : Agrees g b)
    (h : Passes js g g') : Agrees g' b := by
  induction h with
  | refl => exact ha
  | tail hp h ih =>
    have hl := (Passes.le hj hg hp).1.trans hg
    obtain ⟨g'', he, hb⟩ := Run.sound hj hl hb ih h
    obtain rfl := Option.some.inj he
    exact hb

theorem vals_col {col row : List (List Nat)} {b : List Bool} {x : Nat} {rule : List Nat} :
    Job.vals ⟨rule, colPs col.length row.length x⟩ b = column col.length row.length b x := by
  simp [Job.vals, colPs, column, cell]
theorem vals_row {col : List (List Nat)} {b : List Bool} {y : Nat} {rule : List Nat} :
    Job.vals ⟨rule, rowPs col.length y⟩ b = rowOf col.length b y := by
  simp [Job.vals, rowPs, rowOf, cell]

theorem solves_iff {col row : List (List Nat)} {b : List Bool} :
    Solves col row b ↔ b.length = col.length * row.length ∧ ∀ j ∈ allJobs col row, Follows j.rule (j.vals b) := by
  unfold Solves
  refine and_congr_right fun _ => ?_
  constructor
  · rintro ⟨h1, h2⟩ j hj
    simp only [allJobs, List.mem_append, mem_jobs] at hj
    rcases hj with ⟨x, hr, hp⟩ | ⟨y, hr, hp⟩
    · have : j = ⟨j.rule, colPs col.length row.length x⟩ := by cases j; simp_all
      rw [this, vals_col]; exact h1 x _ hr
    · have : j = ⟨j.rule, rowPs col.length y⟩ := by cases j; simp_all
      rw [this, vals_row]; exact h2 y _ hr
  · intro h
    constructor
    · intro x rule hr
      have := h ⟨rule, colPs col.length row.length x⟩ (by
        simp only [allJobs, List.mem_append, mem_jobs]; exact .inl ⟨x, hr, rfl⟩)
      rwa [vals_col] at this
    · intro y rule hr
      have := h ⟨rule, rowPs col.length y⟩ (by
        simp only [allJobs, List.mem_append, mem_jobs]; exact .inr ⟨y, hr, rfl⟩)
      rwa [vals_row] at this

/-- The blank grid. -/
def blank (col row : List (List Nat)) : List Square := List.replicate (col.length * row.length) .Blank

theorem agrees_blank {n : Nat} {b : List Bool} (h : b.length = n) : Agrees (List.replicate n .Blank) b := by
  refine ⟨by simpa using h, fun i q c hq _ => ?_⟩
  have := List.mem_of_getElem? hq
  rw [List.mem_replicate] at this
  rw [this.2]; simp [Compat]

theorem blank_le {n : Nat} {g : List Square} (h : g.length = n) : Le (List.replicate n .Blank) g := by
  refine ⟨by simpa using h, fun p q e hq => ?_⟩
  have := List.mem_of_getElem? e
  rw [List.mem_replicate] at this
  exact absurd this.2 hq

/-- `solve_nonogram` in terms of the propagation. -/
theorem solve_spec (oc : Bool) {col row : List (List Nat)} (hf : Fits col row) :
    ((∃ g, Passes (allJobs col row) (blank col row) g ∧ Run (allJobs col row) g none) ∧
      solveNonogram oc col row = .ok (.error .NoSolution)) ∨
    ∃ g, Passes (allJobs col row) (blank col row) g ∧ Run (allJobs col row) g (some g) ∧
      rightLeft oc (blank col row) col row = .ok (.ok g) ∧
      solveNonogram oc col row = .ok (.ok (g.map fun q => decide (q = .Filled))) := by
  have hs := hf.size
  unfold solveNonogram
  simp only
  rw [mulW_ok (by omega), Prog.ok_bind, vecRepeat, if_pos (by omega), Prog.ok_bind]
  have hlen : (blank col row).length = col.length * row.length := by simp [blank]
  rcases rightLeft_spec oc hf hlen with ⟨g, h1, h2, h3⟩ | ⟨g, h1, h2, h3⟩
  · refine .inl ⟨⟨g, h1, h2⟩, ?_⟩
    unfold blank at h3
    rw [h3, Prog.ok_bind]; rfl
  · refine .inr ⟨g, h1, h2, h3, ?_⟩
    unfold blank at h3
    rw [h3, Prog.ok_bind]; rfl

end Nonogram
