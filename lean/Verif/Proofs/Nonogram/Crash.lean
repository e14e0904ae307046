import Verif.Proofs.Nonogram.Zero
import Verif.Proofs.Nonogram.Stable
import Verif.Proofs.Nonogram.Forced
import Verif.Spec.NonogramZero

/-! The first pass over a puzzle with a rule that starts or ends with a zero, exactly. -/
namespace Nonogram
open Nonogram.Spec

/-- Two lines without common squares. -/
def Apart (j k : Job) : Prop := ∀ p ∈ j.ps, p ∉ k.ps

theorem Ded.apart {j k : Job} {g g' : List Square} (h : Ded j g g') (ha : Apart k j) : k.line g' = k.line g := by
  obtain ⟨L, R, _, rfl⟩ := h
  unfold Job.line
  refine List.map_congr_left fun p hp => ?_
  rw [List.getD_eq_getElem?_getD, writeAt_notMem (ha p hp), ← List.getD_eq_getElem?_getD]

theorem Ded.not_stuck {j : Job} {g g' : List Square} (h : Ded j g g') : ¬ Stuck j g := by
  obtain ⟨L, R, he, _⟩ := h
  exact fun hs => hs _ he.left

theorem stuck_line {j : Job} {g g' : List Square} (h : j.line g' = j.line g) : Stuck j g' ↔ Stuck j g := by
  unfold Stuck; rw [h]

/-- Among lines without common squares each finds the grid as it was at the beginning. -/
theorem Crash.exact {js : List Job} (ha : js.Pairwise fun j k => Apart k j) {ks : List Job} {g : List Square} {b : Bool}
    (hz : ∃ j ∈ js, ¬ Framed j.rule) (h : Crash (js ++ ks) g b) :
    b = true ↔ ∃ pre j post, js = pre ++ j :: post ∧ ¬ Framed j.rule ∧ (j.rule.head? = some 0 ∨ ¬ Stuck j g) ∧
      ∀ i ∈ pre, Framed i.rule ∧ ¬ Stuck i g := by
  induction js generalizing g with
  | nil => obtain ⟨_, h, _⟩ := hz; cases h
  | cons j js ih =>
    rw [List.pairwise_cons] at ha
    cases h with
    | here hn hs => exact ⟨fun _ => ⟨[], j, js, rfl, hn, hs, by simp⟩, fun _ => rfl⟩
    | stuck h0 hs =>
      refine ⟨fun h => (by cases h), ?_⟩
      rintro ⟨pre, i, post, he, h1, h2, h3⟩
      cases pre with
      | nil =>
        obtain ⟨rfl, rfl⟩ := List.cons.inj he
        exact absurd hs (h2.resolve_left h0)
      | cons k pre =>
        obtain ⟨rfl, rfl⟩ := List.cons.inj he
        exact absurd hs (h3 _ (by simp)).2
    | @step _ _ _ g' _ hf hd ht =>
      have hz' : ∃ j ∈ js, ¬ Framed j.rule := by
        obtain ⟨i, hi, hn⟩ := hz
        rcases List.mem_cons.mp hi with rfl | hi
        · exact absurd hf hn
        · exact ⟨i, hi, hn⟩
      have hst : ∀ i ∈ js, (Stuck i g' ↔ Stuck i g) := fun i hi => stuck_line (hd.apart (ha.1 i hi))
      rw [ih ha.2 hz' ht]
      constructor
      · rintro ⟨pre, i, post, rfl, h1, h2, h3⟩
        refine ⟨j :: pre, i, post, rfl, h1, by rwa [hst i (by simp)] at h2, fun k hk => ?_⟩
        rcases List.mem_cons.mp hk with rfl | hk
        · exact ⟨hf, hd.not_stuck⟩
        · rw [← hst k (by simp [hk])]; exact h3 k hk
      · rintro ⟨pre, i, post, he, h1, h2, h3⟩
        cases pre with
        | nil =>
          obtain ⟨rfl, rfl⟩ := List.cons.inj he
          exact absurd hf h1
        | cons k pre =>
          obtain ⟨rfl, rfl⟩ := List.cons.inj he
          exact ⟨pre, i, post, rfl, h1, by rwa [hst i (by simp)], fun k hk => by
            rw [hst k (by simp [hk])]; exact h3 k (by simp [hk])⟩

/-- If none of the first lines has such a rule, they are done like any others. -/
theorem Crash.split {js ks : List Job} {g : List Square} {b : Bool} (hf : ∀ j ∈ js, Framed j.rule) (h : Crash (js ++ ks) g b) :
    (Run js g none ∧ b = false) ∨ ∃ g', Run js g (some g') ∧ Crash ks g' b := by
  induction js generalizing g with
  | nil => exact .inr ⟨g, .nil g, h⟩
  | cons j js ih =>
    cases h with
    | here hn => exact absurd (hf j (by simp)) hn
    | stuck _ hs => exact .inl ⟨.stuck hs, rfl⟩
    | @step _ _ _ g' _ _ hd ht =>
      rcases ih (fun k hk => hf k (by simp [hk])) ht with ⟨h1, h2⟩ | ⟨g2, h1, h2⟩
      · exact .inl ⟨.step hd h1, h2⟩
      · exact .inr ⟨g2, .step hd h1, h2⟩

/-- The lines of a run without common squares. -/
theorem Run.apart_none {js : List Job} (ha : js.Pairwise fun j k => Apart k j) {g : List Square} (h : Run js g none) :
    ∃ j ∈ js, Stuck j g := by
  induction js generalizing g with
  | nil => cases h
  | cons j js ih =>
    rw [List.pairwise_cons] at ha
    cases h with
    | stuck hs => exact ⟨j, by simp, hs⟩
    | @step _ _ _ g' _ hd ht =>
      obtain ⟨i, hi, hs⟩ := ih ha.2 ht
      exact ⟨i, by simp [hi], (stuck_line (hd.apart (ha.1 i hi))).1 hs⟩

/-- A run leaves the squares of other lines alone. -/
theorem Run.apart {js : List Job} {k : Job} (hk : ∀ j ∈ js, Apart k j) {g g' : List Square} (h : Run js g (some g')) :
    k.line g' = k.line g := by
  generalize he : some g' = p at h
  induction h with
  | nil => obtain rfl := Option.some.inj he; rfl
  | stuck => cases he
  | @step j js g g1 o hd _ ih =>
    rw [ih (fun j hj => hk j (by simp [hj])) he, hd.apart (hk j (by simp))]

/-- What a line looks like afterwards. -/
theorem Run.apart_line {n : Nat} {js : List Job} (hj : ∀ j ∈ js, j.Good n) (ha : js.Pairwise fun j k => Apart k j ∧ Apart j k)
    {g g' : List Square} (hg : g.length = n) (h : Run js g (some g')) :
    ∀ j ∈ js, ¬ Stuck j g ∧ ∃ L R, Extremes (j.line g) j.rule L R ∧ j.line g' = deduce L R (j.line g) := by
  generalize he : some g' = p at h
  induction h with
  | nil => intro j hj; cases hj
  | stuck => cases he
  | @step j js g g1 o hd ht ih =>
    subst he
    rw [List.pairwise_cons] at ha
    have hle := Ded.le (hj j (by simp)) hg hd
    intro i hi
    rcases List.mem_cons.mp hi with rfl | hi
    · refine ⟨hd.not_stuck, ?_⟩
      rw [ht.apart fun k hk => (ha.1 k hk).2]
      obtain ⟨L, R, hE, rfl⟩ := hd
      refine ⟨L, R, hE, ?_⟩
      have hgood := hj i (by simp)
      apply List.ext_getElem?
      intro q
      have hm : ∀ G, (i.line G)[q]? = (i.ps[q]?).map (G.getD · .Blank) := fun G => by rw [Job.line, List.getElem?_map]
      rw [hm]
      cases hq : i.ps[q]? with
      | none =>
        rw [List.getElem?_eq_none_iff] at hq
        rw [List.getElem?_eq_none (by rw [deduce_length]; simpa [Job.line] using hq)]; rfl
      | some p =>
        have hql := (List.getElem?_eq_some_iff.mp hq).1
        have hql' : q < (deduce L R (i.line g)).length := by rw [deduce_length]; simpa [Job.line] using hql
        rw [Option.map_some, List.getD_eq_getElem?_getD,
          writeAt_get hgood.nodup hq (List.getElem?_eq_getElem hql') (by rw [hg]; exact hgood.bound p (List.mem_of_getElem? hq))]
        exact (List.getElem?_eq_getElem hql').symm
    · obtain ⟨h1, L, R, h2, h3⟩ := ih (fun j hj' => hj j (by simp [hj'])) ha.2 (hle.1.trans hg) rfl i hi
      have e := hd.apart (ha.1 i hi).1
      rw [e] at h2 h3
      exact ⟨by rwa [stuck_line e] at h1, L, R, h2, h3⟩

theorem Apart.columns {w h x y : Nat} (hx : x < w) (hy : y < w) (hne : x ≠ y) (r s : List Nat) :
    Apart ⟨r, colPs w h x⟩ ⟨s, colPs w h y⟩ := fun _ hp => col_disjoint hx hy hne hp

theorem Apart.rows {w x y : Nat} (hne : x ≠ y) (r s : List Nat) : Apart ⟨r, rowPs w x⟩ ⟨s, rowPs w y⟩ := by
  intro p hp hq
  simp only [rowPs, List.mem_map, List.mem_range] at hp hq
  obtain ⟨a, ha, rfl⟩ := hp
  obtain ⟨b, hb, hq⟩ := hq
  have h1 : (w * x + a) / w = x := by rw [Nat.mul_add_div (by omega), Nat.div_eq_of_lt ha, Nat.add_zero]
  have h2 : (w * y + b) / w = y := by rw [Nat.mul_add_div (by omega), Nat.div_eq_of_lt hb, Nat.add_zero]
  rw [← hq, h2] at h1
  exact hne h1.symm

theorem jobs_pairwise {f : Nat → List Nat} {rules : List (List Nat)} {P : Job → Job → Prop} {n k : Nat} (hk : k + rules.length ≤ n)
    (h : ∀ x y, x < n → y < n → x ≠ y → ∀ r s, P ⟨r, f x⟩ ⟨s, f y⟩) : (jobs f rules k).Pairwise P := by
  induction rules generalizing k with
  | nil => exact List.Pairwise.nil
  | cons r rules ih =>
    rw [List.length_cons] at hk
    rw [show jobs f (r :: rules) k = ⟨r, f k⟩ :: jobs f rules (k + 1) by simp [jobs, List.zipIdx_cons], List.pairwise_cons]
    refine ⟨fun j hj => ?_, ih (by omega)⟩
    simp only [jobs, List.mem_map, Prod.exists] at hj
    obtain ⟨s, i, hi, rfl⟩ := hj
    have := List.snd_lt_add_of_mem_zipIdx hi
    have := List.le_snd_of_mem_zipIdx hi
    dsimp only at *
    exact h _ _ (by omega) (by omega) (by omega) _ _

/-- The splits of a list of jobs. -/
theorem jobs_split {f : Nat → List Nat} {rules : List (List Nat)} {P Q : Job → Prop} :
    (∃ pre j post, jobs f rules 0 = pre ++ j :: post ∧ P j ∧ ∀ i ∈ pre, Q i) ↔
    ∃ (x : Nat) (r : List Nat), rules[x]? = some r ∧ P ⟨r, f x⟩ ∧ ∀ (i : Nat) (s : List Nat), i < x → rules[i]? = some s → Q ⟨s, f i⟩ := by
  have get : ∀ (i : Nat), (jobs f rules 0)[i]? = (rules[i]?).map fun r => ⟨r, f i⟩ := by
    intro i
    simp only [jobs, List.getElem?_map, List.getElem?_zipIdx, Nat.zero_add]
    cases rules[i]? <;> rfl
  constructor
  · rintro ⟨pre, j, post, he, h1, h2⟩
    have hx := get pre.length
    rw [he, List.getElem?_append_right (Nat.le_refl _), Nat.sub_self, List.getElem?_cons_zero] at hx
    cases hr : rules[pre.length]? with
    | none => rw [hr] at hx; cases hx
    | some r =>
      rw [hr] at hx
      obtain rfl := Option.some.inj hx
      refine ⟨pre.length, r, hr, h1, fun i s hi hs => ?_⟩
      have hp := get i
      rw [he, List.getElem?_append_left hi, hs] at hp
      exact h2 _ (List.mem_of_getElem? hp)
  · rintro ⟨x, r, hx, h1, h2⟩
    have hj : (jobs f rules 0)[x]? = some ⟨r, f x⟩ := by rw [get, hx]; rfl
    obtain ⟨hl, hj'⟩ := List.getElem?_eq_some_iff.mp hj
    refine ⟨(jobs f rules 0).take x, _, (jobs f rules 0).drop (x + 1), ?_, h1, fun i hi => ?_⟩
    · rw [← hj', ← List.drop_eq_getElem_cons hl, List.take_append_drop]
    · obtain ⟨k, hk, rfl⟩ := List.getElem_of_mem hi
      rw [List.length_take] at hk
      have hkl : k < (jobs f rules 0).length := by omega
      have e := List.getElem?_eq_getElem hkl
      rw [get] at e
      cases hr : rules[k]? with
      | none => rw [hr] at e; cases e
      | some s =>
        rw [hr] at e
        rw [List.getElem_take, ← Option.some.inj e]
        exact h2 k s (by omega) hr

/-! ### The whole pass -/

theorem column_line {col row : List (List Nat)} {x : Nat} (r : List Nat) :
    Job.line ⟨r, colPs col.length row.length x⟩ (blank col row) = List.replicate row.length .Blank := by
  unfold Job.line
  rw [List.map_congr_left (g := fun _ => Square.Blank) (fun p _ => ?_), List.map_const']
  · simp [colPs]
  · by_cases hp : p < col.length * row.length <;> simp [blank, hp]

theorem column_stuck {col row : List (List Nat)} {x : Nat} (r : List Nat) :
    ¬ Stuck ⟨r, colPs col.length row.length x⟩ (blank col row) ↔ minLength r ≤ row.length := by
  rw [← completes_blank]
  unfold Stuck
  rw [column_line]
  simp only [not_forall, not_not]

/-- What the columns find out about an empty grid. -/
theorem column_forced {r : List Nat} {n i : Nat} (hi : i < n) {L R : List Bool}
    (he : Extremes (List.replicate n .Blank) r L R) :
    ((∀ b, ¬ Forced n r i b) ∧ deduceAt L R (List.replicate n .Blank) i = .Blank) ∨
    ∃ b, (∀ c, Forced n r i c ↔ c = b) ∧ deduceAt L R (List.replicate n .Blank) i = if b = true then .Filled else .Blocked := by
  have comp : ∀ xs, Completes (List.replicate n .Blank) r xs ↔ Filling n r xs := by
    intro xs
    constructor
    · rintro ⟨h1, h2⟩
      exact ⟨by rw [h1.1, List.length_replicate], h2⟩
    · rintro ⟨h1, h2⟩
      exact ⟨agrees_blank h1, h2⟩
  have hL := (comp L).1 he.left
  rcases deduceAt_settled he (i := i) (by rw [List.getElem?_replicate, if_pos hi]) with ⟨h1, h2⟩ | ⟨_, b, h1, h2⟩
  · refine .inl ⟨fun b hb => h1 ?_, h2⟩
    rw [settled_iff (by simpa using hi)]
    intro xs ys hx hy
    rw [comp] at hx hy
    exact forced_blk hi (fun us vs h3 h4 h5 h6 => by rw [hb us ⟨h3, h5⟩, hb vs ⟨h4, h6⟩]) hx.1 hy.1 hx.2 hy.2
  · refine .inr ⟨b, fun c => ⟨fun hc => ?_, ?_⟩, h2⟩
    · have e1 := hc L hL
      rw [h1 L he.left] at e1
      exact (Option.some.inj e1).symm
    · rintro rfl xs hx
      exact h1 xs ((comp xs).2 hx)

theorem row_open {col row : List (List Nat)} (hg : ∀ j ∈ jobs (colPs col.length row.length) col 0, j.Good (col.length * row.length))
    {g' : List Square} (h : Run (jobs (colPs col.length row.length) col 0) (blank col row) (some g')) {y : Nat}
    (hy : y < row.length) (r : List Nat) :
    ¬ Stuck ⟨r, rowPs col.length y⟩ g' ↔ Open col row.length y r := by
  have ha : (jobs (colPs col.length row.length) col 0).Pairwise fun j k => Apart k j ∧ Apart j k :=
    jobs_pairwise (n := col.length) (by omega) fun x y hx hy hne r s =>
      ⟨Apart.columns hy hx hne.symm _ _, Apart.columns hx hy hne _ _⟩
  have hline := Run.apart_line hg ha (by simp [blank]) h
  have hcell : ∀ (x : Nat) (s : List Nat), col[x]? = some s →
      ((∀ b, ¬ Forced row.length s y b) ∧ g'.getD (col.length * y + x) .Blank = .Blank) ∨
      ∃ b, (∀ c, Forced row.length s y c ↔ c = b) ∧
        g'.getD (col.length * y + x) .Blank = if b = true then .Filled else .Blocked := by
    intro x s hs
    obtain ⟨_, L, R, hE, hl⟩ := hline ⟨s, colPs col.length row.length x⟩ (mem_jobs.2 ⟨x, hs, rfl⟩)
    rw [column_line] at hE hl
    have e : g'.getD (col.length * y + x) .Blank = deduceAt L R (List.replicate row.length .Blank) y := by
      have h1 := congrArg (fun l => l[y]?) hl
      simp only [Job.line, colPs, List.getElem?_map, List.getElem?_range hy, Option.map_some] at h1
      rw [deduce_get (by simpa using hy)] at h1
      exact Option.some.inj h1
    rw [e]
    exact column_forced hy hE
  have hlen : (Job.line ⟨r, rowPs col.length y⟩ g').length = col.length := by simp [Job.line, rowPs]
  have hget : ∀ x < col.length, (Job.line ⟨r, rowPs col.length y⟩ g')[x]? = some (g'.getD (col.length * y + x) .Blank) := by
    intro x hx
    simp only [Job.line, rowPs, List.getElem?_map, List.getElem?_range hx, Option.map_some]
  unfold Stuck
  simp only [not_forall, not_not]
  constructor
  · rintro ⟨xs, ⟨h1, h2⟩, h3⟩
    rw [hlen] at h1
    refine ⟨xs, ⟨h1, h3⟩, fun x s b hs hb => ?_⟩
    have hx := (List.getElem?_eq_some_iff.mp hs).1
    have hxs := List.getElem?_eq_getElem (show x < xs.length by omega)
    have hc := h2 x _ _ (hget x hx) hxs
    rw [hxs]
    rcases hcell x s hs with ⟨h4, _⟩ | ⟨c, h4, h5⟩
    · exact absurd hb (h4 b)
    · obtain rfl := (h4 b).1 hb
      rw [h5] at hc
      cases b with
      | true => rw [hc.1 rfl]
      | false => rw [hc.2 rfl]
  · rintro ⟨xs, ⟨h1, h3⟩, h2⟩
    refine ⟨xs, ⟨h1.trans hlen.symm, fun x q b hq hb => ?_⟩, h3⟩
    have hx : x < col.length := by
      have := (List.getElem?_eq_some_iff.mp hb).1
      omega
    rw [hget x hx] at hq
    obtain rfl := Option.some.inj hq
    rcases hcell x _ (List.getElem?_eq_getElem hx) with ⟨_, h5⟩ | ⟨c, h4, h5⟩
    · rw [h5]
      exact ⟨fun h => (by cases h), fun h => (by cases h)⟩
    · have := h2 x _ c (List.getElem?_eq_getElem hx) ((h4 c).2 rfl)
      rw [hb] at this
      obtain rfl := Option.some.inj this
      rw [h5]
      cases b <;> exact ⟨by simp, by simp⟩

theorem crash_iff {col row : List (List Nat)} (hs : Spec.Sized col row) (hz : ∃ r ∈ col ++ row, ¬ Framed r) {b : Bool}
    (h : Crash (allJobs col row) (blank col row) b) : b = true ↔ Crashes col row := by
  have hap : ∀ (f : Nat → List Nat) (rules : List (List Nat)), (∀ x y, x < rules.length → y < rules.length → x ≠ y →
      ∀ r s, Apart ⟨r, f x⟩ ⟨s, f y⟩) → (jobs f rules 0).Pairwise fun j k => Apart k j :=
    fun f rules hh => jobs_pairwise (n := rules.length) (by omega) fun x y hx hy hne r s => hh y x hy hx hne.symm s r
  have hc := hap (colPs col.length row.length) col fun x y hx hy hne r s => Apart.columns hx hy hne r s
  have hr := hap (rowPs col.length) row fun x y hx hy hne r s => Apart.rows hne r s
  have exJob : ∀ (f : Nat → List Nat) (rules : List (List Nat)), (∃ r ∈ rules, ¬ Framed r) → ∃ j ∈ jobs f rules 0, ¬ Framed j.rule := by
    rintro f rules ⟨r, hr, hn⟩
    obtain ⟨x, hx⟩ := List.getElem?_of_mem hr
    exact ⟨⟨r, f x⟩, mem_jobs.2 ⟨x, hx, rfl⟩, hn⟩
  unfold allJobs at h
  by_cases hcz : ∃ r ∈ col, ¬ Framed r
  · rw [h.exact hc (exJob _ _ hcz)]
    have := jobs_split (f := colPs col.length row.length) (rules := col)
      (P := fun j => ¬ Framed j.rule ∧ (j.rule.head? = some 0 ∨ ¬ Stuck j (blank col row)))
      (Q := fun j => Framed j.rule ∧ ¬ Stuck j (blank col row))
    simp only [and_assoc] at this
    rw [this]
    simp only [column_stuck]
    unfold Crashes
    constructor
    · exact .inl
    · rintro (h | ⟨h, _⟩)
      · exact h
      · obtain ⟨r, hr, hn⟩ := hcz
        exact absurd (h r hr).1 hn
  · have hcf : ∀ r ∈ col, Framed r := fun r hr => by
      by_contra hn
      exact hcz ⟨r, hr, hn⟩
    have hrz : ∃ r ∈ row, ¬ Framed r := by
      obtain ⟨r, hr, hn⟩ := hz
      rcases List.mem_append.1 hr with h | h
      · exact absurd (hcf r h) hn
      · exact ⟨r, h, hn⟩
    have hjf : ∀ j ∈ jobs (colPs col.length row.length) col 0, Framed j.rule := by
      intro j hj
      obtain ⟨i, hi, _⟩ := mem_jobs.1 hj
      exact hcf _ (List.mem_of_getElem? hi)
    have hgood : ∀ j ∈ jobs (colPs col.length row.length) col 0, j.Good (col.length * row.length) :=
      fun j hj => ⟨allJobs_sized hs j (by simp [allJobs, hj]), hjf j hj⟩
    have noCol : ¬ ∃ (x : Nat) (r : List Nat), col[x]? = some r ∧ ¬ Framed r ∧ (r.head? = some 0 ∨ minLength r ≤ row.length) ∧
        ∀ (i : Nat) (s : List Nat), i < x → col[i]? = some s → Framed s ∧ minLength s ≤ row.length := by
      rintro ⟨x, r, hx, hn, _⟩
      exact hn (hcf r (List.mem_of_getElem? hx))
    rcases h.split hjf with ⟨h1, rfl⟩ | ⟨g', h1, h2⟩
    · obtain ⟨j, hj, hst⟩ := h1.apart_none hc
      obtain ⟨x, hx, hps⟩ := mem_jobs.1 hj
      obtain ⟨rule, ps⟩ := j
      dsimp only at hx hps
      subst hps
      refine ⟨fun h => (by cases h), ?_⟩
      rintro (h | ⟨h, _⟩)
      · exact absurd h noCol
      · exact absurd hst ((column_stuck rule).2 (h rule (List.mem_of_getElem? hx)).2)
    · have hfit : ∀ s ∈ col, Framed s ∧ minLength s ≤ row.length := by
        intro s hs'
        refine ⟨hcf s hs', ?_⟩
        obtain ⟨x, hx⟩ := List.getElem?_of_mem hs'
        have ha : (jobs (colPs col.length row.length) col 0).Pairwise fun j k => Apart k j ∧ Apart j k :=
          jobs_pairwise (n := col.length) (by omega) fun x y hx hy hne r s =>
            ⟨Apart.columns hy hx hne.symm _ _, Apart.columns hx hy hne _ _⟩
        exact (column_stuck s).1 (Run.apart_line hgood ha (by simp [blank]) h1 ⟨s, _⟩ (mem_jobs.2 ⟨x, hx, rfl⟩)).1
      rw [← List.append_nil (jobs (rowPs col.length) row 0)] at h2
      rw [h2.exact hr (exJob _ _ hrz)]
      have := jobs_split (f := rowPs col.length) (rules := row)
        (P := fun j => ¬ Framed j.rule ∧ (j.rule.head? = some 0 ∨ ¬ Stuck j g'))
        (Q := fun j => Framed j.rule ∧ ¬ Stuck j g')
      simp only [and_assoc] at this
      rw [this]
      have open' : ∀ (y : Nat) (r : List Nat), row[y]? = some r → (¬ Stuck ⟨r, rowPs col.length y⟩ g' ↔ Open col row.length y r) :=
        fun y r hy => row_open hgood h1 (List.getElem?_eq_some_iff.mp hy).1 r
      constructor
      · rintro ⟨y, r, h3, h4, h5, h6⟩
        refine .inr ⟨hfit, y, r, h3, h4, by rwa [open' y r h3] at h5, fun i s hi hs => ?_⟩
        rw [← open' i s hs]
        exact h6 i s hi hs
      · rintro (h | ⟨_, y, r, h3, h4, h5, h6⟩)
        · exact absurd h noCol
        · refine ⟨y, r, h3, h4, by rwa [open' y r h3], fun i s hi hs => ?_⟩
          have := h6 i s hi hs
          rwa [← open' i s hs] at this

end Nonogram
