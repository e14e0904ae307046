import Verif.Proofs.Nonogram.Solve

/-! Stable grids are the fixpoints of the line steps. -/
namespace Nonogram
open Spec

theorem settled_iff {line : List Square} {rule : List Nat} {i : Nat} (hi : i < line.length) :
    Settled line rule i ↔ ∀ xs ys, Completes line rule xs → Completes line rule ys → blk xs i = blk ys i := by
  unfold Settled blocksUpTo
  simp only [← List.countP_eq_length_filter]
  constructor
  · intro h xs ys hx hy
    exact (blk_eq_iff (by rw [hx.1.1]; exact hi) (by rw [hy.1.1]; exact hi)).mpr (h xs ys hx hy)
  · intro h xs ys hx hy
    exact (blk_eq_iff (by rw [hx.1.1]; exact hi) (by rw [hy.1.1]; exact hi)).mp (h xs ys hx hy)

theorem extremes_exist {rule : List Nat} (hr : Framed rule) (hs : Small rule) {line : List Square}
    (hb : CountsFit line.length rule) (h : ∃ xs, Completes line rule xs) : ∃ L R, Extremes line rule L R := by
  obtain ⟨m, _, hm⟩ := machine_new hs
  rcases rightLeft_line true hr hs hm hb with ⟨h1, _⟩ | ⟨L, R, he, _⟩
  · obtain ⟨xs, hx⟩ := h
    exact absurd hx (h1 xs)
  · exact ⟨L, R, he⟩

/-- The deduced line in terms of settled squares. -/
theorem deduceAt_settled {line : List Square} {rule : List Nat} {L R : List Bool} (he : Extremes line rule L R) {i : Nat}
    (hl : line[i]? = some .Blank) :
    (¬ Settled line rule i ∧ deduceAt L R line i = .Blank) ∨
    (Settled line rule i ∧ ∃ b, (∀ xs, Completes line rule xs → xs[i]? = some b) ∧
      deduceAt L R line i = if b = true then .Filled else .Blocked) := by
  have hi : i < line.length := (List.getElem?_eq_some_iff.mp hl).1
  rw [deduceAt_blank hl]
  by_cases h : blk L i = blk R i
  · right
    have hs := (settled_iff hi).mpr ((he.settled hi).mp h)
    refine ⟨hs, L.getD i false, ?_, by rw [if_pos h]⟩
    intro xs hx
    rw [(hs xs L hx he.left).1]
    have : i < L.length := by rw [he.left.1.1]; exact hi
    rw [List.getD_eq_getElem?_getD, List.getElem?_eq_getElem this]; rfl
  · left
    refine ⟨fun hs => h ((he.settled hi).mpr ((settled_iff hi).mp hs)), by rw [if_neg h]⟩

theorem deduce_stable {line : List Square} {rule : List Nat} {L R : List Bool} (he : Extremes line rule L R)
    (hn : ∀ (i : Nat), line[i]? = some .Blank → ¬ Settled line rule i) : deduce L R line = line := by
  apply List.ext_getElem?
  intro i
  by_cases hi : i < line.length
  · rw [deduce_get hi, List.getElem?_eq_getElem hi]
    congr 1
    have hl : line[i]? = some line[i] := List.getElem?_eq_getElem hi
    by_cases hk : line[i] = .Blank
    · rw [hk] at hl ⊢
      rcases deduceAt_settled he hl with ⟨_, h⟩ | ⟨h, _⟩
      · exact h
      · exact absurd h (hn i hl)
    · exact deduceAt_known hl hk
  · rw [List.getElem?_eq_none (by rw [deduce_length]; omega), List.getElem?_eq_none (by omega)]

theorem writeAt_line {j : Job} {g : List Square} (hj : j.Good g.length) : writeAt g j.ps (j.line g) = g := by
  apply List.ext_getElem?
  intro p
  by_cases hp : p ∈ j.ps
  · obtain ⟨i, hi⟩ := List.getElem?_of_mem hp
    have hpn := hj.bound p hp
    rw [writeAt_get hj.nodup hi (Job.line_get hi) hpn, List.getD_eq_getElem?_getD, List.getElem?_eq_getElem hpn]
    rfl
  · rw [writeAt_notMem hp]

theorem ded_iff_stable {j : Job} {g : List Square} (hj : j.Good g.length) :
    Ded j g g ↔ StableLine (j.line g) j.rule := by
  constructor
  · rintro ⟨L, R, he, hg⟩
    refine ⟨⟨L, he.left⟩, fun i hi hs => ?_⟩
    have hline := Ded.line hj rfl hg
    have h1 : (deduce L R (j.line g))[i]? = some .Blank := by rw [← hline]; exact hi
    rw [deduce_get (List.getElem?_eq_some_iff.mp hi).1] at h1
    rcases deduceAt_settled he hi with ⟨h, _⟩ | ⟨_, b, _, hb⟩
    · exact h hs
    · rw [hb] at h1
      cases b <;> simp at h1
  · rintro ⟨hx, hn⟩
    obtain ⟨L, R, he⟩ := extremes_exist hj.framed hj.small (by rw [Job.line_length]; exact hj.len) hx
    refine ⟨L, R, he, ?_⟩
    rw [deduce_stable he hn, writeAt_line hj]

theorem line_col {col row : List (List Nat)} {g : List Square} {x : Nat} {rule : List Nat} :
    Job.line ⟨rule, colPs col.length row.length x⟩ g = columnSq col.length row.length g x := by
  simp [Job.line, colPs, columnSq]
theorem line_row {col : List (List Nat)} {g : List Square} {y : Nat} {rule : List Nat} :
    Job.line ⟨rule, rowPs col.length y⟩ g = rowSq col.length g y := by
  simp [Job.line, rowPs, rowSq]

theorem forall_jobs {col row : List (List Nat)} {P : Job → Prop} :
    (∀ j ∈ allJobs col row, P j) ↔
      (∀ (x : Nat) rule, col[x]? = some rule → P ⟨rule, colPs col.length row.length x⟩) ∧
      (∀ (y : Nat) rule, row[y]? = some rule → P ⟨rule, rowPs col.length y⟩) := by
  constructor
  · intro h
    constructor
    · intro x rule hr
      exact h _ (by simp only [allJobs, List.mem_append, mem_jobs]; exact .inl ⟨x, hr, rfl⟩)
    · intro y rule hr
      exact h _ (by simp only [allJobs, List.mem_append, mem_jobs]; exact .inr ⟨y, hr, rfl⟩)
  · rintro ⟨h1, h2⟩ ⟨rule, ps⟩ hj
    simp only [allJobs, List.mem_append, mem_jobs] at hj
    rcases hj with ⟨x, hr, rfl⟩ | ⟨y, hr, rfl⟩
    · exact h1 x rule hr
    · exact h2 y rule hr

theorem stable_iff {col row : List (List Nat)} (hf : Fits col row) {g : List Square}
    (hg : g.length = col.length * row.length) : Stable col row g ↔ ∀ j ∈ allJobs col row, Ded j g g := by
  have hgood := allJobs_good hf
  unfold Stable
  have h1 : (∀ j ∈ allJobs col row, Ded j g g) ↔ ∀ j ∈ allJobs col row, StableLine (j.line g) j.rule :=
    forall₂_congr fun j hj => ded_iff_stable (by rw [hg]; exact hgood j hj)
  rw [h1, forall_jobs]
  simp only [line_col, line_row, hg, true_and]

/-- Outcome of the propagation from the blank grid: the least stable grid, or no stable grid at all. -/
theorem propagate_least (oc : Bool) {col row : List (List Nat)} (hf : Fits col row) :
    ((∀ F, ¬ Stable col row F) ∧ rightLeft oc (blank col row) col row = .ok (.error .NoSolution) ∧
      solveNonogram oc col row = .ok (.error .NoSolution)) ∨
    ∃ g, Stable col row g ∧ (∀ F, Stable col row F → Extends g F) ∧
      rightLeft oc (blank col row) col row = .ok (.ok g) ∧ solveNonogram oc col row = .ok (.ok (filled g)) := by
  have hgood := allJobs_good hf
  have hlen : (blank col row).length = col.length * row.length := by simp [blank]
  have hbl : ∀ F, F.length = col.length * row.length → Le (blank col row) F := fun F hF => blank_le hF
  have hs := hf.size
  have hsolve : ∀ r, rightLeft oc (blank col row) col row = .ok r →
      solveNonogram oc col row = .ok (match r with | .ok g => .ok (filled g) | .error e => .error e) := by
    intro r hr
    unfold solveNonogram
    simp only
    rw [mulW_ok (by omega), Prog.ok_bind, vecRepeat, if_pos (by omega), Prog.ok_bind]
    unfold blank at hr
    rw [hr, Prog.ok_bind]
    cases r <;> rfl
  rcases rightLeft_spec oc hf hlen with ⟨g, h1, h2, h3⟩ | ⟨g, h1, h2, h3⟩
  · refine .inl ⟨fun F hF => ?_, h3, hsolve _ h3⟩
    have hFix := (stable_iff hf hF.1).mp hF
    have hle := Passes.bounded hgood hlen (hbl F hF.1) hFix h1
    have hgl := (Passes.le hgood hlen h1).1.trans hlen
    obtain ⟨g', he, _⟩ := Run.bounded hgood hgl hle hFix h2
    cases he
  · have hgl := (Passes.le hgood hlen h1).1.trans hlen
    refine .inr ⟨g, (stable_iff hf hgl).mpr (Run.fix hgood hgl h2), fun F hF => ?_, h3, hsolve _ h3⟩
    exact Passes.bounded hgood hlen (hbl F hF.1) ((stable_iff hf hF.1).mp hF) h1

/-- A solution is a stable grid. -/
theorem stable_of_solves {col row : List (List Nat)} {b : List Bool} (h : Solves col row b) :
    Stable col row (b.map fun c => if c = true then .Filled else .Blocked) := by
  obtain ⟨hl, hc, hr⟩ := h
  have key : ∀ (ps : List Nat) (rule : List Nat), Follows rule (ps.map (b.getD · false)) → (∀ p ∈ ps, p < b.length) →
      StableLine (ps.map ((b.map fun c => if c = true then Square.Filled else .Blocked).getD · .Blank)) rule := by
    intro ps rule hrule hps
    have hget : ∀ p < b.length, (b.map fun c => if c = true then Square.Filled else .Blocked).getD p .Blank =
        if b.getD p false = true then .Filled else .Blocked := by
      intro p hp
      simp [List.getD_eq_getElem?_getD, hp]
    refine ⟨⟨ps.map (b.getD · false), ⟨by simp, ?_⟩, hrule⟩, ?_⟩
    · intro i q c hq hc
      simp only [List.getElem?_map, Option.map_eq_some_iff] at hq hc
      obtain ⟨p, hp, rfl⟩ := hq
      obtain ⟨p', hp', rfl⟩ := hc
      rw [hp] at hp'
      obtain rfl := Option.some.inj hp'
      rw [hget p (hps p (List.mem_of_getElem? hp))]
      cases b.getD p false <;> simp [Compat]
    · intro i hi
      simp only [List.getElem?_map, Option.map_eq_some_iff] at hi
      obtain ⟨p, hp, hq⟩ := hi
      rw [hget p (hps p (List.mem_of_getElem? hp))] at hq
      split at hq <;> cases hq
  refine ⟨by simpa using hl, ?_, ?_⟩
  · intro x rule hx
    have hxl := (List.getElem?_eq_some_iff.mp hx).1
    have := key (colPs col.length row.length x) rule (by
      have := hc x rule hx; simpa [colPs, column, cell, Function.comp_def] using this) (by
      intro p hp
      simp only [colPs, List.mem_map, List.mem_range] at hp
      obtain ⟨y, hy, rfl⟩ := hp
      rw [hl]; exact cell_lt hxl hy)
    simpa [columnSq, colPs, Function.comp_def] using this
  · intro y rule hy
    have hyl := (List.getElem?_eq_some_iff.mp hy).1
    have := key (rowPs col.length y) rule (by
      have := hr y rule hy; simpa [rowPs, rowOf, cell, Function.comp_def] using this) (by
      intro p hp
      simp only [rowPs, List.mem_map, List.mem_range] at hp
      obtain ⟨x, hx, rfl⟩ := hp
      rw [hl]; exact cell_lt hx hyl)
    simpa [rowSq, rowPs, Function.comp_def] using this

/-- Propagation from a stable grid changes nothing. -/
theorem rightLeft_idem (oc : Bool) {col row : List (List Nat)} (hf : Fits col row) {g : List Square}
    (h : Stable col row g) : rightLeft oc g col row = .ok (.ok g) := by
  have hgood := allJobs_good hf
  have hfix := (stable_iff hf h.1).mp h
  rcases rightLeft_spec oc hf h.1 with ⟨g', h1, h2, _⟩ | ⟨g', h1, h2, h3⟩
  · have hle := Passes.bounded hgood h.1 (Le.refl g) hfix h1
    have hgl := (Passes.le hgood h.1 h1).1.trans h.1
    obtain ⟨g', he, _⟩ := Run.bounded hgood hgl hle hfix h2
    cases he
  · have hle := Passes.bounded hgood h.1 (Le.refl g) hfix h1
    have hle' := Passes.le hgood h.1 h1
    obtain rfl := hle'.antisymm hle
    exact h3

end Nonogram
