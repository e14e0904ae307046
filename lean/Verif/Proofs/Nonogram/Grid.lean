import Verif.Proofs.Nonogram.Line
import Mathlib.Data.List.Basic

/-! One line step seen from the whole grid. -/
namespace Nonogram
open Spec

/-! ### Reading and writing lines of the grid -/

theorem readAt_eq {g : List Square} {ps : List Nat} (h : ∀ p ∈ ps, p < g.length) :
    readAt g ps = ps.map (g.getD · .Blank) := by
  induction ps with
  | nil => rfl
  | cons p ps ih =>
    have hp := h p (by simp)
    have := ih (fun q hq => h q (by simp [hq]))
    unfold readAt at this ⊢
    rw [List.filterMap_cons, List.getElem?_eq_getElem hp]
    simp only [List.map_cons, this, List.getD_eq_getElem?_getD, List.getElem?_eq_getElem hp, Option.getD_some]

@[simp] theorem writeAt_length (g : List Square) (ps : List Nat) (qs : List Square) :
    (writeAt g ps qs).length = g.length := by
  induction ps generalizing g qs with
  | nil => simp [writeAt]
  | cons p ps ih =>
    cases qs with
    | nil => rfl
    | cons q qs => rw [writeAt, ih, List.length_set]

theorem writeAt_notMem {g : List Square} {ps : List Nat} {qs : List Square} {p : Nat} (h : p ∉ ps) :
    (writeAt g ps qs)[p]? = g[p]? := by
  induction ps generalizing g qs with
  | nil => simp [writeAt]
  | cons a ps ih =>
    cases qs with
    | nil => rfl
    | cons q qs =>
      rw [List.mem_cons, not_or] at h
      rw [writeAt, ih h.2, List.getElem?_set_ne (fun e => h.1 e.symm)]

theorem writeAt_get {g : List Square} {ps : List Nat} {qs : List Square} {j p : Nat} {q : Square} (hn : ps.Nodup)
    (hp : ps[j]? = some p) (hq : qs[j]? = some q) (hl : p < g.length) : (writeAt g ps qs)[p]? = some q := by
  induction ps generalizing g qs j with
  | nil => simp at hp
  | cons a ps ih =>
    cases qs with
    | nil => simp at hq
    | cons b qs =>
      rw [List.nodup_cons] at hn
      rw [writeAt]
      cases j with
      | zero =>
        simp only [List.getElem?_cons_zero, Option.some.injEq] at hp hq
        subst hp hq
        rw [writeAt_notMem hn.1, List.getElem?_set_self hl]
      | succ j =>
        rw [List.getElem?_cons_succ] at hp hq
        exact ih hn.2 hp hq (by simpa using hl)

/-! ### Jobs -/

/-- A line of the grid with its rule: the positions of its squares. -/
structure Job where
  rule : List Nat
  ps : List Nat

/-- The squares of the line. -/
def Job.line (j : Job) (g : List Square) : List Square := j.ps.map (g.getD · .Blank)
/-- The values of the line. -/
def Job.vals (j : Job) (b : List Bool) : List Bool := j.ps.map (b.getD · false)

/-- The assumptions on the sizes of a line of a grid of `n` squares. -/
structure Job.Sized (n : Nat) (j : Job) : Prop where
  small : Small j.rule
  nodup : j.ps.Nodup
  bound : ∀ p ∈ j.ps, p < n
  len : CountsFit j.ps.length j.rule

/-- The assumptions on a line of a grid of `n` squares. -/
structure Job.Good (n : Nat) (j : Job) : Prop extends Job.Sized n j where
  framed : Framed j.rule

/-- The line step on the grid. -/
def Ded (j : Job) (g g' : List Square) : Prop :=
  ∃ L R, Extremes (j.line g) j.rule L R ∧ g' = writeAt g j.ps (deduce L R (j.line g))

/-- No completion. -/
def Stuck (j : Job) (g : List Square) : Prop := ∀ xs, ¬ Completes (j.line g) j.rule xs

/-- `g'` knows at least what `g` knows. -/
def Le (g g' : List Square) : Prop :=
  g'.length = g.length ∧ ∀ (p : Nat) q, g[p]? = some q → q ≠ .Blank → g'[p]? = some q

theorem Le.refl (g : List Square) : Le g g := ⟨rfl, fun _ _ h _ => h⟩
theorem Le.trans {a b c : List Square} (h : Le a b) (h' : Le b c) : Le a c :=
  ⟨h'.1.trans h.1, fun p q e hq => h'.2 p q (h.2 p q e hq) hq⟩
theorem Le.antisymm {a b : List Square} (h : Le a b) (h' : Le b a) : a = b := by
  apply List.ext_getElem?
  intro p
  cases ha : a[p]? with
  | none =>
    rw [List.getElem?_eq_none_iff] at ha
    rw [List.getElem?_eq_none (by have := h.1; omega)]
  | some q =>
    by_cases hq : q = .Blank
    · have hp : p < b.length := by have := (List.getElem?_eq_some_iff.mp ha).1; have := h.1; omega
      rw [List.getElem?_eq_getElem hp]
      by_cases hb : b[p] = .Blank
      · rw [hb, hq]
      · rw [h'.2 p _ (List.getElem?_eq_getElem hp) hb] at ha
        rw [← ha]
    · rw [h.2 p q ha hq]

/-- The number of unknown squares. -/
def blanks (g : List Square) : Nat := g.count .Blank

theorem blanks_le {g g' : List Square} (h : Le g g') : blanks g' ≤ blanks g ∧ (g ≠ g' → blanks g' < blanks g) := by
  induction g generalizing g' with
  | nil =>
    have : g' = [] := List.length_eq_zero_iff.mp h.1
    subst this
    exact ⟨le_refl _, fun h => absurd rfl h⟩
  | cons q g ih =>
    cases g' with
    | nil => simpa using h.1
    | cons q' g' =>
      have ht : Le g g' := ⟨by simpa using h.1, fun p a e ha => by
        have := h.2 (p + 1) a (by simpa using e) ha
        simpa using this⟩
      have hh : q ≠ .Blank → q' = q := fun hq => by
        have := h.2 0 q rfl hq
        simpa using this
      obtain ⟨h1, h2⟩ := ih ht
      unfold blanks at h1 h2 ⊢
      rw [List.count_cons, List.count_cons]
      by_cases hq : q = .Blank
      · subst hq
        simp only [beq_self_eq_true, if_true]
        by_cases hq' : q' = .Blank
        · subst hq'
          simp only [beq_self_eq_true, if_true]
          refine ⟨by omega, fun hne => ?_⟩
          have := h2 (by rintro rfl; exact hne rfl)
          omega
        · rw [if_neg (by simpa using hq')]
          omega
      · obtain rfl := hh hq
        rw [if_neg (by simpa using hq)]
        refine ⟨by omega, fun hne => ?_⟩
        have := h2 (by rintro rfl; exact hne rfl)
        omega

/-! ### Properties of one step -/

theorem deduce_length (L R : List Bool) (line : List Square) : (deduce L R line).length = line.length := by
  simp [deduce]

theorem deduce_get {L R : List Bool} {line : List Square} {i : Nat} (hi : i < line.length) :
    (deduce L R line)[i]? = some (deduceAt L R line i) := by
  simp [deduce, hi]

theorem deduceAt_known {L R : List Bool} {line : List Square} {i : Nat} {q : Square} (h : line[i]? = some q)
    (hq : q ≠ .Blank) : deduceAt L R line i = q := by
  have : line.getD i .Blank = q := by rw [List.getD_eq_getElem?_getD, h]; rfl
  unfold deduceAt
  split
  · rename_i hb; rw [this] at hb; exact absurd hb hq
  · exact this

theorem deduceAt_blank {L R : List Bool} {line : List Square} {i : Nat} (h : line[i]? = some .Blank) :
    deduceAt L R line i = if blk L i = blk R i then (if L.getD i false = true then .Filled else .Blocked) else .Blank := by
  have : line.getD i .Blank = .Blank := by rw [List.getD_eq_getElem?_getD, h]; rfl
  simp only [deduceAt, this]

theorem deduce_le (L R : List Bool) (line : List Square) : Le line (deduce L R line) := by
  refine ⟨deduce_length _ _ _, fun p q h hq => ?_⟩
  rw [deduce_get (List.getElem?_eq_some_iff.mp h).1, deduceAt_known h hq]

/-- A completion of the line also completes the deduced line. -/
theorem deduce_agrees {line : List Square} {rule : List Nat} {L R xs : List Bool} (he : Extremes line rule L R)
    (hx : Completes line rule xs) : Completes (deduce L R line) rule xs := by
  refine ⟨⟨by rw [deduce_length]; exact hx.1.1, ?_⟩, hx.2⟩
  intro i q b hq hb
  have hi : i < line.length := by have := (List.getElem?_eq_some_iff.mp hq).1; rwa [deduce_length] at this
  rw [deduce_get hi] at hq
  obtain rfl := Option.some.inj hq
  have hl : line[i]? = some line[i] := List.getElem?_eq_getElem hi
  by_cases hk : line[i] = .Blank
  · rw [hk] at hl
    rw [deduceAt_blank hl]
    by_cases hc : blk L i = blk R i
    · have h1 := he.lo xs hx i hi
      have h2 := he.hi xs hx i hi
      have hL : i < L.length := by rw [he.left.1.1]; exact hi
      have hb' := blk_determines hb (List.getElem?_eq_getElem hL) (by omega)
      rw [if_pos hc, List.getD_eq_getElem?_getD, List.getElem?_eq_getElem hL, Option.getD_some, ← hb']
      cases b <;> simp [Compat]
    · rw [if_neg hc]; simp [Compat]
  · rw [deduceAt_known hl hk]
    exact hx.1.2 i _ _ hl hb

theorem Job.line_length (j : Job) (g : List Square) : (j.line g).length = j.ps.length := by simp [Job.line]

theorem Job.line_get {j : Job} {g : List Square} {i p : Nat} (h : j.ps[i]? = some p) :
    (j.line g)[i]? = some (g.getD p .Blank) := by simp [Job.line, h]

theorem Job.line_write {j : Job} {g : List Square} {n : Nat} (hj : j.Good n) (hg : g.length = n) {qs : List Square}
    (hq : qs.length = j.ps.length) : j.line (writeAt g j.ps qs) = qs := by
  apply List.ext_getElem?
  intro i
  by_cases hi : i < j.ps.length
  · have hp : j.ps[i]? = some j.ps[i] := List.getElem?_eq_getElem hi
    rw [Job.line_get hp, List.getD_eq_getElem?_getD,
      writeAt_get hj.nodup hp (List.getElem?_eq_getElem (by omega : i < qs.length))
        (by rw [hg]; exact hj.bound _ (List.getElem_mem hi)), List.getElem?_eq_getElem (by omega : i < qs.length)]
    rfl
  · rw [List.getElem?_eq_none (by rw [Job.line_length]; omega), List.getElem?_eq_none (by omega)]

theorem Ded.line {j : Job} {g g' : List Square} {n : Nat} (hj : j.Good n) (hg : g.length = n) {L R : List Bool}
    (h : g' = writeAt g j.ps (deduce L R (j.line g))) : j.line g' = deduce L R (j.line g) := by
  rw [h]
  exact Job.line_write hj hg (by rw [deduce_length, Job.line_length])

theorem Ded.le {j : Job} {g g' : List Square} {n : Nat} (hj : j.Good n) (hg : g.length = n) (h : Ded j g g') :
    Le g g' := by
  obtain ⟨L, R, he, rfl⟩ := h
  refine ⟨writeAt_length _ _ _, fun p q e hq => ?_⟩
  by_cases hp : p ∈ j.ps
  · obtain ⟨i, hi⟩ := List.getElem?_of_mem hp
    have hl : (j.line g)[i]? = some q := by
      rw [Job.line_get hi, List.getD_eq_getElem?_getD, e]; rfl
    exact writeAt_get hj.nodup hi ((deduce_le L R _).2 i q hl hq) (List.getElem?_eq_some_iff.mp e).1
  · rw [writeAt_notMem hp, e]

theorem job_agrees {j : Job} {g : List Square} {b : List Bool} {n : Nat} (hj : j.Sized n) (hg : g.length = n)
    (h : Agrees g b) : Agrees (j.line g) (j.vals b) := by
  refine ⟨by simp [Job.line, Job.vals], ?_⟩
  intro i q c hq hc
  simp only [Job.line, Job.vals, List.getElem?_map, Option.map_eq_some_iff] at hq hc
  obtain ⟨p, hp, rfl⟩ := hq
  obtain ⟨p', hp', rfl⟩ := hc
  rw [hp] at hp'
  obtain rfl := Option.some.inj hp'
  have hpn : p < g.length := by rw [hg]; exact hj.bound p (List.mem_of_getElem? hp)
  have hpb : p < b.length := by rw [h.1]; exact hpn
  apply h.2 p
  · rw [List.getD_eq_getElem?_getD, List.getElem?_eq_getElem hpn]; rfl
  · rw [List.getD_eq_getElem?_getD, List.getElem?_eq_getElem hpb]; rfl

theorem Ded.sound {j : Job} {g g' : List Square} {b : List Bool} {n : Nat} (hj : j.Good n) (hg : g.length = n)
    (h : Ded j g g') (ha : Agrees g b) (hr : Follows j.rule (j.vals b)) : Agrees g' b := by
  obtain ⟨L, R, he, hg'⟩ := h
  have hline := Ded.line hj hg hg'
  subst hg'
  refine ⟨by rw [writeAt_length]; exact ha.1, ?_⟩
  intro p q c hq hc
  by_cases hp : p ∈ j.ps
  · obtain ⟨i, hi⟩ := List.getElem?_of_mem hp
    have hd := deduce_agrees he ⟨job_agrees hj.toSized hg ha, hr⟩
    rw [← hline] at hd
    have h1 := Job.line_get (g := writeAt g j.ps (deduce L R (j.line g))) hi
    rw [List.getD_eq_getElem?_getD, hq] at h1
    refine hd.1.2 i q c h1 ?_
    simp [Job.vals, hi, hc]
  · rw [writeAt_notMem hp] at hq
    exact ha.2 p q c hq hc

theorem line_le {j : Job} {g g' : List Square} {n : Nat} (hj : j.Good n) (hg : g.length = n) (h : Le g g') :
    Le (j.line g) (j.line g') := by
  refine ⟨by simp [Job.line], fun i q e hq => ?_⟩
  simp only [Job.line, List.getElem?_map, Option.map_eq_some_iff] at e ⊢
  obtain ⟨p, hp, rfl⟩ := e
  have hpn : p < g.length := by rw [hg]; exact hj.bound p (List.mem_of_getElem? hp)
  refine ⟨p, hp, ?_⟩
  have hgp : g[p]? = some (g.getD p .Blank) := by
    rw [List.getD_eq_getElem?_getD, List.getElem?_eq_getElem hpn]; rfl
  have := h.2 p _ hgp hq
  rw [List.getD_eq_getElem?_getD, this]; rfl

theorem agrees_of_le {a b : List Square} {xs : List Bool} (h : Le a b) (hx : Agrees b xs) : Agrees a xs := by
  refine ⟨by rw [← h.1]; exact hx.1, fun i q c hq hc => ?_⟩
  by_cases hb : q = .Blank
  · subst hb; simp [Compat]
  · exact hx.2 i q c (h.2 i q hq hb) hc

/-- Extremal completions are unique up to block numbers. -/
theorem Extremes.settled {line : List Square} {rule : List Nat} {L R : List Bool} (he : Extremes line rule L R) {i : Nat}
    (hi : i < line.length) :
    blk L i = blk R i ↔ ∀ xs ys, Completes line rule xs → Completes line rule ys → blk xs i = blk ys i := by
  constructor
  · intro h xs ys hx hy
    have := he.lo xs hx i hi
    have := he.hi xs hx i hi
    have := he.lo ys hy i hi
    have := he.hi ys hy i hi
    omega
  · intro h; exact h _ _ he.left he.right

/-- The line step is monotone. -/
theorem deduce_mono {a b : List Square} {rule : List Nat} {L R L' R' : List Bool} (h : Le a b)
    (ha : Extremes a rule L R) (hb : Extremes b rule L' R') : Le (deduce L R a) (deduce L' R' b) := by
  refine ⟨by rw [deduce_length, deduce_length]; exact h.1, fun i q e hq => ?_⟩
  have hi : i < a.length := by have := (List.getElem?_eq_some_iff.mp e).1; rwa [deduce_length] at this
  have hib : i < b.length := by rw [h.1]; exact hi
  rw [deduce_get hi] at e
  obtain rfl := Option.some.inj e
  rw [deduce_get hib]
  congr 1
  have hla : a[i]? = some a[i] := List.getElem?_eq_getElem hi
  have hlb : b[i]? = some b[i] := List.getElem?_eq_getElem hib
  by_cases hk : a[i] = .Blank
  · rw [hk] at hla
    rw [deduceAt_blank hla] at hq ⊢
    by_cases hc : blk L i = blk R i
    · rw [if_pos hc]
      have hs := (ha.settled hi).mp hc
      have hwk : ∀ xs, Completes b rule xs → Completes a rule xs := fun xs hx => ⟨agrees_of_le h hx.1, hx.2⟩
      have hL' : L'[i]? = some (L'.getD i false) := by
        have : i < L'.length := by rw [hb.left.1.1]; exact hib
        rw [List.getD_eq_getElem?_getD, List.getElem?_eq_getElem this]; rfl
      have hL : L[i]? = some (L.getD i false) := by
        have : i < L.length := by rw [ha.left.1.1]; exact hi
        rw [List.getD_eq_getElem?_getD, List.getElem?_eq_getElem this]; rfl
      have hv : L'.getD i false = L.getD i false :=
        blk_determines hL' hL (hs _ _ (hwk _ hb.left) ha.left)
      by_cases hkb : b[i] = .Blank
      · rw [hkb] at hlb
        rw [deduceAt_blank hlb, if_pos (hs _ _ (hwk _ hb.left) (hwk _ hb.right)), hv]
      · rw [deduceAt_known hlb hkb]
        have := hb.left.1.2 i _ _ hlb hL'
        rw [hv] at this
        unfold Compat at this
        cases hbi : b[i] with
        | Blank => exact absurd hbi hkb
        | Filled => rw [this.1 hbi]; rfl
        | Blocked => rw [this.2 hbi]; rfl
    · rw [if_neg hc] at hq; exact absurd rfl hq
  · rw [deduceAt_known hla hk, deduceAt_known (h.2 i _ hla hk) hk]

theorem Ded.mono {j : Job} {g g' F F' : List Square} {n : Nat} (hj : j.Good n) (hg : g.length = n)
    (hle : Le g F) (h : Ded j g g') (hF : Ded j F F') : Le g' F' := by
  have hgF : F.length = n := hle.1.trans hg
  obtain ⟨L', R', he', hF'⟩ := hF
  have hlF := Ded.line hj hgF hF'
  have hFF' : Le F F' := Ded.le hj hgF ⟨L', R', he', hF'⟩
  obtain ⟨L, R, he, hg'⟩ := h
  have hlg := Ded.line hj hg hg'
  have hlen : g'.length = n := by rw [hg', writeAt_length]; exact hg
  refine ⟨by rw [hFF'.1, hlen, hgF], fun p q e hq => ?_⟩
  by_cases hp : p ∈ j.ps
  · obtain ⟨i, hi⟩ := List.getElem?_of_mem hp
    have h1 : (j.line g')[i]? = some q := by rw [Job.line_get hi, List.getD_eq_getElem?_getD, e]; rfl
    rw [hlg] at h1
    have h2 := (deduce_mono (line_le hj hg hle) he he').2 i q h1 hq
    rw [← hlF, Job.line_get hi, List.getD_eq_getElem?_getD] at h2
    have hpF : p < F'.length := by rw [hFF'.1, hgF]; exact hj.bound p hp
    rw [List.getElem?_eq_getElem hpF] at h2 ⊢
    exact h2
  · rw [hg', writeAt_notMem hp] at e
    exact hFF'.2 p q (hle.2 p q e hq) hq

theorem Stuck.mono {j : Job} {g F : List Square} {n : Nat} (hj : j.Good n) (hg : g.length = n) (hle : Le g F)
    (h : Stuck j g) : Stuck j F := by
  intro xs hx
  exact h xs ⟨agrees_of_le (line_le hj hg hle) hx.1, hx.2⟩

/-- The call of `right_left` on a line of the grid. -/
theorem lineStep_spec (oc : Bool) {j : Job} {m : RuleMachine} {g : List Square} (hj : j.Good g.length)
    (hm : IsMachine j.rule m) (c : Bool) :
    (Stuck j g ∧ lineStep oc m j.ps (g, c) = .ok (.error .NoSolution)) ∨
    ∃ g', Ded j g g' ∧ lineStep oc m j.ps (g, c) = .ok (.ok (g', c || decide (g' ≠ g))) := by
  have hread : readAt g j.ps = j.line g := readAt_eq hj.bound
  unfold lineStep
  simp only
  rw [hread]
  rcases rightLeft_line oc hj.framed hj.small hm (line := j.line g) (by rw [Job.line_length]; exact hj.len) with
    ⟨h1, h2⟩ | ⟨L, R, he, h2⟩
  · left
    refine ⟨h1, ?_⟩
    rw [h2, Prog.ok_bind]; rfl
  · right
    refine ⟨_, ⟨L, R, he, rfl⟩, ?_⟩
    rw [h2, Prog.ok_bind]
    simp only
    rw [Prog.pure_eq]
    congr 4
    rw [decide_eq_decide, not_iff_not]
    have hline := Ded.line hj rfl (g' := writeAt g j.ps (deduce L R (j.line g))) rfl
    constructor
    · intro h
      apply List.ext_getElem?
      intro p
      by_cases hp : p ∈ j.ps
      · obtain ⟨i, hi⟩ := List.getElem?_of_mem hp
        have hpn := hj.bound p hp
        rw [h]
        apply writeAt_get hj.nodup hi _ hpn |>.trans
        · rw [List.getElem?_eq_getElem hpn]
        · rw [Job.line_get hi, List.getD_eq_getElem?_getD, List.getElem?_eq_getElem hpn]; rfl
      · rw [writeAt_notMem hp]
    · intro h
      rw [h] at hline
      exact hline.symm

end Nonogram
