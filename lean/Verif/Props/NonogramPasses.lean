import Verif.Proofs.Nonogram.Chain
import Verif.Props.Steps

/-! Property theorems about the number of passes that the propagation really needs (C127). -/

namespace Nonogram.Props
open Nonogram Nonogram.Spec

/-- C127. For every `k` the puzzle `chain k` (two rows, `4k + 2` columns) is solved, and the propagation, started on
its `8k + 4` unknown squares, goes through at least `2k - 1` passes that change the grid before the pass that changes
nothing. -/
theorem C127_needed (oc : Bool) (k : Nat) (hk : 4 * k + 2 < 2 ^ 31) :
    ∃ cs rs n t, mapP RuleMachine.new (chainCols k) = .ok cs ∧ mapP RuleMachine.new (chainRows k) = .ok rs ∧
      rightLeft oc (List.replicate (8 * k + 4) .Blank) (chainCols k) (chainRows k) =
        loop (passBody oc (chainCols k).length cs rs) (List.replicate (8 * k + 4) .Blank) ∧
      Runs (passBody oc (chainCols k).length cs rs) n (List.replicate (8 * k + 4) .Blank) t ∧
      passBody oc (chainCols k).length cs rs t = .ok (.inr (.ok t)) ∧ Square.Blank ∉ t ∧
      solveNonogram oc (chainCols k) (chainRows k) = .ok (.ok (chain k)) ∧
      2 * k ≤ n + 1 ∧ n ≤ 8 * k + 4 := by
  have hf := Chain.fits hk
  have hwh : (chainCols k).length * (chainRows k).length = 8 * k + 4 := by
    rw [Chain.cols_length, Chain.rows_length]; omega
  obtain ⟨cs, hc, hcm⟩ := machines (fun r hr => hf.small r (List.mem_append_left _ hr))
  obtain ⟨rs, hr, hrm⟩ := machines (fun r hr => hf.small r (List.mem_append_right _ hr))
  have e : rightLeft oc (List.replicate (8 * k + 4) .Blank) (chainCols k) (chainRows k) =
      loop (passBody oc (chainCols k).length cs rs) (List.replicate (8 * k + 4) .Blank) := by
    unfold rightLeft
    simp only
    rw [hc, Prog.ok_bind, hr, Prog.ok_bind]
  obtain ⟨n, t, a, r, ht, hn⟩ := pass_runs oc hf hcm hrm _ (List.replicate (8 * k + 4) .Blank) rfl (by simp [hwh])
  have ha : Agrees t (chain k) := Chain.runs_agrees oc hk hcm hrm r (Chain.front_blank k).right
  have htl : t.length = (chainCols k).length * (chainRows k).length := by rw [← ha.1, Chain.chain_length, hwh]; omega
  have hres : rightLeft oc (List.replicate (8 * k + 4) .Blank) (chainCols k) (chainRows k) = .ok a := by
    rw [e, r.loop, loop_inr ht]
  have hbl : blank (chainCols k) (chainRows k) = List.replicate (8 * k + 4) .Blank := by rw [blank, hwh]
  rcases propagate_least oc hf with ⟨hno, _⟩ | ⟨g, hs, _, h1, h2⟩
  · exact absurd (stable_of_solves (Chain.solves k)) (hno _)
  · rw [hbl, hres] at h1
    obtain rfl := Prog.ok.inj h1
    have hgt : t = g := by
      rcases passBody_spec oc hf hcm hrm htl with ⟨_, e'⟩ | ⟨g1, _, e'⟩
      · rw [e'] at ht; cases Prog.ok.inj ht
      · rw [e'] at ht
        split at ht
        · exact Except.ok.inj (Sum.inr.inj (Prog.ok.inj ht))
        · cases Prog.ok.inj ht
    subst hgt
    have hfull := Chain.full hs ha
    have hnb : Square.Blank ∉ t := by
      intro hm
      obtain ⟨p, hp⟩ := List.getElem?_of_mem hm
      have hpl : p < 8 * k + 4 := by rw [← hwh, ← htl]; exact (List.getElem?_eq_some_iff.mp hp).1
      by_cases h : p < 4 * k + 2
      · exact hfull p h 0 (by decide) (by rw [Nat.mul_zero, Nat.zero_add]; exact hp)
      · refine hfull (p - (4 * k + 2)) (by omega) 1 (by decide) ?_
        rw [Nat.mul_one, show 4 * k + 2 + (p - (4 * k + 2)) = p by omega]; exact hp
    refine ⟨cs, rs, n, t, hc, hr, e, r, ht, hnb, by rw [h2, agrees_full ha hnb], ?_, ?_⟩
    · by_contra hlt
      have hfr := Chain.Front.runs oc hk hcm hrm r 0 rfl (Chain.front_blank k) (by omega)
      exact hnb (List.mem_of_getElem? (hfr.top (4 * k + 1) (by omega) (by omega)))
    · have : blanks (List.replicate (8 * k + 4) Square.Blank) = 8 * k + 4 := by simp [blanks]
      omega

/-- Two rows of 1002 squares that take at least 499 passes. -/
example : ∃ cs rs n t, Runs (passBody true (chainCols 250).length cs rs) n (List.replicate 2004 .Blank) t ∧ 499 ≤ n ∧
    solveNonogram true (chainCols 250) (chainRows 250) = .ok (.ok (chain 250)) := by
  obtain ⟨cs, rs, n, t, _, _, _, h2, _, _, h5, h6, _⟩ := C127_needed true 250 (by decide)
  exact ⟨cs, rs, n, t, h2, by omega, h5⟩

/-- C127. The bound of C77 (one pass for every unknown square) cannot be improved by more than the factor 4: no bound
`f` on the number of changing passes with `4 * f m + 8 < m` for some number `m = 8k + 4` of unknown squares holds for all
puzzles with `m` unknown squares. -/
theorem C127_tight (oc : Bool) (f : Nat → Nat)
    (hf : ∀ (col row : List (List Nat)) cs rs n t, Fits col row → (∃ b, Solves col row b) →
      mapP RuleMachine.new col = .ok cs → mapP RuleMachine.new row = .ok rs →
      Runs (passBody oc col.length cs rs) n (List.replicate (col.length * row.length) .Blank) t →
      n ≤ f (col.length * row.length)) (k : Nat) (hk : 4 * k + 2 < 2 ^ 31) : 8 * k + 4 ≤ 4 * f (8 * k + 4) + 8 := by
  have hfit := Chain.fits hk
  have hwh : (chainCols k).length * (chainRows k).length = 8 * k + 4 := by
    rw [Chain.cols_length, Chain.rows_length]; omega
  obtain ⟨cs, rs, n, t, h1, h2, _, r, _, _, _, h3, _⟩ := C127_needed oc k hk
  have := hf _ _ cs rs n t hfit ⟨_, Chain.solves k⟩ h1 h2 (by rw [hwh]; exact r)
  rw [hwh] at this
  omega

/-- The number of unknown squares is such a bound (C77), so the hypothesis of `C127_tight` can be met. -/
example (oc : Bool) (col row : List (List Nat)) (cs rs : List RuleMachine) (n : Nat) (t : List Square) (hf : Fits col row)
    (hc : mapP RuleMachine.new col = .ok cs) (hr : mapP RuleMachine.new row = .ok rs)
    (h : Runs (passBody oc col.length cs rs) n (List.replicate (col.length * row.length) .Blank) t) :
    n ≤ col.length * row.length := by
  have key : ∀ {n : Nat} {g t : List Square}, Runs (passBody oc col.length cs rs) n g t → ∀ {m u a},
      Runs (passBody oc col.length cs rs) m g u → passBody oc col.length cs rs u = .ok (.inr a) → n ≤ m := by
    intro n g t h
    induction h with
    | refl => intros; omega
    | step hb _ ih =>
      intro m u a h' hu
      cases h' with
      | refl => rw [hb] at hu; cases Prog.ok.inj hu
      | step hb' h' =>
        rw [hb] at hb'
        obtain rfl := Sum.inl.inj (Prog.ok.inj hb')
        have := ih h' hu
        omega
  obtain ⟨cs', hc', hcm⟩ := machines (fun r hr => hf.small r (List.mem_append_left _ hr))
  obtain ⟨rs', hr', hrm⟩ := machines (fun r hr => hf.small r (List.mem_append_right _ hr))
  obtain rfl := Prog.ok.inj (hc.symm.trans hc')
  obtain rfl := Prog.ok.inj (hr.symm.trans hr')
  obtain ⟨m, u, a, h1, h2, h3⟩ := pass_runs oc hf hcm hrm _ (List.replicate (col.length * row.length) .Blank) rfl (by simp)
  have := key h h1 h2
  have hb : blanks (List.replicate (col.length * row.length) Square.Blank) = col.length * row.length := by simp [blanks]
  omega

end Nonogram.Props
