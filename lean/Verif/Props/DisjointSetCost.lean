import Verif.Proofs.DisjointSetCost
import Verif.Props.DisjointSet

/-!
Property theorems about the total running time of a disjoint set (C91).
-/
namespace DisjointSet.Props
open DisjointSet DisjointSet.Spec

/-- C91. The calls of `find_helper` of a whole history number at most `K + 2` for each `find` and `K` for each element,
where `K` is any number with `log2 size < fast K 1`; the least such number is the inverse Ackermann function. The copy of
the code with a counter computes what the code computes. -/
theorem C91_amortised (n : Nat) (ops : List Op) (K : Nat) (hK : Nat.log2 (size n ops) < fast K 1) :
    ∃ s t, countedRun (List.replicate n Element.new) 0 ops = .ok (s, t) ∧
      run (List.replicate n Element.new) ops = .ok s ∧ t ≤ (K + 2) * finds ops + K * size n ops := by
  obtain ⟨rep, hE⟩ := Cost.init_exact n
  obtain ⟨s, t, h1, h2, h3⟩ := Cost.run_cost (K := K) ops _ 0 rep _ hE (by rw [List.length_replicate]; exact hK)
  rw [List.length_replicate, Cost.init_phi] at h3
  exact ⟨s, t, h1, h2, by omega⟩

/-- Five elements, four unions, a query: the depth is at most 2, so `K = 2` will do. -/
example : ∃ s t, countedRun (List.replicate 5 Element.new) 0 [.union 0 1, .union 2 1, .union 3 4, .union 4 2, .find 4] = .ok (s, t) ∧
    t ≤ (2 + 2) * 9 + 2 * 5 := by
  obtain ⟨s, t, h, _, b⟩ := C91_amortised 5 [.union 0 1, .union 2 1, .union 3 4, .union 4 2, .find 4] 2 (by decide)
  exact ⟨s, t, h, b⟩

/-- C91. For every structure that fits in memory, at most five calls of `find_helper` for each `find` and three for each
element. -/
theorem C91_machine (n : Nat) (ops : List Op) (hn : size n ops < 2 ^ 64) :
    ∃ s t, countedRun (List.replicate n Element.new) 0 ops = .ok (s, t) ∧
      run (List.replicate n Element.new) ops = .ok s ∧ t ≤ 5 * finds ops + 3 * size n ops := by
  refine C91_amortised n ops 3 ?_
  rw [Cost.fast_three_one]
  by_cases h0 : size n ops = 0
  · rw [h0]; decide
  · have := (Nat.log2_lt h0).mpr hn
    omega

theorem countedHelper_chain {s s' : DSU} {a k r x t t' : Nat} (hc : Chain s a k r)
    (hr : s[r]?.map Element.root = some true) (h : countedHelper s t a = .ok (x, s', t')) : t' = t + (k + 1) := by
  induction hc generalizing s' t t' x with
  | nil a =>
    rw [countedHelper] at h
    cases he : s[a]? with
    | none => simp [he] at hr
    | some e =>
      rw [he] at hr
      simp [getP_some he, by simpa using hr] at h
      omega
  | cons hab _ ih =>
    obtain ⟨e, he, hf, rfl⟩ := hab
    rw [countedHelper, getP_some he, Prog.ok_bind, hf] at h
    simp only [Bool.false_eq_true, if_false, Prog.ok_bind] at h
    obtain ⟨⟨y, s1, t1⟩, h1, h⟩ := Prog.bind_eq_ok.mp h
    have := ih hr h1
    obtain ⟨e2, _, h⟩ := Prog.bind_eq_ok.mp h
    obtain ⟨s2, _, h⟩ := Prog.bind_eq_ok.mp h
    have h := Prog.ok.inj h
    simp only [Prod.mk.injEq] at h
    omega

/-- C91. The counter counts what it should: a `find` in range adds one more than the number of parent links it follows. -/
theorem C91_counter (n : Nat) (ops : List Op) :
    ∃ s, run (List.replicate n Element.new) ops = .ok s ∧ ∀ a < size n ops, ∀ t,
      ∃ k r s', Chain s a k r ∧ s[r]?.map Element.root = some true ∧
        countedFind s t a = .ok (some r, s', t + (k + 1)) ∧ find s a = .ok (some r, s') := by
  obtain ⟨s, hs, hlen, rep, rank, hI, hout, hl⟩ := run_hist n ops
  refine ⟨s, hs, fun a ha t => ?_⟩
  have ha' : a < s.length := hlen ▸ ha
  obtain ⟨K, hK⟩ : ∃ K, ∀ j, j < s.length → rank j < fast K 1 := by
    have hfast : ∀ k, k < fast k 1 := by
      intro k
      induction k with
      | zero => decide
      | succ k ih =>
        have h1 : fast k 1 < fast k (fast k 1) := (Cost.fast_props k).2 (Cost.lt_fast k 1)
        have h2 : fast (k + 1) 1 = fast k (fast k 1) := rfl
        omega
    have hex : ∀ m, ∃ K, ∀ j, j < m → rank j < K := by
      intro m
      induction m with
      | zero => exact ⟨0, fun j hj => by omega⟩
      | succ m ih =>
        obtain ⟨K, hK⟩ := ih
        refine ⟨max K (rank m + 1), fun j hj => ?_⟩
        by_cases h : j = m
        · subst h; omega
        · have := hK j (by omega)
          omega
    obtain ⟨K, hK⟩ := hex s.length
    exact ⟨K, fun j hj => Nat.lt_trans (hK j hj) (hfast K)⟩
  obtain ⟨s', c, e1, e2, _⟩ := Cost.helper_cost _ s t a hI hK ha' (Nat.le_refl _)
  obtain ⟨k, r, hc, hr⟩ := chain_end hI _ a ha' (Nat.le_refl _)
  have hcount := countedHelper_chain hc hr e1
  have hrr : rep a = r := by
    obtain ⟨_, h2, _⟩ := chain_rank hI hc ha'
    cases he : s[r]? with
    | none => rw [he] at hr; simp at hr
    | some e =>
      rw [he] at hr
      rw [← h2]
      exact (hI.root r e he (by simpa using hr)).1
  have hn : ¬ s.length ≤ a := by omega
  refine ⟨k, r, s', hc, hr, ?_, ?_⟩
  · simp [countedFind, hn, e1, hrr]; omega
  · simp [find, hn, e2, hrr]

/-- A million elements, a thousand operations. -/
example (ops : List Op) (h : ops.length ≤ 1000) (ho : Op.add ∉ ops) :
    ∃ s t, countedRun (List.replicate 1000000 Element.new) 0 ops = .ok (s, t) ∧ t ≤ 5 * (2 * 1000) + 3 * 1000000 := by
  have hsz : ∀ n, size n ops = n := by
    clear h
    induction ops with
    | nil => intro n; rfl
    | cons op ops ih =>
      intro n
      cases op with
      | add => simp at ho
      | _ => exact ih (by simp at ho; exact ho) n
  have hf : finds ops ≤ 2 * ops.length := by
    clear h ho hsz
    induction ops with
    | nil => decide
    | cons op ops ih =>
      have : opFinds op ≤ 2 := by cases op <;> simp [opFinds]
      simp only [finds, List.map_cons, List.sum_cons, List.length_cons] at ih ⊢
      omega
  obtain ⟨s, t, h1, _, h2⟩ := C91_machine 1000000 ops (by rw [hsz]; decide)
  rw [hsz] at h2
  exact ⟨s, t, h1, by omega⟩

/-- The counter at work: finding the far end of a chain of two links costs three calls. -/
example : countedHelper [⟨true, 4⟩, ⟨false, 0⟩, ⟨false, 0⟩, ⟨false, 2⟩] 6 3 =
    .ok (0, [⟨true, 4⟩, ⟨false, 0⟩, ⟨false, 0⟩, ⟨false, 0⟩], 9) := by
  rw [countedHelper]; simp only [getP, List.getElem?_cons_succ, List.getElem?_cons_zero, Prog.ok_bind]
  rw [countedHelper]; simp only [getP, List.getElem?_cons_succ, List.getElem?_cons_zero, Prog.ok_bind]
  rw [countedHelper]; simp [getP, setP]

end DisjointSet.Props
