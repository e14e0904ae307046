import Verif.Proofs.DisjointSet
import Verif.Spec.DisjointSetCost
import Mathlib.Order.Iterate
import Mathlib.Data.Nat.Find
import Mathlib.Algebra.BigOperators.Group.Finset.Basic
import Mathlib.Algebra.Order.BigOperators.Group.Finset

/-! The amortised bound for `find_helper`: fast growing functions, the potential of an element, one find. -/
namespace DisjointSet.Cost
open DisjointSet DisjointSet.Spec

/-! ### Fast growing functions -/

theorem fast_props (k : Nat) : (∀ j, j < fast k j) ∧ StrictMono (fast k) := by
  induction k with
  | zero => exact ⟨fun j => Nat.lt_succ_self j, fun a b h => Nat.succ_lt_succ h⟩
  | succ k ih =>
    obtain ⟨h1, h2⟩ := ih
    have it : ∀ n j, j + n ≤ (fast k)^[n] j := by
      intro n
      induction n with
      | zero => intro j; exact Nat.le_refl _
      | succ n ihn =>
        intro j
        rw [Function.iterate_succ_apply']
        have := ihn j
        have := h1 ((fast k)^[n] j)
        omega
    refine ⟨fun j => ?_, strictMono_nat_of_lt_succ fun j => ?_⟩
    · have := it (j + 1) j
      change j < (fast k)^[j + 1] j
      omega
    · change (fast k)^[j + 1] j < (fast k)^[j + 1 + 1] (j + 1)
      calc (fast k)^[j + 1] j < (fast k)^[j + 1] (j + 1) := h2.iterate _ (Nat.lt_succ_self j)
        _ < fast k ((fast k)^[j + 1] (j + 1)) := h1 _
        _ = _ := (Function.iterate_succ_apply' _ _ _).symm

theorem lt_fast (k j : Nat) : j < fast k j := (fast_props k).1 j
theorem fast_mono (k : Nat) {a b : Nat} (h : a ≤ b) : fast k a ≤ fast k b := (fast_props k).2.monotone h

theorem fast_one (j : Nat) : fast 1 j = 2 * j + 1 := by
  have : ∀ n j, (fast 0)^[n] j = j + n := by
    intro n
    induction n with
    | zero => intro j; rfl
    | succ n ih => intro j; rw [Function.iterate_succ_apply', ih]; rfl
  change (fast 0)^[j + 1] j = _
  rw [this]; omega

theorem fast_two (j : Nat) : fast 2 j + 1 = 2 ^ (j + 1) * (j + 1) := by
  have : ∀ n j, (fast 1)^[n] j + 1 = 2 ^ n * (j + 1) := by
    intro n
    induction n with
    | zero => intro j; simp
    | succ n ih =>
      intro j
      rw [Function.iterate_succ_apply', fast_one, Nat.pow_succ]
      have := ih j
      generalize (fast 1)^[n] j = x at this
      rw [Nat.mul_comm (2 ^ n) 2, Nat.mul_assoc, ← this]
      omega
  exact this (j + 1) j

theorem fast_three_one : fast 3 1 = 2047 := by
  have h1 : fast 2 1 = 7 := by have := fast_two 1; omega
  have h2 : fast 2 7 = 2047 := by have := fast_two 7; omega
  have h3 : fast 3 1 = (fast 2)^[1 + 1] 1 := by rw [fast]
  rw [h3, Function.iterate_succ_apply', Function.iterate_one, h1, h2]

/-! ### The potential of an element that is not a root -/

/-- The level of an element of rank `r` with a parent of rank `q`. -/
def level (K r q : Nat) : Nat := Nat.findGreatest (fun k => fast k r ≤ q) K

/-- How often the function of the level fits in. -/
def reps (K r q : Nat) : Nat := Nat.findGreatest (fun i => (fast (level K r q))^[i] r ≤ q) r

/-- The potential. -/
def pot (K r q : Nat) : Nat := if r = 0 then 0 else (K - level K r q) * r - reps K r q

variable {K r q q' : Nat}

theorem level_spec (hrq : r < q) : fast (level K r q) r ≤ q :=
  Nat.findGreatest_spec (P := fun k => fast k r ≤ q) (Nat.zero_le K) hrq

theorem level_lt (hrq : r < q) (hq : q < fast K r) : level K r q < K := by
  have h1 : level K r q ≤ K := Nat.findGreatest_le K
  rcases Nat.lt_or_eq_of_le h1 with h | h
  · exact h
  · have := level_spec (K := K) hrq
    rw [h] at this
    omega

theorem le_level {k : Nat} (hk : k ≤ K) (h : fast k r ≤ q) : k ≤ level K r q :=
  Nat.le_findGreatest (P := fun k => fast k r ≤ q) hk h

theorem reps_spec (hrq : r < q) : (fast (level K r q))^[reps K r q] r ≤ q :=
  Nat.findGreatest_spec (P := fun i => (fast (level K r q))^[i] r ≤ q) (Nat.zero_le r) (Nat.le_of_lt hrq)

theorem reps_le : reps K r q ≤ r := Nat.findGreatest_le r

theorem one_le_reps (hr : 1 ≤ r) (hrq : r < q) : 1 ≤ reps K r q :=
  Nat.le_findGreatest (P := fun i => (fast (level K r q))^[i] r ≤ q) hr (level_spec hrq)

theorem level_mono (h : q ≤ q') : level K r q ≤ level K r q' :=
  Nat.findGreatest_mono_left (fun _ hk => Nat.le_trans hk h) K

theorem pot_le : pot K r q ≤ K * r := by
  unfold pot
  split
  · omega
  · exact Nat.le_trans (Nat.sub_le _ _) (Nat.mul_le_mul_right _ (Nat.sub_le _ _))

/-- A higher level means a smaller potential. -/
theorem pot_level (hr : 1 ≤ r) (hrq' : r < q') (hq' : q' < fast K r)
    (h : level K r q < level K r q') : pot K r q' + 1 ≤ pot K r q := by
  have h0 : r ≠ 0 := by omega
  simp only [pot, if_neg h0]
  have h1 := one_le_reps (K := K) hr hrq'
  have h2 : reps K r q ≤ r := reps_le
  have h3 := level_lt (K := K) hrq' hq'
  obtain ⟨d, hd⟩ : ∃ d, K - level K r q = (K - level K r q') + 1 + d := ⟨level K r q' - level K r q - 1, by omega⟩
  have h4 : 1 * r ≤ (K - level K r q') * r := Nat.mul_le_mul_right _ (by omega)
  have h5 : ((K - level K r q') + 1) * r ≤ (K - level K r q) * r := Nat.mul_le_mul_right _ (by omega)
  rw [Nat.add_mul, Nat.one_mul] at h5
  have h6 : reps K r q' ≤ r := reps_le
  omega

theorem pot_mono (hrq : r < q) (h : q ≤ q') (hq' : r = 0 ∨ q' < fast K r) : pot K r q' ≤ pot K r q := by
  by_cases hr : r = 0
  · simp [pot, hr]
  rcases Nat.lt_or_eq_of_le (level_mono (K := K) (r := r) h) with hl | hl
  · have := pot_level (by omega) (by omega) (hq'.resolve_left hr) hl
    omega
  · simp only [pot, if_neg hr]
    have : reps K r q ≤ reps K r q' := by
      unfold reps
      rw [← hl]
      exact Nat.findGreatest_mono_left (fun _ hk => Nat.le_trans hk h) r
    rw [← hl]
    omega

theorem pot_strict (hr : 1 ≤ r) (hrq : r < q) (h : q ≤ q') (hq' : q' < fast K r)
    (hs : fast (level K r q) q ≤ q') : pot K r q' + 1 ≤ pot K r q := by
  rcases Nat.lt_or_eq_of_le (level_mono (K := K) (r := r) h) with hl | hl
  · exact pot_level hr (by omega) hq' hl
  · have hit : (fast (level K r q))^[reps K r q + 1] r ≤ q' := by
      rw [Function.iterate_succ_apply']
      exact Nat.le_trans (fast_mono _ (reps_spec hrq)) hs
    have hlt : reps K r q + 1 ≤ r := by
      by_contra hn
      have he : reps K r q = r := Nat.le_antisymm reps_le (by omega)
      rw [he] at hit
      have h1 := level_lt (K := K) hrq (by omega)
      have := le_level (K := K) (q := q') (k := level K r q + 1) h1 hit
      omega
    have h2 : reps K r q + 1 ≤ reps K r q' := by
      unfold reps at hlt hit ⊢
      rw [← hl]
      exact Nat.le_findGreatest (P := fun i => (fast (level K r q))^[i] r ≤ q') hlt hit
    have h0 : r ≠ 0 := by omega
    simp only [pot, if_neg h0]
    rw [← hl]
    have h3 := level_lt (K := K) hrq (by omega)
    have h4 : 1 * r ≤ (K - level K r q) * r := Nat.mul_le_mul_right _ (by omega)
    have h5 : reps K r q' ≤ r := reps_le
    omega

/-! ### The potential of the forest -/

/-- Potential of one element. -/
def phi (K : Nat) (rank : Nat → Nat) (s : DSU) (i : Nat) : Nat :=
  match s[i]? with
  | none => 0
  | some e => if e.root then K * (rank i + 1) else pot K (rank i) (rank e.value)

/-- Potential of the forest. -/
def Phi (K : Nat) (rank : Nat → Nat) (s : DSU) : Nat := ∑ i ∈ Finset.range s.length, phi K rank s i

/-- Giving one element a new parent. -/
theorem Phi_set {rank : Nat → Nat} {s : DSU} {i : Nat} (hi : i < s.length) {e : Element} {d : Nat}
    (h : phi K rank (s.set i e) i + d ≤ phi K rank s i) : Phi K rank (s.set i e) + d ≤ Phi K rank s := by
  unfold Phi
  rw [List.length_set, ← Finset.add_sum_erase _ _ (Finset.mem_range.mpr hi),
    ← Finset.add_sum_erase _ (phi K rank s) (Finset.mem_range.mpr hi)]
  have : ∑ x ∈ (Finset.range s.length).erase i, phi K rank (s.set i e) x =
      ∑ x ∈ (Finset.range s.length).erase i, phi K rank s x := by
    refine Finset.sum_congr rfl fun x hx => ?_
    have hne : x ≠ i := (Finset.mem_erase.mp hx).1
    unfold phi
    rw [List.getElem?_set_ne (Ne.symm hne)]
  omega

/-! ### One find -/

theorem helper_cost {rep rank : Nat → Nat} : ∀ (m : Nat) (s : DSU) (t i : Nat), Inv s rep rank →
    (∀ j, j < s.length → rank j < fast K 1) → i < s.length → rank (rep i) - rank i ≤ m →
    ∃ s' c, countedHelper s t i = .ok (rep i, s', t + c) ∧ findHelper s i = .ok (rep i, s') ∧
      (∀ j, rank j < rank i → s'[j]? = s[j]?) ∧
      ∃ L : Finset Nat, L ⊆ Finset.range K ∧ (∀ k ∈ L, fast k (rank i) ≤ rank (rep i)) ∧
        c + Phi K rank s' ≤ Phi K rank s + L.card + 1 + (if rank i = 0 then 1 else 0) := by
  have base : ∀ (s : DSU) (t i : Nat), Inv s rep rank → (hi : i < s.length) → s[i].root = true →
      ∃ s' c, countedHelper s t i = .ok (rep i, s', t + c) ∧ findHelper s i = .ok (rep i, s') ∧
      (∀ j, rank j < rank i → s'[j]? = s[j]?) ∧
      ∃ L : Finset Nat, L ⊆ Finset.range K ∧ (∀ k ∈ L, fast k (rank i) ≤ rank (rep i)) ∧
        c + Phi K rank s' ≤ Phi K rank s + L.card + 1 + (if rank i = 0 then 1 else 0) := by
    intro s t i hI hi hr
    have hget : s[i]? = some s[i] := List.getElem?_eq_getElem hi
    have := (hI.root i _ hget hr).1
    refine ⟨s, 1, ?_, ?_, fun _ _ => rfl, ∅, by simp, by simp, by simp; omega⟩
    · rw [countedHelper]; simp [getP_some hget, hr, this]
    · rw [findHelper]; simp [getP_some hget, hr, this]
  intro m
  induction m with
  | zero =>
    intro s t i hI hB hi hk
    have hget : s[i]? = some s[i] := List.getElem?_eq_getElem hi
    cases hr : s[i].root with
    | true => exact base s t i hI hi hr
    | false =>
      obtain ⟨h1, h2, h3⟩ := hI.nonroot i _ hget hr
      have := hI.bound _ h1
      rw [h2] at this
      omega
  | succ m ih =>
    intro s t i hI hB hi hk
    have hget : s[i]? = some s[i] := List.getElem?_eq_getElem hi
    cases hr : s[i].root with
    | true => exact base s t i hI hi hr
    | false =>
      obtain ⟨h1, h2, h3⟩ := hI.nonroot i _ hget hr
      obtain ⟨s', c, e1, e2, hlow, L, hL, hLk, hcost⟩ := ih s (t + 1) s[i].value hI hB h1 (by rw [h2]; omega)
      obtain ⟨s'', e2', hI', hc⟩ := findHelper_spec _ s s[i].value hI h1 (Nat.le_refl _)
      obtain rfl : s'' = s' := by
        rw [e2] at e2'
        simpa using e2'.symm
      have hi' : i < s''.length := hc.len ▸ hi
      have hget' : s''[i]? = some s[i] := by rw [hlow i h3, hget]
      have hroot : rank s[i].value ≤ rank (rep i) := by
        have := hI.bound _ h1
        rwa [h2] at this
      have hBroot : rank (rep i) < fast K 1 := hB _ (hI.rep_lt hi)
      have hpos : rank s[i].value ≠ 0 := by omega
      rw [if_neg hpos] at hcost
      rw [h2] at hLk
      have hphi : phi K rank s'' i = pot K (rank i) (rank s[i].value) := by
        unfold phi; rw [hget']; simp [hr]
      have hphi' : phi K rank (s''.set i { s[i] with value := rep i }) i = pot K (rank i) (rank (rep i)) := by
        unfold phi; rw [List.getElem?_set_self hi']; simp [hr]
      have hfin : 1 ≤ rank i → rank (rep i) < fast K (rank i) := fun h => Nat.lt_of_lt_of_le hBroot (fast_mono _ h)
      refine ⟨s''.set i { s[i] with value := rep i }, c + 1, ?_, ?_, ?_, ?_⟩
      · rw [countedHelper]
        simp [getP_some hget, hr, e1, getP_some hget', setP_ok hi', h2]
        omega
      · rw [findHelper]
        simp [getP_some hget, hr, e2, getP_some hget', setP_ok hi', h2]
      · intro j hj
        have : i ≠ j := by rintro rfl; omega
        rw [List.getElem?_set_ne this, hlow j (by omega)]
      · have hmono : Phi K rank (s''.set i { s[i] with value := rep i }) + 0 ≤ Phi K rank s'' := by
          refine Phi_set hi' ?_
          rw [hphi, hphi']
          refine pot_mono h3 hroot ?_
          by_cases h0 : rank i = 0
          · exact .inl h0
          · exact .inr (hfin (by omega))
        by_cases h0 : rank i = 0
        · refine ⟨L, hL, fun k hk => Nat.le_trans (fast_mono _ (by omega)) (hLk k hk), ?_⟩
          rw [if_pos h0]
          omega
        · rw [if_neg h0]
          by_cases hmem : level K (rank i) (rank s[i].value) ∈ L
          · refine ⟨L, hL, fun k hk => Nat.le_trans (fast_mono _ (by omega)) (hLk k hk), ?_⟩
            have : Phi K rank (s''.set i { s[i] with value := rep i }) + 1 ≤ Phi K rank s'' := by
              refine Phi_set hi' ?_
              rw [hphi, hphi']
              exact pot_strict (by omega) h3 hroot (hfin (by omega)) (hLk _ hmem)
            omega
          · refine ⟨insert (level K (rank i) (rank s[i].value)) L, ?_, ?_, ?_⟩
            · refine Finset.insert_subset (Finset.mem_range.mpr (level_lt h3 ?_)) hL
              exact Nat.lt_of_le_of_lt hroot (hfin (by omega))
            · intro k hk
              rcases Finset.mem_insert.mp hk with rfl | hk
              · exact Nat.le_trans (level_spec h3) hroot
              · exact Nat.le_trans (fast_mono _ (by omega)) (hLk k hk)
            · rw [Finset.card_insert_of_notMem hmem]
              omega

/-- One `find` in range. -/
theorem find_cost {rep rank : Nat → Nat} {s : DSU} (t : Nat) {i : Nat} (hI : Inv s rep rank)
    (hB : ∀ j, j < s.length → rank j < fast K 1) (hi : i < s.length) :
    ∃ s' t', countedFind s t i = .ok (some (rep i), s', t') ∧ find s i = .ok (some (rep i), s') ∧ Inv s' rep rank ∧
      Compressed s s' ∧ t' + Phi K rank s' ≤ t + Phi K rank s + (K + 2) := by
  obtain ⟨s', c, e1, e2, _, L, hL, _, hc⟩ := helper_cost (K := K) _ s t i hI hB hi (Nat.le_refl _)
  obtain ⟨s'', e3, hI', hcc⟩ := findHelper_spec _ s i hI hi (Nat.le_refl _)
  obtain rfl : s'' = s' := by rw [e2] at e3; simpa using e3.symm
  have hn : ¬ s.length ≤ i := by omega
  refine ⟨s'', t + c, by simp [countedFind, hn, e1], by simp [find, hn, e2], hI', hcc, ?_⟩
  have : L.card ≤ K := by simpa using Finset.card_le_card hL
  have : (if rank i = 0 then 1 else 0) ≤ 1 := by split <;> omega
  omega

/-! ### Histories -/

/-- The forest with ranks that are the logarithms of the sizes. -/
structure Exact (s : DSU) (rep rank : Nat → Nat) : Prop where
  inv : Inv s rep rank
  log : ∀ i e, s[i]? = some e → e.root = true → rank i = Nat.log2 e.value
  out : ∀ i, s.length ≤ i → rep i = i

theorem cnt_le (n : Nat) (rep : Nat → Nat) (r : Nat) : cnt n rep r ≤ n := by
  unfold cnt
  exact Nat.le_trans List.countP_le_length (by simp)

theorem log2_mono {a b : Nat} (ha : a ≠ 0) (h : a ≤ b) : Nat.log2 a ≤ Nat.log2 b :=
  (Nat.le_log2 (by omega)).mpr (Nat.le_trans (Nat.log2_self_le ha) h)

theorem Exact.rank_lt {s : DSU} {rep rank : Nat → Nat} (h : Exact s rep rank) (hM : Nat.log2 s.length < fast K 1) :
    ∀ j, j < s.length → rank j < fast K 1 := by
  intro j hj
  obtain ⟨e, he, hr⟩ := h.inv.repRoot j hj
  have h1 := h.inv.bound j hj
  have h2 := h.log _ e he hr
  obtain ⟨_, h3, h4⟩ := h.inv.root _ e he hr
  have h5 := cnt_le s.length rep (rep j)
  have h6 : e.value ≠ 0 := by have := Nat.two_pow_pos (rank (rep j)); omega
  have := log2_mono h6 (by omega : e.value ≤ s.length)
  omega

theorem Exact.compressed {s s' : DSU} {rep rank : Nat → Nat} (h : Exact s rep rank) (hI : Inv s' rep rank)
    (hc : Compressed s s') : Exact s' rep rank := by
  refine ⟨hI, fun i e hi hr => ?_, by rw [hc.len]; exact h.out⟩
  have h1 := hc.flag i
  rw [hi] at h1
  cases hs : s[i]? with
  | none => rw [hs] at h1; simp at h1
  | some e' =>
    rw [hs] at h1
    have hr' : e'.root = true := by simp [hr] at h1; exact h1
    have := hc.roots i e' hs hr'
    rw [hi] at this
    obtain rfl := Option.some.inj this
    exact h.log i e hs hr

/-- Linking two roots does not raise the potential. -/
theorem merge_cost {rep rank : Nat → Nat} {s : DSU} (hE : Exact s rep rank) (hM : Nat.log2 s.length < fast K 1)
    {a b : Nat} {ea eb : Element} (ha : s[a]? = some ea) (hb : s[b]? = some eb) (hra : ea.root = true)
    (hrb : eb.root = true) (hab : a ≠ b) (hle : ea.value ≤ eb.value) :
    ∃ rep' rank', Exact ((s.set b { eb with value := eb.value + ea.value }).set a (Element.fromParent b)) rep' rank' ∧
      Phi K rank' ((s.set b { eb with value := eb.value + ea.value }).set a (Element.fromParent b)) ≤ Phi K rank s := by
  have hal : a < s.length := (List.getElem?_eq_some_iff.mp ha).1
  have hbl : b < s.length := (List.getElem?_eq_some_iff.mp hb).1
  obtain ⟨rea, vea, pa⟩ := hE.inv.root a ea ha hra
  obtain ⟨reb, veb, pb⟩ := hE.inv.root b eb hb hrb
  have la := hE.log a ea ha hra
  have lb := hE.log b eb hb hrb
  have va : 0 < ea.value := Nat.lt_of_lt_of_le (Nat.two_pow_pos _) pa
  have n0 : eb.value + ea.value ≠ 0 := by omega
  have r1 : rank b ≤ Nat.log2 (eb.value + ea.value) := by rw [lb]; exact log2_mono (by omega) (by omega)
  have r2 : rank a < Nat.log2 (eb.value + ea.value) := by
    refine (Nat.le_log2 n0).mpr ?_
    rw [Nat.pow_succ]; omega
  have r3 : Nat.log2 (eb.value + ea.value) ≤ rank b + 1 := by
    rw [lb]
    have h1 : eb.value < 2 ^ (Nat.log2 eb.value + 1) := Nat.lt_log2_self
    have h2 : Nat.log2 (eb.value + ea.value) < Nat.log2 eb.value + 2 := by
      refine (Nat.log2_lt n0).mpr ?_
      rw [Nat.pow_succ]
      omega
    omega
  have hinv := merge_rank_inv hE.inv ha hb hra hrb hab r1 r2 (Nat.log2_self_le n0)
  have hlen : ((s.set b { eb with value := eb.value + ea.value }).set a (Element.fromParent b)).length = s.length := by simp
  have get_a : ((s.set b { eb with value := eb.value + ea.value }).set a (Element.fromParent b))[a]?
      = some (Element.fromParent b) := by
    rw [List.getElem?_set_self (by simpa using hal)]
  have get_b : ((s.set b { eb with value := eb.value + ea.value }).set a (Element.fromParent b))[b]?
      = some { eb with value := eb.value + ea.value } := by
    rw [List.getElem?_set_ne hab, List.getElem?_set_self hbl]
  have get_o : ∀ j, j ≠ a → j ≠ b →
      ((s.set b { eb with value := eb.value + ea.value }).set a (Element.fromParent b))[j]? = s[j]? := by
    intro j h1 h2
    rw [List.getElem?_set_ne (Ne.symm h1), List.getElem?_set_ne (Ne.symm h2)]
  generalize (s.set b { eb with value := eb.value + ea.value }).set a (Element.fromParent b) = s' at *
  have hvb := (hinv.root b _ get_b hrb).2.1
  have hcl := cnt_le s'.length (fun i => if rep i = a then b else rep i) b
  have hρ : Nat.log2 (eb.value + ea.value) < fast K 1 := by
    have := log2_mono n0 (by rw [← hlen]; simp only at hvb; omega : eb.value + ea.value ≤ s.length)
    omega
  refine ⟨_, _, ⟨hinv, ?_, ?_⟩, ?_⟩
  · intro i e hi hr
    by_cases h1 : i = a
    · subst h1
      rw [get_a] at hi; cases hi
      simp [Element.fromParent] at hr
    · by_cases h2 : i = b
      · subst h2
        rw [get_b] at hi; cases hi
        simp
      · rw [get_o i h1 h2] at hi
        simp only [h2, if_false]
        exact hE.log i e hi hr
  · intro i hi
    rw [hlen] at hi
    have := hE.out i hi
    rw [if_neg (by omega)]; exact this
  · unfold Phi
    rw [hlen]
    have hb' : b ∈ (Finset.range s.length).erase a := Finset.mem_erase.mpr ⟨Ne.symm hab, Finset.mem_range.mpr hbl⟩
    rw [← Finset.add_sum_erase _ _ (Finset.mem_range.mpr hal), ← Finset.add_sum_erase _ _ hb',
      ← Finset.add_sum_erase _ (phi K rank s) (Finset.mem_range.mpr hal), ← Finset.add_sum_erase _ (phi K rank s) hb']
    have hsum : ∑ x ∈ ((Finset.range s.length).erase a).erase b,
          phi K (fun i => if i = b then Nat.log2 (eb.value + ea.value) else rank i) s' x ≤
        ∑ x ∈ ((Finset.range s.length).erase a).erase b, phi K rank s x := by
      refine Finset.sum_le_sum fun x hx => ?_
      simp only [Finset.mem_erase, Finset.mem_range] at hx
      obtain ⟨x2, x1, x3⟩ := hx
      unfold phi
      rw [get_o x x1 x2, List.getElem?_eq_getElem x3]
      simp only [x2, if_false]
      cases hr : s[x].root with
      | true => simp
      | false =>
        simp only [Bool.false_eq_true, if_false]
        obtain ⟨q1, q2, q3⟩ := hE.inv.nonroot x _ (List.getElem?_eq_getElem x3) hr
        by_cases hv : s[x].value = b
        · rw [if_pos hv]
          refine pot_mono q3 (by rw [hv]; exact r1) ?_
          by_cases h0 : rank x = 0
          · exact .inl h0
          · exact .inr (Nat.lt_of_lt_of_le hρ (fast_mono _ (by omega)))
        · rw [if_neg hv]
    have fa : phi K rank s a = K * (rank a + 1) := by unfold phi; rw [ha]; simp [hra]
    have fb : phi K rank s b = K * (rank b + 1) := by unfold phi; rw [hb]; simp [hrb]
    have fa' : phi K (fun i => if i = b then Nat.log2 (eb.value + ea.value) else rank i) s' a ≤ K * rank a := by
      unfold phi; rw [get_a]
      simp only [Element.fromParent, Bool.false_eq_true, if_false, hab]
      exact pot_le
    have fb' : phi K (fun i => if i = b then Nat.log2 (eb.value + ea.value) else rank i) s' b ≤ K * (rank b + 1) + K := by
      unfold phi; rw [get_b]
      simp only [hrb, if_true]
      calc K * (Nat.log2 (eb.value + ea.value) + 1) ≤ K * (rank b + 1 + 1) := Nat.mul_le_mul_left _ (by omega)
        _ = _ := by rw [Nat.mul_succ]
    rw [fa, fb]
    rw [Nat.mul_succ K (rank a)]
    omega

theorem union_cost {rep rank : Nat → Nat} {s : DSU} (t : Nat) (hE : Exact s rep rank)
    (hM : Nat.log2 s.length < fast K 1) {i j : Nat} (hi : i < s.length) (hj : j < s.length) :
    ∃ s' t' r rep' rank', countedUnion s t i j = .ok (r, s', t') ∧ union s i j = .ok (r, s') ∧ s'.length = s.length ∧
      Exact s' rep' rank' ∧ t' + Phi K rank' s' ≤ t + Phi K rank s + 2 * (K + 2) := by
  obtain ⟨s1, t1, c1, f1, hI1, hc1, p1⟩ := find_cost (K := K) t hE.inv (hE.rank_lt hM) hi
  have hE1 := hE.compressed hI1 hc1
  have hM1 : Nat.log2 s1.length < fast K 1 := by rw [hc1.len]; exact hM
  obtain ⟨s2, t2, c2, f2, hI2, hc2, p2⟩ := find_cost (K := K) t1 hE1.inv (hE1.rank_lt hM1) (hc1.len ▸ hj : j < s1.length)
  have hE2 := hE1.compressed hI2 hc2
  have hlen : s2.length = s.length := hc2.len.trans hc1.len
  have hM2 : Nat.log2 s2.length < fast K 1 := by rw [hlen]; exact hM
  by_cases heq : rep i = rep j
  · exact ⟨s2, t2, some (rep i), rep, rank, by simp [countedUnion, c1, c2, heq], by simp [union, f1, f2, heq], hlen, hE2,
      by omega⟩
  · obtain ⟨e1, g1, r1⟩ := hI2.repRoot i (hlen ▸ hi)
    obtain ⟨e2, g2, r2⟩ := hI2.repRoot j (hlen ▸ hj)
    have l1 : rep i < s2.length := (List.getElem?_eq_some_iff.mp g1).1
    have l2 : rep j < s2.length := (List.getElem?_eq_some_iff.mp g2).1
    by_cases hlt : e1.value < e2.value
    · obtain ⟨rep', rank', hE', hp⟩ := merge_cost hE2 hM2 g1 g2 r1 r2 heq (by omega)
      refine ⟨_, t2, some (rep i), rep', rank', ?_, ?_, by simpa using hlen, hE', by omega⟩
      · simp [countedUnion, c1, c2, heq, getP_some g1, getP_some g2, hlt, setP, l1, l2]
      · simp [union, f1, f2, heq, getP_some g1, getP_some g2, hlt, setP, l1, l2]
    · obtain ⟨rep', rank', hE', hp⟩ := merge_cost hE2 hM2 g2 g1 r2 r1 (Ne.symm heq) (by omega)
      refine ⟨_, t2, some (rep j), rep', rank', ?_, ?_, by simpa using hlen, hE', by omega⟩
      · simp [countedUnion, c1, c2, heq, getP_some g1, getP_some g2, hlt, setP, l1, l2]
      · simp [union, f1, f2, heq, getP_some g1, getP_some g2, hlt, setP, l1, l2]

theorem countedFind_none {s : DSU} {t i : Nat} (hi : s.length ≤ i) : countedFind s t i = .ok (none, s, t) := by
  simp [countedFind, hi]

/-- An operation and its cost. -/
theorem step_cost {rep rank : Nat → Nat} {s : DSU} (t : Nat) (hE : Exact s rep rank) (op : Op)
    (hM : Nat.log2 s.length < fast K 1) :
    ∃ s' t' rep' rank', countedStep s t op = .ok (s', t') ∧ step s op = .ok s' ∧
      s'.length = s.length + (if op = .add then 1 else 0) ∧ Exact s' rep' rank' ∧
      t' + Phi K rank' s' ≤ t + Phi K rank s + (K + 2) * opFinds op + (if op = .add then K else 0) := by
  cases op with
  | add =>
    have hl : (add s).length = s.length + 1 := by simp [add]
    refine ⟨add s, t, rep, fun i => if i = s.length then 0 else rank i, rfl, rfl, by simp [hl], ⟨add_inv hE.inv hE.out, ?_, ?_⟩, ?_⟩
    · intro i e hi hr
      by_cases h : i = s.length
      · subst h
        simp [add] at hi
        subst hi
        simp only [if_true]
        decide
      · have hi' : i < s.length := by
          have := (List.getElem?_eq_some_iff.mp hi).1
          omega
        rw [add, List.getElem?_append_left hi'] at hi
        simp only [h, if_false]
        exact hE.log i e hi hr
    · intro i hi; exact hE.out i (by omega)
    · unfold Phi
      rw [hl, Finset.sum_range_succ]
      have h1 : phi K (fun i => if i = s.length then 0 else rank i) (add s) s.length = K := by
        simp [phi, add, Element.new]
      have h2 : ∑ x ∈ Finset.range s.length, phi K (fun i => if i = s.length then 0 else rank i) (add s) x =
          ∑ x ∈ Finset.range s.length, phi K rank s x := by
        refine Finset.sum_congr rfl fun x hx => ?_
        have hx := Finset.mem_range.mp hx
        unfold phi
        rw [add, List.getElem?_append_left hx, List.getElem?_eq_getElem hx]
        have hne : x ≠ s.length := by omega
        simp only [hne, if_false]
        cases hr : s[x].root with
        | true => rfl
        | false =>
          obtain ⟨q1, _, _⟩ := hE.inv.nonroot x _ (List.getElem?_eq_getElem hx) hr
          simp only [Bool.false_eq_true, if_false]
          rw [if_neg (by omega)]
      rw [h1, h2]
      simp [opFinds]
      omega
  | find i =>
    by_cases hi : i < s.length
    · obtain ⟨s1, t1, c1, f1, hI1, hc1, p1⟩ := find_cost (K := K) t hE.inv (hE.rank_lt hM) hi
      exact ⟨s1, t1, rep, rank, by simp [countedStep, c1], by simp [step, f1], by simp [hc1.len], hE.compressed hI1 hc1,
        by simp [opFinds]; omega⟩
    · have hi : s.length ≤ i := by omega
      exact ⟨s, t, rep, rank, by simp [countedStep, countedFind_none hi], by simp [step, find_none hi], by simp, hE,
        by simp [opFinds]⟩
  | commonSet i j =>
    by_cases hi : i < s.length
    · obtain ⟨s1, t1, c1, f1, hI1, hc1, p1⟩ := find_cost (K := K) t hE.inv (hE.rank_lt hM) hi
      have hE1 := hE.compressed hI1 hc1
      by_cases hj : j < s.length
      · have hM1 : Nat.log2 s1.length < fast K 1 := by rw [hc1.len]; exact hM
        obtain ⟨s2, t2, c2, f2, hI2, hc2, p2⟩ := find_cost (K := K) t1 hE1.inv (hE1.rank_lt hM1) (hc1.len ▸ hj : j < s1.length)
        exact ⟨s2, t2, rep, rank, by simp [countedStep, countedCommonSet, c1, c2], by simp [step, commonSet, f1, f2],
          by simp [hc2.len, hc1.len], hE1.compressed hI2 hc2, by simp [opFinds]; omega⟩
      · have hj : s1.length ≤ j := by rw [hc1.len]; omega
        exact ⟨s1, t1, rep, rank, by simp [countedStep, countedCommonSet, c1, countedFind_none hj],
          by simp [step, commonSet, f1, find_none hj], by simp [hc1.len], hE1, by simp [opFinds]; omega⟩
    · have hi : s.length ≤ i := by omega
      exact ⟨s, t, rep, rank, by simp [countedStep, countedCommonSet, countedFind_none hi],
        by simp [step, commonSet, find_none hi], by simp, hE, by simp [opFinds]⟩
  | union i j =>
    by_cases hi : i < s.length
    · by_cases hj : j < s.length
      · obtain ⟨s', t', r, rep', rank', c1, f1, hl, hE', hp⟩ := union_cost (K := K) t hE hM hi hj
        exact ⟨s', t', rep', rank', by simp [countedStep, c1], by simp [step, f1], by simp [hl], hE',
          by simp [opFinds]; omega⟩
      · obtain ⟨s1, t1, c1, f1, hI1, hc1, p1⟩ := find_cost (K := K) t hE.inv (hE.rank_lt hM) hi
        have hE1 := hE.compressed hI1 hc1
        have hj : s1.length ≤ j := by rw [hc1.len]; omega
        exact ⟨s1, t1, rep, rank, by simp [countedStep, countedUnion, c1, countedFind_none hj],
          by simp [step, union, f1, find_none hj], by simp [hc1.len], hE1, by simp [opFinds]; omega⟩
    · have hi : s.length ≤ i := by omega
      exact ⟨s, t, rep, rank, by simp [countedStep, countedUnion, countedFind_none hi],
        by simp [step, union, find_none hi], by simp, hE, by simp [opFinds]⟩

theorem size_ge (n : Nat) (ops : List Op) : n ≤ Spec.size n ops := by
  induction ops generalizing n with
  | nil => exact Nat.le_refl _
  | cons op ops ih =>
    cases op with
    | add => exact Nat.le_trans (Nat.le_succ n) (ih (n + 1))
    | _ => exact ih n

/-- A history and its cost. -/
theorem run_cost : ∀ (ops : List Op) (s : DSU) (t : Nat) (rep rank : Nat → Nat), Exact s rep rank →
    Nat.log2 (Spec.size s.length ops) < fast K 1 →
    ∃ s' t', countedRun s t ops = .ok (s', t') ∧ run s ops = .ok s' ∧
      t' + K * s.length ≤ t + Phi K rank s + (K + 2) * finds ops + K * Spec.size s.length ops := by
  intro ops
  induction ops with
  | nil =>
    intro s t rep rank hE hM
    exact ⟨s, t, rfl, rfl, by simp [Spec.size, finds]⟩
  | cons op ops ih =>
    intro s t rep rank hE hM
    have hsz : Spec.size s.length (op :: ops) = Spec.size (s.length + (if op = .add then 1 else 0)) ops := by
      cases op <;> simp [Spec.size]
    have hge := size_ge s.length (op :: ops)
    have hM0 : Nat.log2 s.length < fast K 1 := by
      by_cases h0 : s.length = 0
      · rw [h0]; exact Nat.lt_of_le_of_lt (Nat.zero_le _) (lt_fast K 1)
      · exact Nat.lt_of_le_of_lt (log2_mono h0 hge) hM
    obtain ⟨s1, t1, rep1, rank1, c1, f1, hl, hE1, hp⟩ := step_cost (K := K) t hE op hM0
    obtain ⟨s2, t2, c2, f2, hp2⟩ := ih s1 t1 rep1 rank1 hE1 (by rw [hl, ← hsz]; exact hM)
    refine ⟨s2, t2, by simp [countedRun, c1, c2], by simp [run, f1, f2], ?_⟩
    have hf : finds (op :: ops) = opFinds op + finds ops := by simp [finds]
    rw [hl, ← hsz] at hp2
    rw [hf, Nat.mul_add]
    have : K * (s.length + (if op = .add then 1 else 0)) = K * s.length + (if op = .add then K else 0) := by
      split <;> simp [Nat.mul_add]
    omega

theorem init_exact (n : Nat) : ∃ rep, Exact (List.replicate n Element.new) rep (fun _ => 0) := by
  refine ⟨fun i => i, ⟨⟨?_, ?_, ?_, ?_⟩, ?_, fun _ _ => rfl⟩⟩
  · intro i e hi he
    simp [List.getElem?_replicate] at hi
    rw [← hi.2] at he; simp [Element.new] at he
  · intro i e hi he
    simp [List.getElem?_replicate] at hi
    obtain ⟨hi, rfl⟩ := hi
    refine ⟨rfl, ?_, by simp [Element.new]⟩
    rw [List.length_replicate, cnt_id n i hi]; rfl
  · intro i hi
    exact ⟨Element.new, by simpa [List.getElem?_replicate] using hi, rfl⟩
  · intro i _; exact Nat.le_refl _
  · intro i e hi he
    simp [List.getElem?_replicate] at hi
    obtain ⟨hi, rfl⟩ := hi
    decide

theorem init_phi (n : Nat) : Phi K (fun _ => 0) (List.replicate n Element.new) = K * n := by
  unfold Phi
  rw [List.length_replicate, Finset.sum_congr rfl (g := fun _ => K)]
  · simp [Nat.mul_comm]
  · intro x hx
    have hx := Finset.mem_range.mp hx
    simp [phi, hx, Element.new]

end DisjointSet.Cost
