import Verif.Spec.MazeCost
import Verif.Proofs.Pays
import Verif.Proofs.DisjointSetCost
import Verif.Proofs.Maze.Steps

/-! Helper lemmas: the number of steps of `create_maze`. -/
namespace Maze.Cost
open Maze Maze.Spec Counted
open DisjointSet (DSU)
open DisjointSet.Cost (Exact Phi)

variable {w h : Nat}

/-- A forest of `n` elements that has at most `p` steps saved up. -/
def Pot (n : Nat) (s : DSU) (p : Nat) : Prop :=
  s.length = n ∧ ∃ rep rank, Exact s rep rank ∧ Phi 3 rank s ≤ p

theorem log_lt {n : Nat} (hn : n < 2 ^ 64) : Nat.log2 n < DisjointSet.Spec.fast 3 1 := by
  rw [DisjointSet.Cost.fast_three_one]
  by_cases h0 : n = 0
  · rw [h0]; decide
  · have := (Nat.log2_lt h0).mpr hn
    omega

theorem common_cost {n : Nat} (hn : n < 2 ^ 64) {s : DSU} {p i j : Nat} (hP : Pot n s p) (hi : i < n) (hj : j < n) :
    Pays (DisjointSet.commonSet s i j) (countedCommon s i j) fun r t =>
      (∃ b, r.1 = some b) ∧ ∃ p', Pot n r.2 p' ∧ t + p' ≤ p + 10 := by
  obtain ⟨rfl, rep, rank, hE, hp⟩ := hP
  have hM := log_lt hn
  obtain ⟨s1, t1, c1, f1, hI1, hc1, p1⟩ := DisjointSet.Cost.find_cost (K := 3) 0 hE.inv (hE.rank_lt hM) hi
  have hE1 := hE.compressed hI1 hc1
  have hM1 : Nat.log2 s1.length < DisjointSet.Spec.fast 3 1 := by rw [hc1.len]; exact hM
  obtain ⟨s2, t2, c2, f2, hI2, hc2, p2⟩ :=
    DisjointSet.Cost.find_cost (K := 3) t1 hE1.inv (hE1.rank_lt hM1) (hc1.len ▸ hj : j < s1.length)
  refine ⟨(some (rep i == rep j), s2), t2, ?_, ?_, ⟨_, rfl⟩, Phi 3 rank s2, ⟨hc2.len.trans hc1.len, rep, rank,
    hE1.compressed hI2 hc2, Nat.le_refl _⟩, by omega⟩
  · simp [DisjointSet.commonSet, f1, f2]
  · simp only [countedCommon, DisjointSet.Spec.countedCommonSet, c1, c2, Prog.ok_bind]
    rfl

theorem unite_cost {n : Nat} (hn : n < 2 ^ 64) {s : DSU} {p i j : Nat} (hP : Pot n s p) (hi : i < n) (hj : j < n) :
    Pays (DisjointSet.union s i j) (countedUnite s i j) fun r t =>
      ∃ p', Pot n r.2 p' ∧ t + p' ≤ p + 10 := by
  obtain ⟨rfl, rep, rank, hE, hp⟩ := hP
  obtain ⟨s', t', r, rep', rank', c, f, hl, hE', hc⟩ := DisjointSet.Cost.union_cost (K := 3) 0 hE (log_lt hn) hi hj
  refine ⟨(r, s'), t', f, ?_, Phi 3 rank' s', ⟨hl, rep', rank', hE', Nat.le_refl _⟩, by omega⟩
  simp only [countedUnite, c]
  rfl

/-- What trying one direction costs. -/
def Tried (n : Nat) (s : VState) (p : Nat) (r : VState ⊕ (Option Nat × VState)) (t : Nat) : Prop :=
  match r with
  | .inl s' => s'.visitable = s.visitable ∧ s'.k = s.k ∧ ∃ p', Pot n s'.conn p' ∧ t + p' ≤ p + 10
  | .inr (r, s') => s'.visitable = s.visitable ∧ s'.k = s.k ∧ (∃ m, r = some m) ∧ ∃ p', Pot n s'.conn p' ∧ t + p' ≤ p + 20

theorem tryOpen_cost (hn : w * h < 2 ^ 64) {s : VState} {c m o p : Nat} {opn} (hI : MInv w h s.maze s.conn)
    (hO : OpenOk w h s.maze c m o opn) (hP : Pot (w * h) s.conn p) :
    Pays (tryOpen s c m o opn) (countedTryOpen s c m o opn) (Tried (w * h) s p) := by
  have hc := hO.opens.ha
  have hm := hO.opens.hb
  have ho := hO.ho
  have hspec := tryOpen_spec hI hO
  obtain ⟨⟨b, conn⟩, t, e1, e2, ⟨b, rfl⟩, p1, hP1, h1⟩ := common_cost hn hP hc hm
  obtain ⟨⟨u, conn2⟩, t2, e3, e4, p2, hP2, h2⟩ := unite_cost hn hP1 hc hm
  cases b with
  | true =>
    refine ⟨.inl { s with conn := conn }, t, by simp [tryOpen, e1], ?_, rfl, rfl, p1, hP1, h1⟩
    simp only [countedTryOpen, e2]
    rfl
  | false =>
    cases u with
    | none => simp [tryOpen, e1, e3, getP_ok ho, setP_ok ho] at hspec
    | some u =>
      refine ⟨.inr (some m, { s with maze := s.maze.set o (opn s.maze[o]), conn := conn2 }), t + t2,
        by simp [tryOpen, e1, e3, getP_ok ho, setP_ok ho], ?_, rfl, rfl, ⟨m, rfl⟩, p2, hP2, by simp only at hP2 ⊢; omega⟩
      simp only [countedTryOpen, e2, getP_ok ho, setP_ok ho, ok_bind, expectP, lift_bind, Bool.false_eq_true, if_false]
      simp only at e4
      rw [e4]
      rfl

theorem visitDir_cost {oc : Bool} {s : VState} {c p : Nat} (hw : 0 < w) (hh : 0 < h)
    (hn : w * h < 2 ^ 63) (hI : MInv w h s.maze s.conn) (hP : Pot (w * h) s.conn p) (hc : c < w * h) (d : MazeDirection) :
    Pays (visitDir oc c w h s d) (countedVisitDir oc c w h s d) (Tried (w * h) s p) := by
  have hw0 : w ≠ 0 := by omega
  have fin : ∀ {m o opn}, OpenOk w h s.maze c m o opn →
      visitDir oc c w h s d = tryOpen s c m o opn → countedVisitDir oc c w h s d = countedTryOpen s c m o opn →
      Pays (visitDir oc c w h s d) (countedVisitDir oc c w h s d) (Tried (w * h) s p) := fun {m o opn} hO he he' => by
    rw [he, he']
    exact tryOpen_cost (by omega) hI hO hP
  have skip : visitDir oc c w h s d = .ok (.inl s) → countedVisitDir oc c w h s d = pure (.inl s) →
      Pays (visitDir oc c w h s d) (countedVisitDir oc c w h s d) (Tried (w * h) s p) := fun he he' => by
    rw [he, he']
    exact Pays.ret ⟨rfl, rfl, p, hP, by omega⟩
  cases d with
  | Right =>
    have hml := Nat.mod_lt c hw
    by_cases hm : c % w + 1 < w
    · refine fin (m := c + 1) (openOk_right hI hc hm) ?_ ?_
      · simp [visitDir, hw0, subW_ok (show 1 ≤ w by omega), show c % w ≠ w - 1 by omega,
          addW_ok (show c + 1 < 2 ^ 64 by omega)]
      · simp only [countedVisitDir, hw0, subW_ok (show 1 ≤ w by omega), show c % w ≠ w - 1 by omega,
          addW_ok (show c + 1 < 2 ^ 64 by omega), lift_bind, if_false]
    · refine skip ?_ ?_
      · simp [visitDir, hw0, subW_ok (show 1 ≤ w by omega), show c % w = w - 1 by omega]
      · simp only [countedVisitDir, hw0, subW_ok (show 1 ≤ w by omega), show c % w = w - 1 by omega, lift_bind, if_true,
          if_false]
  | Down =>
    have hlim : w * (h - 1) < 2 ^ 64 := by
      have : w * (h - 1) ≤ w * h := Nat.mul_le_mul_left _ (by omega)
      omega
    by_cases hm : c + w < w * h
    · have := (lt_mul_pred hh).mp hm
      refine fin (m := c + w) (openOk_down hI hm) ?_ ?_
      · simp [visitDir, subW_ok (show 1 ≤ h by omega), mulW_ok hlim, show ¬ w * (h - 1) ≤ c by omega,
          addW_ok (show c + w < 2 ^ 64 by omega)]
      · simp only [countedVisitDir, subW_ok (show 1 ≤ h by omega), mulW_ok hlim, show ¬ c ≥ w * (h - 1) by omega,
          addW_ok (show c + w < 2 ^ 64 by omega), lift_bind, if_false]
    · have : w * (h - 1) ≤ c := Nat.not_lt.mp fun x => hm ((lt_mul_pred hh).mpr x)
      refine skip ?_ ?_
      · simp [visitDir, subW_ok (show 1 ≤ h by omega), mulW_ok hlim, this]
      · simp only [countedVisitDir, subW_ok (show 1 ≤ h by omega), mulW_ok hlim, ge_iff_le, this, lift_bind, if_true]
  | Left =>
    by_cases hm : 0 < c % w
    · have hc1 : 1 ≤ c := by
        rcases Nat.eq_zero_or_pos c with h0 | h0
        · rw [h0] at hm; simp at hm
        · exact h0
      refine fin (m := c - 1) ?_ ?_ ?_ (o := c - 1)
        (opn := fun n => { n with right := false })
      · have := openOk_right hI (show c - 1 < w * h by omega) (mod_pred hw hm)
        rw [Nat.sub_add_cancel hc1] at this
        exact this.symm
      · simp [visitDir, hw0, show c % w ≠ 0 by omega, subW_ok hc1]
      · simp only [countedVisitDir, hw0, show c % w ≠ 0 by omega, subW_ok hc1, lift_bind, if_false]
    · refine skip ?_ ?_
      · simp [visitDir, hw0, show c % w = 0 by omega]
      · simp only [countedVisitDir, hw0, show c % w = 0 by omega, if_true, if_false]
  | Up =>
    by_cases hm : w ≤ c
    · refine fin (m := c - w) ?_ ?_ ?_ (o := c - w)
        (opn := fun n => { n with down := false })
      · have := openOk_down hI (c := c - w) (show c - w + w < w * h by omega)
        rw [Nat.sub_add_cancel hm] at this
        exact this.symm
      · simp [visitDir, show ¬ c < w by omega, subW_ok hm]
      · simp only [countedVisitDir, show ¬ c < w by omega, subW_ok hm, lift_bind, if_false]
    · refine skip ?_ ?_
      · simp [visitDir, show c < w by omega]
      · simp only [countedVisitDir, show c < w by omega, if_true]

/-- `visit_next`: at most eleven steps for each draw, ten for an opened wall and one for the end. -/
theorem visitNext_cost {oc : Bool} {rnd : Nat → Nat} {s : VState} {c p : Nat} (hw : 0 < w) (hh : 0 < h)
    (hn : w * h < 2 ^ 63) (hI : MInv w h s.maze s.conn) (hP : Pot (w * h) s.conn p) (hc : c < w * h) :
    Pays (visitNext oc rnd c w h s) (countedVisitNext oc rnd c w h s) fun r t =>
      ∃ p', Pot (w * h) r.2.conn p' ∧
        t + p' + 11 * s.k ≤ p + 11 * r.2.k + 1 + (if r.1.isSome then 10 else 0) := by
  have key := Pays.loop (body := visitBody oc rnd c w h) (body' := countedVisitBody oc rnd c w h)
    (I := fun t n => MInv w h t.maze t.conn ∧ ∃ p', Pot (w * h) t.conn p' ∧ n + p' + 11 * s.k ≤ p + 11 * t.k)
    (μ := fun t => t.visitable.length)
    (Q := fun r n => ∃ p', Pot (w * h) r.2.conn p' ∧
        n + p' + 11 * s.k ≤ p + 11 * r.2.k + 1 + (if r.1.isSome then 10 else 0)) ?_ s 0
    ⟨hI, p, hP, by omega⟩
  · exact key.mono fun r t ht => by simpa using ht
  · rintro ⟨g, conn, vis, k⟩ n ⟨hI, p', hP', hle⟩
    simp only at hI hP' hle
    unfold countedVisitBody
    refine Pays.tick ?_
    cases hvis : vis with
    | nil =>
      refine ⟨.inr (none, ⟨g, conn, [], k⟩), 0, by simp [visitBody], by simp; rfl, p', hP', by simp; omega⟩
    | cons v0 vs =>
      rw [← hvis]
      have hne : vis ≠ [] := by rw [hvis]; simp
      obtain ⟨hi, vis', h1, hp⟩ := chooseRandom_spec (rnd k) hne
      generalize hd' : vis[rnd k % vis.length] = d at h1 hp
      have hlen := hp.length_eq
      simp at hlen
      have hem : vis.isEmpty = false := by rw [hvis]; rfl
      have hbody : visitBody oc rnd c w h ⟨g, conn, vis, k⟩ =
          visitDir oc c w h ⟨g, conn, vis', k + 1⟩ d := by
        simp [visitBody, hem, h1]
      rw [hbody]
      have hb' : (if vis.isEmpty = true then pure (.inr (none, ⟨g, conn, vis, k⟩)) else do
          let (d, visitable) ← (liftM (chooseRandom (rnd k) vis) : Counted _)
          let d ← liftM (expectP d)
          countedVisitDir oc c w h ⟨g, conn, visitable, k + 1⟩ d : Counted (VState ⊕ (Option Nat × VState))) =
          countedVisitDir oc c w h ⟨g, conn, vis', k + 1⟩ d := by
        rw [if_neg (by simp [hem]), h1, lift_bind]
        simp only [expectP]
        rw [lift_bind]
      simp only
      rw [hb']
      have hspec := visitDir_spec (oc := oc) (s := ⟨g, conn, vis', k + 1⟩) hw hh hn hI hc d
      obtain ⟨r, t, e1, e2, h3⟩ := visitDir_cost (oc := oc) (s := ⟨g, conn, vis', k + 1⟩) hw hh hn hI hP' hc d
      refine ⟨r, t, e1, e2, ?_⟩
      cases r with
      | inl s' =>
        obtain ⟨hv, hk, q, hq, hle'⟩ := h3
        simp only at hv hk
        refine ⟨⟨?_, q, hq, by rw [hk]; omega⟩, by simp only [hv]; omega⟩
        rcases hspec with ⟨conn', e, hI', _⟩ | ⟨m, g', conn', _, _, e, _⟩
        · rw [e1] at e
          simp at e
          rw [e]; exact hI'
        · rw [e1] at e
          simp at e
      | inr r =>
        obtain ⟨r, s'⟩ := r
        obtain ⟨hv, hk, ⟨m, rfl⟩, q, hq, hle'⟩ := h3
        simp only at hv hk
        exact ⟨q, hq, by simp [hk]; omega⟩

/-- One turn of `recursive_backtrack`. -/
theorem turn_cost {oc : Bool} {rnd : Nat → Nat} {s s' : RState} {p : Nat} (hw : 0 < w) (hh : 0 < h)
    (hn : w * h < 2 ^ 63) (hI : OInv w h s) (hP : Pot (w * h) s.conn p) (e : backtrackBody oc rnd w h s = .ok (.inl s')) :
    ∃ u p', countedBacktrackBody oc rnd w h s = Prog.ok (.inl s', u) ∧ Pot (w * h) s'.conn p' ∧
      u + p' + 11 * s.k + 5 * s.path.length ≤ p + 11 * s'.k + 7 + 5 * s'.path.length := by
  obtain ⟨g, conn, path, cv, k⟩ := s
  cases path with
  | nil => simp [backtrackBody] at e
  | cons c rest =>
    have hc : c < w * h := (hI.path c (by simp)).choose_spec.choose
    have hc' : c < cv.length := hI.cvlen ▸ hc
    obtain ⟨⟨r, v⟩, t, e1, e2, p', hP', hle⟩ := visitNext_cost (oc := oc) (rnd := rnd) (s := ⟨g, conn, cv[c], k⟩) hw hh hn
      hI.minv hP hc
    simp only at hP' hle
    simp only [backtrackBody, getP_ok hc', setP_ok hc', Prog.ok_bind, e1] at e
    simp only [countedBacktrackBody, getP_ok hc', setP_ok hc', lift_bind, e2, ok_bind]
    cases r with
    | some m =>
      simp at e
      subst e
      exact ⟨1 + (t + 0), p', rfl, hP', by simp at hle ⊢; omega⟩
    | none =>
      simp at e
      subst e
      exact ⟨1 + (t + 0), p', rfl, hP', by simp at hle ⊢; omega⟩

theorem backtrack_cost (oc : Bool) (rnd : Nat → Nat) (hw : 0 < w) (hh : 0 < h) (hn : w * h * 24 < 2 ^ 63) :
    Pays (recursiveBacktrack oc rnd w h) (countedBacktrack oc rnd w h) fun _ t => t + 11 ≤ 68 * (w * h) := by
  have hpos : 0 < w * h := Nat.mul_pos hw hh
  obtain ⟨s', r, hp, hk⟩ := recursiveBacktrack_runs oc rnd hw hh hn
  have he : backtrackBody oc rnd w h s' = .ok (.inr s'.maze) := by simp [backtrackBody, hp]
  obtain ⟨rep, hE⟩ := DisjointSet.Cost.init_exact (w * h)
  have hP0 : Pot (w * h) (initState w h).conn (3 * (w * h)) :=
    ⟨by simp [initState], rep, _, hE, Nat.le_of_eq (DisjointSet.Cost.init_phi (w * h))⟩
  have key := Pays.runs (body := backtrackBody oc rnd w h) (body' := countedBacktrackBody oc rnd w h)
    (I := fun s n t => OInv w h s ∧ ∃ p, Pot (w * h) s.conn p ∧
      t + p + 5 ≤ 3 * (w * h) + 11 * s.k + 7 * n + 5 * s.path.length)
    (Q := fun _ t => t + 11 ≤ 61 * (w * h)) ?_ r 0 0
    ⟨init_oinv hpos, _, hP0, by simp [initState]⟩ he ?_
  · unfold recursiveBacktrack countedBacktrack
    rw [mulW_ok (show w * h < 2 ^ 64 by omega)]
    simp only [Prog.ok_bind, vecRepeat, DisjointSet.withSize, show w * h * 2 < 2 ^ 63 by omega,
      show w * h * 16 < 2 ^ 63 by omega, hn, if_true, lift_bind]
    refine Pays.tick (Pays.tick (Pays.tick ?_))
    erw [lift_bind]
    exact key.mono fun _ t ht => by omega
  · rintro n s s1 t ⟨hO, p, hP, hle⟩ e
    obtain ⟨u, p', h1, h2, h3⟩ := turn_cost hw hh (by omega) hO hP e
    refine ⟨u, h1, ?_, p', h2, by omega⟩
    rcases backtrackBody_spec (oc := oc) (rnd := rnd) hw hh (by omega) hO (R.refl hpos) with ⟨s2, e', hO', _⟩ | ⟨g, e', _⟩
    · rw [e] at e'
      obtain rfl : s1 = s2 := by simpa using e'
      exact hO'
    · rw [e] at e'; simp at e'
  · rintro t ⟨_, p, _, hle⟩
    refine ⟨1, by simp only [countedBacktrackBody, hp]; rfl, ?_⟩
    rw [hk, hp] at hle
    simp at hle
    omega

end Maze.Cost
