import Verif.Proofs.Maze.Graph
import Mathlib.Data.List.Perm.Basic

/-! Helper lemmas: `choose_random`, `visit_next`, `recursive_backtrack`. -/
namespace Maze
open Spec

variable {w h : Nat}

/-! ### choose_random -/

theorem swapRemove_perm {α : Type} {v : List α} {i : Nat} (hi : i < v.length) :
    ∃ v', swapRemove v i = .ok (v[i], v') ∧ (v[i] :: v').Perm v := by
  have hne : v ≠ [] := by rintro rfl; simp at hi
  refine ⟨(v.set i (v.getLast hne)).dropLast, ?_, ?_⟩
  · simp [swapRemove, getP_ok hi, List.getLast?_eq_some_getLast hne]
  · have hv := List.dropLast_append_getLast hne
    generalize v.getLast hne = l at *
    generalize v.dropLast = p at *
    subst hv
    by_cases h : i < p.length
    · have h1 : (p ++ [l]).set i l = p.set i l ++ [l] := by rw [List.set_append_left _ _ h]
      rw [h1, List.dropLast_concat, List.getElem_append_left h]
      refine ((List.set_perm_cons_eraseIdx h l).cons _).trans ?_
      refine (List.Perm.swap ..).trans ?_
      refine ((List.getElem_cons_eraseIdx_perm h).cons l).trans ?_
      exact (List.perm_append_singleton l p).symm
    · have : i = p.length := by simp at hi; omega
      subst this
      simpa using (List.perm_append_singleton l p).symm

theorem chooseRandom_nil {α : Type} (draw : Nat) : chooseRandom draw ([] : List α) = .ok (none, []) := rfl

theorem chooseRandom_spec {α : Type} (draw : Nat) {v : List α} (hv : v ≠ []) :
    ∃ (hi : draw % v.length < v.length) (v' : List α),
      chooseRandom draw v = .ok (some v[draw % v.length], v') ∧ (v[draw % v.length] :: v').Perm v := by
  have hl : 0 < v.length := List.length_pos_of_ne_nil hv
  have hi := Nat.mod_lt draw hl
  obtain ⟨v', h1, h2⟩ := swapRemove_perm hi
  refine ⟨hi, v', ?_, h2⟩
  have : v.length ≠ 0 := by omega
  simp [chooseRandom, chooseIdx, this, h1]

/-! ### The walls and the disjoint set describe the same maze -/

structure MInv (w h : Nat) (g : List MazeNode) (conn : DisjointSet.DSU) : Prop where
  len : g.length = w * h
  clen : conn.length = w * h
  conn : ∃ rep rank, DisjointSet.Inv conn rep rank ∧
    ∀ a b, a < w * h → b < w * h → (rep a = rep b ↔ R w h g a b)
  acyclic : (graph w h g).IsAcyclic
  borderR : ∀ c, rightOpen g c = true → c % w + 1 < w
  borderD : ∀ c, downOpen g c = true → c + w < w * h

/-- Opening a wall between two cells that are not yet connected. -/
structure OpenOk (w h : Nat) (g : List MazeNode) (c m o : Nat) (opn : MazeNode → MazeNode) : Prop where
  ho : o < g.length
  opens : Opens w h g (g.set o (opn g[o])) c m
  borderR : ∀ c, rightOpen (g.set o (opn g[o])) c = true → c % w + 1 < w
  borderD : ∀ c, downOpen (g.set o (opn g[o])) c = true → c + w < w * h

theorem tryOpen_spec {s : VState} {c m o : Nat} {opn} (hI : MInv w h s.maze s.conn)
    (hO : OpenOk w h s.maze c m o opn) :
    (R w h s.maze c m ∧ ∃ conn', tryOpen s c m o opn = .ok (.inl { s with conn := conn' }) ∧
      MInv w h s.maze conn') ∨
    (¬ R w h s.maze c m ∧ ∃ g' conn', tryOpen s c m o opn =
        .ok (.inr (some m, { s with maze := g', conn := conn' })) ∧
      MInv w h g' conn' ∧ Opens w h s.maze g' c m) := by
  obtain ⟨ho, hop, hbR, hbD⟩ := hO
  have hc := hop.ha
  have hm := hop.hb
  obtain ⟨rep, rank, hD, hrep⟩ := hI.conn
  obtain ⟨conn1, h1, hD1, hc1⟩ := DisjointSet.commonSet_spec hD (hI.clen ▸ hc) (hI.clen ▸ hm)
  have l1 : conn1.length = w * h := hc1.len.trans hI.clen
  by_cases hr : R w h s.maze c m
  · left
    refine ⟨hr, conn1, ?_, hI.len, l1, ⟨rep, rank, hD1, hrep⟩, hI.acyclic, hI.borderR, hI.borderD⟩
    have : rep c = rep m := (hrep c m hc hm).mpr hr
    simp [tryOpen, h1, this]
  · right
    have hne : rep c ≠ rep m := fun e => hr ((hrep c m hc hm).mp e)
    obtain ⟨conn2, r, rep', rank', h2, hD2, l2, hcase⟩ :=
      DisjointSet.union_spec hD1 (l1 ▸ hc : c < conn1.length) (l1 ▸ hm : m < conn1.length)
    refine ⟨hr, s.maze.set o (opn s.maze[o]), conn2, ?_, ?_, hop⟩
    · simp [tryOpen, h1, hne, getP_ok ho, setP_ok ho, h2]
    · refine ⟨by simp [hI.len], l2.trans l1, ⟨rep', rank', hD2, ?_⟩, ?_, hbR, hbD⟩
      · intro a b ha hb
        rw [hop.reach, ← hrep a b ha hb]
        have e1 := hrep a c ha hc
        have e2 := hrep a m ha hm
        have e3 := hrep m b hm hb
        have e4 := hrep c b hc hb
        rw [← e1, ← e2, ← e3, ← e4]
        rcases hcase with ⟨he, _⟩ | ⟨_, ⟨_, rfl⟩ | ⟨_, rfl⟩⟩
        · exact absurd he hne
        · grind
        · grind
      · rw [hop.eq]
        refine SimpleGraph.IsAcyclic.sup_edge_of_not_reachable ?_ hI.acyclic
        intro hreach
        exact hr ⟨hc, hm, hreach⟩

theorem lt_mul_pred {c : Nat} (hh : 0 < h) : c + w < w * h ↔ c < w * (h - 1) := by
  obtain ⟨k, rfl⟩ : ∃ k, h = k + 1 := ⟨h - 1, by omega⟩
  rw [Nat.mul_succ, Nat.add_sub_cancel]; omega

theorem mod_pred {c : Nat} (hw : 0 < w) (hm : 0 < c % w) : (c - 1) % w + 1 < w := by
  have h1 := Nat.div_add_mod c w
  have h2 := Nat.mod_lt c hw
  have h3 : c - 1 = w * (c / w) + (c % w - 1) := by omega
  rw [h3, Nat.mul_add_mod, Nat.mod_eq_of_lt (by omega)]
  omega

theorem openOk_right {g : List MazeNode} {conn} (hI : MInv w h g conn) {c : Nat} (hc : c < w * h)
    (hm : c % w + 1 < w) : OpenOk w h g c (c + 1) c (fun n => { n with right := false }) := by
  have hc' : c < g.length := hI.len ▸ hc
  refine ⟨hc', opens_right hI.len hc hm, ?_, ?_⟩
  · intro x hx
    rw [rightOpen_set_right hc'] at hx
    simp at hx
    rcases hx with hx | rfl
    · exact hI.borderR x hx
    · exact hm
  · intro x hx
    rw [downOpen_set_right hc'] at hx
    exact hI.borderD x hx

theorem openOk_down {g : List MazeNode} {conn} (hI : MInv w h g conn) {c : Nat}
    (hm : c + w < w * h) : OpenOk w h g c (c + w) c (fun n => { n with down := false }) := by
  have hc : c < w * h := by omega
  have hc' : c < g.length := hI.len ▸ hc
  refine ⟨hc', opens_down hI.len hc hm, ?_, ?_⟩
  · intro x hx
    rw [rightOpen_set_down hc'] at hx
    exact hI.borderR x hx
  · intro x hx
    rw [downOpen_set_down hc'] at hx
    simp at hx
    rcases hx with hx | rfl
    · exact hI.borderD x hx
    · exact hm

theorem OpenOk.symm {g : List MazeNode} {c m o opn} (H : OpenOk w h g c m o opn) : OpenOk w h g m c o opn :=
  ⟨H.ho, H.opens.symm, H.borderR, H.borderD⟩

/-- The possible outcomes of trying one direction. -/
def DirOk (w h : Nat) (oc : Bool) (s : VState) (c : Nat) (d : MazeDirection) : Prop :=
  (∃ conn', visitDir oc c w h s d = .ok (.inl { s with conn := conn' }) ∧ MInv w h s.maze conn' ∧
      ∀ m, nbr w h c d = some m → R w h s.maze c m) ∨
    (∃ m g' conn', nbr w h c d = some m ∧ ¬ R w h s.maze c m ∧
      visitDir oc c w h s d = .ok (.inr (some m, { s with maze := g', conn := conn' })) ∧
      MInv w h g' conn' ∧ Opens w h s.maze g' c m)

theorem visitDir_spec {oc : Bool} {s : VState} {c : Nat} (hw : 0 < w) (hh : 0 < h)
    (hn : w * h < 2 ^ 63) (hI : MInv w h s.maze s.conn) (hc : c < w * h) (d : MazeDirection) :
    DirOk w h oc s c d := by
  have hw0 : w ≠ 0 := by omega
  have fin : ∀ {m o opn}, nbr w h c d = some m → OpenOk w h s.maze c m o opn →
      visitDir oc c w h s d = tryOpen s c m o opn → DirOk w h oc s c d := fun {m o opn} hnb hO he => by
    rcases tryOpen_spec hI hO with ⟨hr, conn', e, hI'⟩ | ⟨hr, g', conn', e, hI', hop⟩
    · left
      refine ⟨conn', he.trans e, hI', ?_⟩
      intro m' hm'
      rw [hnb] at hm'; obtain rfl := Option.some.inj hm'
      exact hr
    · right
      exact ⟨m, g', conn', hnb, hr, he.trans e, hI', hop⟩
  have skip : nbr w h c d = none → visitDir oc c w h s d = .ok (.inl s) → DirOk w h oc s c d := fun hnb he => by
    left
    exact ⟨s.conn, he, hI, fun m hm => by rw [hnb] at hm; cases hm⟩
  cases d with
  | Right =>
    have hml := Nat.mod_lt c hw
    by_cases hm : c % w + 1 < w
    · refine fin (m := c + 1) (by simp [nbr, hm]) (openOk_right hI hc hm) ?_
      simp [visitDir, hw0, subW_ok (show 1 ≤ w by omega), show c % w ≠ w - 1 by omega,
        addW_ok (show c + 1 < 2 ^ 64 by omega)]
    · refine skip (by simp [nbr, hm]) ?_
      simp [visitDir, hw0, subW_ok (show 1 ≤ w by omega), show c % w = w - 1 by omega]
  | Down =>
    have hlim : w * (h - 1) < 2 ^ 64 := by
      have : w * (h - 1) ≤ w * h := Nat.mul_le_mul_left _ (by omega)
      omega
    by_cases hm : c + w < w * h
    · refine fin (m := c + w) (by simp [nbr, hm]) (openOk_down hI hm) ?_
      have := (lt_mul_pred hh).mp hm
      simp [visitDir, subW_ok (show 1 ≤ h by omega), mulW_ok hlim, show ¬ w * (h - 1) ≤ c by omega,
        addW_ok (show c + w < 2 ^ 64 by omega)]
    · refine skip (by simp [nbr, hm]) ?_
      have : w * (h - 1) ≤ c := Nat.not_lt.mp fun x => hm ((lt_mul_pred hh).mpr x)
      simp [visitDir, subW_ok (show 1 ≤ h by omega), mulW_ok hlim, this]
  | Left =>
    by_cases hm : 0 < c % w
    · have hc1 : 1 ≤ c := by
        rcases Nat.eq_zero_or_pos c with h0 | h0
        · rw [h0] at hm; simp at hm
        · exact h0
      refine fin (m := c - 1) (by simp [nbr, hm]) ?_ ?_ (o := c - 1)
        (opn := fun n => { n with right := false })
      · have := openOk_right hI (show c - 1 < w * h by omega) (mod_pred hw hm)
        rw [Nat.sub_add_cancel hc1] at this
        exact this.symm
      · simp [visitDir, hw0, show c % w ≠ 0 by omega, subW_ok hc1]
    · refine skip (by simp [nbr, hm]) ?_
      simp [visitDir, hw0, show c % w = 0 by omega]
  | Up =>
    by_cases hm : w ≤ c
    · refine fin (m := c - w) (by simp [nbr, hm]) ?_ ?_ (o := c - w)
        (opn := fun n => { n with down := false })
      · have := openOk_down hI (c := c - w) (show c - w + w < w * h by omega)
        rw [Nat.sub_add_cancel hm] at this
        exact this.symm
      · simp [visitDir, show ¬ c < w by omega, subW_ok hm]
    · refine skip (by simp [nbr, hm]) ?_
      simp [visitDir, show c < w by omega]

/-- Every direction no longer to be tried leads to a connected cell. -/
def Done (w h : Nat) (g : List MazeNode) (c : Nat) (v : List MazeDirection) : Prop :=
  ∀ d, d ∉ v → ∀ m, nbr w h c d = some m → R w h g c m

theorem Opens.mono {g g' a b} (H : Opens w h g g' a b) {x y} (hr : R w h g x y) : R w h g' x y :=
  (H.reach x y).mpr (.inl hr)

theorem visitNext_spec {oc : Bool} {rnd : Nat → Nat} {s : VState} {c : Nat} (hw : 0 < w) (hh : 0 < h)
    (hn : w * h < 2 ^ 63) (hI : MInv w h s.maze s.conn) (hc : c < w * h)
    (hd : Done w h s.maze c s.visitable) :
    ∃ r v, visitNext oc rnd c w h s = .ok (r, v) ∧ MInv w h v.maze v.conn ∧
      Done w h v.maze c v.visitable ∧
      ((r = none ∧ v.maze = s.maze ∧ v.visitable = []) ∨
       (∃ m, r = some m ∧ ¬ R w h s.maze c m ∧ Opens w h s.maze v.maze c m ∧
          v.visitable.length < s.visitable.length ∧ ∃ d, nbr w h c d = some m)) ∧
      v.k + v.visitable.length = s.k + s.visitable.length := by
  have key := loop_spec (body := visitBody oc rnd c w h)
    (fun t => t.maze = s.maze ∧ MInv w h t.maze t.conn ∧ Done w h t.maze c t.visitable ∧
      t.visitable.length ≤ s.visitable.length ∧ t.k + t.visitable.length = s.k + s.visitable.length)
    (fun t => t.visitable.length)
    (fun p => MInv w h p.2.maze p.2.conn ∧
      Done w h p.2.maze c p.2.visitable ∧
      ((p.1 = none ∧ p.2.maze = s.maze ∧ p.2.visitable = []) ∨
       (∃ m, p.1 = some m ∧ ¬ R w h s.maze c m ∧ Opens w h s.maze p.2.maze c m ∧
          p.2.visitable.length < s.visitable.length ∧ ∃ d, nbr w h c d = some m)) ∧
      p.2.k + p.2.visitable.length = s.k + s.visitable.length)
    ?_ s ⟨rfl, hI, hd, Nat.le_refl _, rfl⟩
  · obtain ⟨⟨r, v⟩, h1, h2, h3, h4⟩ := key
    exact ⟨r, v, h1, h2, h3, h4⟩
  · rintro ⟨g, conn, vis, k⟩ ⟨hg, hI, hd, hl, hk⟩
    simp only at hg hI hd hl hk
    subst hg
    cases hvis : vis with
    | nil =>
      right
      subst hvis
      exact ⟨(none, ⟨_, conn, [], k⟩), by simp [visitBody], hI, hd, .inl ⟨rfl, rfl, rfl⟩, hk⟩
    | cons v0 vs =>
      rw [← hvis]
      have hne : vis ≠ [] := by rw [hvis]; simp
      obtain ⟨hi, vis', h1, hp⟩ := chooseRandom_spec (rnd k) hne
      generalize hd' : vis[rnd k % vis.length] = d at h1 hp
      have hlen := hp.length_eq
      simp at hlen
      have hbody : visitBody oc rnd c w h ⟨s.maze, conn, vis, k⟩ =
          visitDir oc c w h ⟨s.maze, conn, vis', k + 1⟩ d := by
        have : vis.isEmpty = false := by rw [hvis]; rfl
        simp [visitBody, this, h1]
      have hdone : ∀ d', d' ∉ vis' → d' ≠ d → ∀ m, nbr w h c d' = some m → R w h s.maze c m := by
        intro d' h1 h2 m hm
        refine hd d' ?_ m hm
        intro hmem
        rcases List.mem_cons.mp (hp.mem_iff.mpr hmem) with h | h
        · exact h2 h
        · exact h1 h
      rw [hbody]
      rcases visitDir_spec (oc := oc) (s := ⟨s.maze, conn, vis', k + 1⟩) hw hh hn hI hc d with
        ⟨conn', e, hI', hr⟩ | ⟨m, g', conn', hnb, hr, e, hI', hop⟩
      · left
        refine ⟨_, e, ⟨rfl, hI', ?_, by simp only; omega, by simp only; omega⟩, by simp only; omega⟩
        intro d' hd' m hm
        by_cases hdd : d' = d
        · subst hdd; exact hr m hm
        · exact hdone d' hd' hdd m hm
      · right
        refine ⟨_, e, hI', ?_, .inr ⟨m, rfl, hr, hop, by simp only; omega, d, hnb⟩, by simp only; omega⟩
        intro d' hd' m' hm'
        by_cases hdd : d' = d
        · subst hdd
          rw [hnb] at hm'; obtain rfl := Option.some.inj hm'
          exact (hop.reach ..).mpr (.inr (.inl ⟨R.refl hop.ha, R.refl hop.hb⟩))
        · exact hop.mono (hdone d' hd' hdd m' hm')

/-! ### The outer loop -/

structure OInv (w h : Nat) (s : RState) : Prop where
  minv : MInv w h s.maze s.conn
  cvlen : s.canVisit.length = w * h
  done : ∀ c v, s.canVisit[c]? = some v → Done w h s.maze c v
  path : ∀ p ∈ s.path, R w h s.maze 0 p
  iso : ∀ a b, R w h s.maze a b → a = b ∨ R w h s.maze 0 a
  closed : ∀ c, R w h s.maze 0 c → c ∈ s.path ∨ s.canVisit[c]? = some []

def vsum (l : List (List MazeDirection)) : Nat := (l.map List.length).sum

theorem vsum_set (l : List (List MazeDirection)) (i : Nat) (v : List MazeDirection) (hi : i < l.length) :
    vsum (l.set i v) + l[i].length = vsum l + v.length := by
  induction l generalizing i with
  | nil => simp at hi
  | cons a l ih =>
    cases i with
    | zero => simp [vsum]; omega
    | succ i =>
      have := ih i (by simpa using hi)
      simp only [vsum, List.set_cons_succ, List.map_cons, List.sum_cons, List.getElem_cons_succ] at *
      omega

/-- What `recursive_backtrack` returns. -/
structure Perfect (w h : Nat) (g : List MazeNode) : Prop where
  len : g.length = w * h
  acyclic : (graph w h g).IsAcyclic
  borderR : ∀ c, rightOpen g c = true → c % w + 1 < w
  borderD : ∀ c, downOpen g c = true → c + w < w * h
  reach : ∀ c, c < w * h → R w h g 0 c

theorem backtrackBody_spec {oc : Bool} {rnd : Nat → Nat} {s : RState} (hw : 0 < w) (hh : 0 < h)
    (hn : w * h < 2 ^ 63) (hI : OInv w h s) (h0 : R w h s.maze 0 0) :
    (∃ s', backtrackBody oc rnd w h s = .ok (.inl s') ∧ OInv w h s' ∧
      2 * vsum s'.canVisit + s'.path.length < 2 * vsum s.canVisit + s.path.length) ∨
    (∃ g, backtrackBody oc rnd w h s = .ok (.inr g) ∧ Perfect w h g) := by
  obtain ⟨g, conn, path, cv, k⟩ := s
  obtain ⟨hM, hcv, hdone, hpath, hiso, hclosed⟩ := hI
  simp only at hM hcv hdone hpath hiso hclosed h0
  cases path with
  | nil =>
    right
    refine ⟨g, rfl, hM.len, hM.acyclic, hM.borderR, hM.borderD, ?_⟩
    intro c hc
    refine grid_connected hw ?_ hc
    intro c hr d m hm
    rcases hclosed c hr with h | h
    · simp at h
    · exact hr.trans (hdone c [] h d (by simp) m hm)
  | cons c rest =>
    left
    have hr0c := hpath c (by simp)
    have hc : c < w * h := hr0c.choose_spec.choose
    have hc' : c < cv.length := hcv ▸ hc
    obtain ⟨r, v, hv, hM', hD', hcase, hk⟩ := visitNext_spec (oc := oc) (rnd := rnd)
      (s := ⟨g, conn, cv[c], k⟩) hw hh hn hM hc (hdone c _ (List.getElem?_eq_getElem hc'))
    simp only at hcase
    have hsum := vsum_set cv c v.visitable hc'
    rcases hcase with ⟨rfl, hg, hnil⟩ | ⟨m, rfl, hnr, hop, hlt, _⟩
    · refine ⟨⟨v.maze, v.conn, rest, cv.set c v.visitable, v.k⟩, ?_, ⟨hM', ?_, ?_, ?_, ?_, ?_⟩, ?_⟩
      · simp [backtrackBody, getP_ok hc', hv, setP_ok hc']
      · simpa using hcv
      · intro c' v' h'
        simp only [List.getElem?_set] at h'
        split at h'
        · next e =>
          subst e
          simp at h'
          rw [← h']; exact hD'
        · simp only [hg]; exact hdone c' v' h'
      · intro p hp
        simp only at hp
        simp only [hg]
        exact hpath p (by simp [hp])
      · intro a b hab
        simp only [hg] at hab ⊢
        exact hiso a b hab
      · intro c' hr
        simp only [hg] at hr ⊢
        by_cases e : c' = c
        · subst e; right; simp [hc', hnil]
        · rcases hclosed c' hr with h | h
          · rcases List.mem_cons.mp h with h | h
            · exact absurd h e
            · exact .inl h
          · right; simp [Ne.symm e, h]
      · simp only [List.length_cons]
        rw [hnil] at hsum ⊢
        simp at hsum
        omega
    · have hm := hop.hb
      have hisoM : ∀ x, R w h g x m → x = m := by
        intro x hx
        rcases hiso m x hx.symm with h | h
        · exact h.symm
        · exact absurd (hr0c.symm.trans h) hnr
      refine ⟨⟨v.maze, v.conn, m :: c :: rest, cv.set c v.visitable, v.k⟩, ?_,
        ⟨hM', ?_, ?_, ?_, ?_, ?_⟩, ?_⟩
      · simp [backtrackBody, getP_ok hc', hv, setP_ok hc']
      · simpa using hcv
      · intro c' v' h'
        simp only [List.getElem?_set] at h'
        split at h'
        · next e =>
          subst e
          simp at h'
          rw [← h']; exact hD'
        · intro d hd m' hm'
          exact hop.mono (hdone c' v' h' d hd m' hm')
      · intro p hp
        simp only at hp
        rcases List.mem_cons.mp hp with rfl | hp
        · exact (hop.reach ..).mpr (.inr (.inl ⟨hr0c, R.refl hm⟩))
        · exact hop.mono (hpath p hp)
      · intro a b hab
        rcases (hop.reach ..).mp hab with h | ⟨h, _⟩ | ⟨h, _⟩
        · rcases hiso a b h with e | e
          · exact .inl e
          · exact .inr (hop.mono e)
        · exact .inr (hop.mono (hr0c.trans h.symm))
        · obtain rfl := hisoM a h
          exact .inr ((hop.reach ..).mpr (.inr (.inl ⟨hr0c, R.refl hm⟩)))
      · intro c' hr
        have old : R w h g 0 c' → c' ∈ m :: c :: rest ∨ (cv.set c v.visitable)[c']? = some [] := by
          intro hr
          by_cases e : c' = c
          · subst e; left; simp
          · rcases hclosed c' hr with h | h
            · left; exact List.mem_cons_of_mem _ h
            · right; simp [Ne.symm e, h]
        rcases (hop.reach ..).mp hr with h | ⟨_, h⟩ | ⟨h, h'⟩
        · exact old h
        · left; rw [hisoM c' h.symm]; simp
        · exact absurd (hr0c.symm.trans h) hnr
      · simp only [List.length_cons]
        omega

theorem init_inv (n : Nat) :
    DisjointSet.Inv (List.replicate n DisjointSet.Element.new) (fun i => i) (fun _ => 0) := by
  refine ⟨?_, ?_, ?_, ?_⟩
  · intro i e hi he
    simp [List.getElem?_replicate] at hi
    rw [← hi.2] at he; simp [DisjointSet.Element.new] at he
  · intro i e hi he
    simp [List.getElem?_replicate] at hi
    rw [← hi.2]
    simp [DisjointSet.Element.new, DisjointSet.cnt_id n i hi.1]
  · intro i hi
    simp at hi
    exact ⟨.new, by simp [hi], rfl⟩
  · intro i hi; simp

theorem rightOpen_new (n c : Nat) : rightOpen (List.replicate n MazeNode.new) c = false := by
  unfold rightOpen
  rw [List.getElem?_replicate]; split <;> rfl

theorem downOpen_new (n c : Nat) : downOpen (List.replicate n MazeNode.new) c = false := by
  unfold downOpen
  rw [List.getElem?_replicate]; split <;> rfl

theorem graph_new (w h n : Nat) : graph w h (List.replicate n MazeNode.new) = ⊥ := by
  ext a b
  simp [graph, Passage, rightOpen_new, downOpen_new]

theorem R_bot {a b : Nat} {g : List MazeNode} (hg : graph w h g = ⊥) : R w h g a b → a = b := by
  rintro ⟨ha, hb, h⟩
  rw [hg, SimpleGraph.reachable_bot] at h
  simpa using h

theorem recursiveBacktrack_spec (oc : Bool) (rnd : Nat → Nat) (hw : 0 < w) (hh : 0 < h)
    (hn : w * h * 24 < 2 ^ 63) : ∃ g, recursiveBacktrack oc rnd w h = .ok g ∧ Perfect w h g := by
  have hpos : 0 < w * h := Nat.mul_pos hw hh
  have hn' : w * h < 2 ^ 63 := by omega
  unfold recursiveBacktrack
  rw [mulW_ok (show w * h < 2 ^ 64 by omega)]
  simp only [Prog.ok_bind, vecRepeat, DisjointSet.withSize, show w * h * 2 < 2 ^ 63 by omega,
    show w * h * 16 < 2 ^ 63 by omega, hn, if_true]
  refine loop_spec (fun s => OInv w h s ∧ R w h s.maze 0 0)
    (fun s => 2 * vsum s.canVisit + s.path.length) (Perfect w h) ?_ _ ?_
  · rintro s ⟨hI, h0⟩
    rcases backtrackBody_spec (oc := oc) (rnd := rnd) hw hh hn' hI h0 with ⟨s', e, hI', hm⟩ | ⟨g, e, hP⟩
    · exact .inl ⟨s', e, ⟨hI', R.refl hpos⟩, hm⟩
    · exact .inr ⟨g, e, hP⟩
  · have hb := graph_new w h (w * h)
    refine ⟨⟨⟨by simp, by simp, ⟨_, _, init_inv _, ?_⟩, ?_, ?_, ?_⟩, by simp, ?_, ?_, ?_, ?_⟩, R.refl hpos⟩
    · intro a b ha hb'
      simp only
      constructor
      · rintro rfl; exact R.refl ha
      · exact R_bot hb
    · simp only; rw [hb]; exact SimpleGraph.isAcyclic_bot
    · intro c hc; simp [rightOpen_new] at hc
    · intro c hc; simp [downOpen_new] at hc
    · intro c v hv d hd
      simp [List.getElem?_replicate] at hv
      rw [← hv.2] at hd
      cases d <;> simp at hd
    · intro p hp
      simp at hp; subst hp; exact R.refl hpos
    · intro a b hab
      exact .inl (R_bot hb hab)
    · intro c hc
      left
      rw [← R_bot hb hc]; simp

/-- With no cells the first access to `can_visit` panics. -/
theorem recursiveBacktrack_zero (oc : Bool) (rnd : Nat → Nat) (hz : w * h = 0) :
    recursiveBacktrack oc rnd w h = .panic := by
  unfold recursiveBacktrack
  rw [mulW_ok (show w * h < 2 ^ 64 by omega), hz]
  simp only [Prog.ok_bind, vecRepeat, DisjointSet.withSize]
  simp only [Nat.zero_mul, Nat.pow_pos (show 0 < 2 by omega), if_true, Prog.ok_bind, List.replicate_zero]
  refine loop_panic ?_
  simp [backtrackBody, getP]

end Maze
