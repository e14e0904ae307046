import Verif.Proofs.Maze.Final

/-! Helper lemmas: `recursive_backtrack` makes a depth-first tree, and every one of them. -/
namespace Maze
open Spec

variable {w h : Nat}

/-! ### Routes -/

theorem OnRoute.self {g : List MazeNode} {a : Nat} (hr : R w h g 0 a) : OnRoute w h g a a := by
  classical
  obtain ⟨h0, ha, ⟨p⟩⟩ := hr
  exact ⟨h0, ha, ha, p.toPath.1, p.toPath.2, SimpleGraph.Walk.end_mem_support _⟩

theorem OnRoute.mono {g g' : List MazeNode} {a b : Nat} (hle : graph w h g ≤ graph w h g')
    (H : OnRoute w h g a b) : OnRoute w h g' a b := by
  obtain ⟨h0, ha, hb, p, hp, hm⟩ := H
  refine ⟨h0, ha, hb, p.mapLe hle, ?_, ?_⟩
  · exact (SimpleGraph.Walk.isPath_mapLe hle).mpr hp
  · rw [SimpleGraph.Walk.support_mapLe_eq_support]; exact hm

theorem OnRoute.reach {g : List MazeNode} {a b : Nat} (H : OnRoute w h g a b) : R w h g 0 a := by
  classical
  obtain ⟨h0, ha, hb, p, hp, hm⟩ := H
  exact ⟨h0, ha, ⟨p.takeUntil _ hm⟩⟩

/-- A route to `c` is prolonged by a passage to a cell not yet reached. -/
theorem OnRoute.step {g g' : List MazeNode} {a c m : Nat} (hop : Opens w h g g' c m)
    (hm : ¬ R w h g 0 m) (H : OnRoute w h g a c) : OnRoute w h g' a m := by
  classical
  obtain ⟨h0, ha, hb, p, hp, hmem⟩ := H
  have hle : graph w h g ≤ graph w h g' := by rw [hop.eq]; exact le_sup_left
  have hmp : (⟨m, hop.hb⟩ : Fin (w * h)) ∉ p.support := by
    intro hx
    exact hm ⟨h0, hop.hb, ⟨p.takeUntil _ hx⟩⟩
  have hne : c ≠ m := by
    rintro rfl
    exact hmp (SimpleGraph.Walk.end_mem_support _)
  have hadj : (graph w h g').Adj ⟨c, hb⟩ ⟨m, hop.hb⟩ := by
    rw [hop.eq, SimpleGraph.sup_adj, SimpleGraph.edge_adj]
    exact .inr ⟨.inl ⟨rfl, rfl⟩, by simpa using hne⟩
  refine ⟨h0, ha, hop.hb, (p.mapLe hle).concat hadj, ?_, ?_⟩
  · refine SimpleGraph.Walk.IsPath.concat ((SimpleGraph.Walk.isPath_mapLe hle).mpr hp) ?_ hadj
    rwa [SimpleGraph.Walk.support_mapLe_eq_support]
  · rw [SimpleGraph.Walk.support_concat, SimpleGraph.Walk.support_mapLe_eq_support]
    simp [hmem]

theorem Opens.le {g g' : List MazeNode} {a b : Nat} (H : Opens w h g g' a b) :
    graph w h g ≤ graph w h g' := by rw [H.eq]; exact le_sup_left

/-! ### One turn of the outer loop -/

/-- What one turn of the outer loop with `c` on top of the stack can do. -/
inductive Turn (w h : Nat) (s s' : RState) (c : Nat) (rest : List Nat) : Prop where
  | back (hmaze : s'.maze = s.maze) (hpath : s'.path = rest)
      (hfull : ∀ d m, nbr w h c d = some m → R w h s.maze c m)
  | go (m : Nat) (hpath : s'.path = m :: c :: rest) (hnr : ¬ R w h s.maze c m)
      (hop : Opens w h s.maze s'.maze c m) (hnb : ∃ d, nbr w h c d = some m)

theorem backtrackBody_turn {oc : Bool} {rnd : Nat → Nat} {s : RState} {c : Nat} {rest : List Nat}
    (hw : 0 < w) (hh : 0 < h) (hn : w * h < 2 ^ 63) (hI : OInv w h s) (h0 : R w h s.maze 0 0)
    (hp : s.path = c :: rest) :
    ∃ s', backtrackBody oc rnd w h s = .ok (.inl s') ∧ OInv w h s' ∧ Turn w h s s' c rest ∧
      2 * vsum s'.canVisit + s'.path.length < 2 * vsum s.canVisit + s.path.length ∧
      s'.k + vsum s'.canVisit = s.k + vsum s.canVisit := by
  have hI' := hI
  obtain ⟨g, conn, path, cv, k⟩ := s
  obtain ⟨hM, hcv, hdone, hpath, hiso, hclosed⟩ := hI
  simp only at hM hcv hdone hpath hiso hclosed h0 hp
  subst hp
  have hr0c := hpath c (by simp)
  have hc : c < w * h := hr0c.choose_spec.choose
  have hc' : c < cv.length := hcv ▸ hc
  obtain ⟨r, v, hv, hM', hD', hcase, hk⟩ := visitNext_spec (oc := oc) (rnd := rnd)
    (s := ⟨g, conn, cv[c], k⟩) hw hh hn hM hc (hdone c _ (List.getElem?_eq_getElem hc'))
  simp only at hcase hk
  have hsum := vsum_set cv c v.visitable hc'
  have hstep : ∃ s', backtrackBody oc rnd w h ⟨g, conn, c :: rest, cv, k⟩ = .ok (.inl s') ∧
      Turn w h ⟨g, conn, c :: rest, cv, k⟩ s' c rest ∧ s'.k + vsum s'.canVisit = k + vsum cv := by
    rcases hcase with ⟨rfl, hg, hnil⟩ | ⟨m, rfl, hnr, hop, hlt, hnb⟩
    · refine ⟨⟨v.maze, v.conn, rest, cv.set c v.visitable, v.k⟩, ?_, .back hg rfl ?_, ?_⟩
      · simp [backtrackBody, getP_ok hc', hv, setP_ok hc']
      · intro d m hm
        have := hD' d (by simp [hnil]) m hm
        rwa [hg] at this
      · simp only; omega
    · refine ⟨⟨v.maze, v.conn, m :: c :: rest, cv.set c v.visitable, v.k⟩, ?_, .go m rfl hnr hop hnb, ?_⟩
      · simp [backtrackBody, getP_ok hc', hv, setP_ok hc']
      · simp only; omega
  obtain ⟨s', e, hT, hkk⟩ := hstep
  rcases backtrackBody_spec (oc := oc) (rnd := rnd) hw hh hn hI' h0 with ⟨s'', e', hO, hm⟩ | ⟨g', e', _⟩
  · rw [e] at e'
    injection e' with e'
    injection e' with e'
    subst e'
    exact ⟨s', e, hO, hT, hm, hkk⟩
  · rw [e] at e'
    injection e' with e'
    cases e'

/-! ### The result is a depth-first tree -/

/-- Invariant: the stack is a route from cell 0, and neighbouring cells reached so far are comparable. -/
structure DInv (w h : Nat) (s : RState) : Prop where
  stack : s.path.Pairwise fun a b => OnRoute w h s.maze b a
  comp : ∀ a b d, R w h s.maze 0 a → R w h s.maze 0 b → nbr w h a d = some b →
    OnRoute w h s.maze a b ∨ OnRoute w h s.maze b a

theorem nbr_back {a b : Nat} {d : MazeDirection} (hw : 0 < w) (ha : a < w * h) (hd : nbr w h a d = some b) :
    ∃ d', nbr w h b d' = some a := by
  cases d with
  | Right =>
    simp only [nbr] at hd
    split at hd <;> simp at hd
    next hm =>
    subst hd
    refine ⟨.Left, ?_⟩
    have : (a + 1) % w = a % w + 1 := by
      rw [Nat.add_mod, Nat.mod_eq_of_lt (show 1 < w by omega), Nat.mod_eq_of_lt hm]
    simp [nbr, this]
  | Down =>
    simp only [nbr] at hd
    split at hd <;> simp at hd
    subst hd
    exact ⟨.Up, by simp [nbr]⟩
  | Left =>
    simp only [nbr] at hd
    split at hd <;> simp at hd
    next hm =>
    subst hd
    have h1 : 1 ≤ a := by
      rcases Nat.eq_zero_or_pos a with e | e
      · subst e; simp at hm
      · exact e
    exact ⟨.Right, by simp [nbr, mod_pred hw hm, Nat.sub_add_cancel h1]⟩
  | Up =>
    simp only [nbr] at hd
    split at hd <;> simp at hd
    next hm =>
    subst hd
    exact ⟨.Down, by simp [nbr, Nat.sub_add_cancel hm, ha]⟩

/-- Cells reached and no longer on the stack have no unreached neighbours. -/
theorem OInv.finished {s : RState} (hI : OInv w h s) {a b : Nat} {d : MazeDirection} (ha : R w h s.maze 0 a)
    (hs : a ∉ s.path) (hd : nbr w h a d = some b) : R w h s.maze 0 b := by
  rcases hI.closed a ha with h1 | h1
  · exact absurd h1 hs
  · exact ha.trans (hI.done a [] h1 d (by simp) b hd)

theorem DInv.turn {s s' : RState} {c : Nat} {rest : List Nat} (hw : 0 < w) (hI : OInv w h s)
    (hp : s.path = c :: rest) (hT : Turn w h s s' c rest) (D : DInv w h s) : DInv w h s' := by
  cases hT with
  | back hmaze hpath hfull =>
    refine ⟨?_, ?_⟩
    · rw [hpath, hmaze]
      have := D.stack
      rw [hp] at this
      exact (List.pairwise_cons.mp this).2
    · rw [hmaze]; exact D.comp
  | go m hpath hnr hop hnb =>
    have hr0c : R w h s.maze 0 c := hI.path c (by simp [hp])
    have hm0 : ¬ R w h s.maze 0 m := fun hx => hnr (hr0c.symm.trans hx)
    have hstk : ∀ x ∈ s.path, OnRoute w h s.maze x c := by
      intro x hx
      have := D.stack
      rw [hp] at this hx
      rcases List.mem_cons.mp hx with rfl | hx
      · exact OnRoute.self hr0c
      · exact (List.pairwise_cons.mp this).1 x hx
    have hnew : ∀ x, R w h s'.maze 0 x → R w h s.maze 0 x ∨ x = m := by
      intro x hx
      rcases (hop.reach ..).mp hx with h1 | ⟨_, h1⟩ | ⟨h1, _⟩
      · exact .inl h1
      · right
        rcases hI.iso m x h1 with e | e
        · exact e.symm
        · exact absurd e hm0
      · exact absurd h1 hm0
    have hfar : ∀ x d, R w h s.maze 0 x → nbr w h x d = some m → OnRoute w h s'.maze x m := by
      intro x d hx hd
      by_cases hs : x ∈ s.path
      · exact OnRoute.step hop hm0 (hstk x hs)
      · exact absurd (hI.finished hx hs hd) hm0
    refine ⟨?_, ?_⟩
    · rw [hpath, ← hp, List.pairwise_cons]
      refine ⟨fun x hx => OnRoute.step hop hm0 (hstk x hx), ?_⟩
      exact D.stack.imp fun hx => OnRoute.mono hop.le hx
    · intro a b d ha hb hd
      rcases hnew a ha with ha' | rfl
      · rcases hnew b hb with hb' | rfl
        · rcases D.comp a b d ha' hb' hd with h1 | h1
          · exact .inl (OnRoute.mono hop.le h1)
          · exact .inr (OnRoute.mono hop.le h1)
        · exact .inl (hfar a d ha' hd)
      · rcases hnew b hb with hb' | rfl
        · obtain ⟨d', hd'⟩ := nbr_back hw hop.hb hd
          exact .inr (hfar b d' hb' hd')
        · exact .inl (OnRoute.self hb)

/-! ### The first state -/

def initState (w h : Nat) : RState :=
  ⟨List.replicate (w * h) MazeNode.new, List.replicate (w * h) DisjointSet.Element.new, [0],
    List.replicate (w * h) [MazeDirection.Right, MazeDirection.Down, MazeDirection.Left, MazeDirection.Up], 0⟩

theorem recursiveBacktrack_eq (oc : Bool) (rnd : Nat → Nat) (hn : w * h * 24 < 2 ^ 63) :
    recursiveBacktrack oc rnd w h = loop (backtrackBody oc rnd w h) (initState w h) := by
  unfold recursiveBacktrack
  rw [mulW_ok (show w * h < 2 ^ 64 by omega)]
  simp only [Prog.ok_bind, vecRepeat, DisjointSet.withSize, show w * h * 2 < 2 ^ 63 by omega,
    show w * h * 16 < 2 ^ 63 by omega, hn, if_true]
  rfl

theorem vsum_replicate (n : Nat) (v : List MazeDirection) : vsum (List.replicate n v) = n * v.length := by
  simp [vsum]

theorem init_oinv (hpos : 0 < w * h) : OInv w h (initState w h) := by
  have hb := graph_new w h (w * h)
  refine ⟨⟨by simp [initState], by simp [initState], ⟨_, _, init_inv _, ?_⟩, ?_, ?_, ?_⟩, by simp [initState],
    ?_, ?_, ?_, ?_⟩
  · intro a b ha hb'
    constructor
    · rintro rfl; exact R.refl ha
    · exact R_bot hb
  · simp only [initState]; rw [hb]; exact SimpleGraph.isAcyclic_bot
  · intro c hc; simp [initState, rightOpen_new] at hc
  · intro c hc; simp [initState, downOpen_new] at hc
  · intro c v hv d hd
    simp [initState, List.getElem?_replicate] at hv
    rw [← hv.2] at hd
    cases d <;> simp at hd
  · intro p hp
    simp [initState] at hp; subst hp; exact R.refl hpos
  · intro a b hab
    exact .inl (R_bot hb hab)
  · intro c hc
    left
    rw [← R_bot hb hc]; simp [initState]

theorem init_dinv (hpos : 0 < w * h) : DInv w h (initState w h) := by
  have hb := graph_new w h (w * h)
  refine ⟨by simp [initState], ?_⟩
  intro a b d ha hb' hd
  have e1 := R_bot hb ha
  have e2 := R_bot hb hb'
  subst e1; subst e2
  exact .inl (OnRoute.self (R.refl hpos))

theorem recursiveBacktrack_dfs (oc : Bool) (rnd : Nat → Nat) (hw : 0 < w) (hh : 0 < h)
    (hn : w * h * 24 < 2 ^ 63) :
    ∃ g, recursiveBacktrack oc rnd w h = .ok g ∧ Perfect w h g ∧ DepthFirst w h g := by
  have hpos : 0 < w * h := Nat.mul_pos hw hh
  have hn' : w * h < 2 ^ 63 := by omega
  rw [recursiveBacktrack_eq oc rnd hn]
  refine loop_spec (fun s => OInv w h s ∧ DInv w h s)
    (fun s => 2 * vsum s.canVisit + s.path.length) _ ?_ _ ⟨init_oinv hpos, init_dinv hpos⟩
  rintro s ⟨hI, hD⟩
  cases hp : s.path with
  | nil =>
    right
    rcases backtrackBody_spec (oc := oc) (rnd := rnd) hw hh hn' hI (R.refl hpos) with
      ⟨s', e, _⟩ | ⟨g, e, hP⟩
    · simp [backtrackBody, hp] at e
    · refine ⟨g, e, hP, ?_⟩
      have hg : g = s.maze := by simpa [backtrackBody, hp] using e.symm
      subst hg
      intro a b d ha hd
      have hb : b < w * h := (nbr_pos hw ha hd).1
      exact hD.comp a b d (hP.reach a ha) (hP.reach b hb) hd
  | cons c rest =>
    left
    obtain ⟨s', e, hO, hT, hm, _⟩ := backtrackBody_turn (oc := oc) (rnd := rnd) hw hh hn' hI
      (R.refl hpos) hp
    exact ⟨s', e, ⟨hO, hD.turn hw hI hp hT⟩, by rw [hp] at hm; exact hm⟩

/-! ### Every depth-first tree is a result -/

theorem adj_nbr {g : List MazeNode} {a b : Fin (w * h)} (hadj : (graph w h g).Adj a b) (hw : 0 < w) :
    ∃ d, nbr w h a d = some b.1 := by
  have one : ∀ x y : Fin (w * h), Passage w g x y → ∃ d, nbr w h x d = some y.1 := by
    rintro x y (⟨e, hm, _⟩ | ⟨e, _⟩)
    · exact ⟨.Right, by simp [nbr, hm, e]⟩
    · refine ⟨.Down, ?_⟩
      have := y.2
      simp [nbr, e, show x.1 + w < w * h by omega]
  rw [graph, SimpleGraph.fromRel_adj] at hadj
  rcases hadj.2 with h1 | h1
  · exact one a b h1
  · obtain ⟨d, hd⟩ := one b a h1
    exact nbr_back hw b.2 hd

/-- If every passage of the target `T` out of `c` leads to a cell already reached, every neighbour of `c` is
already reached. -/
theorem all_reached {s : RState} {T : List MazeNode} {c : Nat} {rest : List Nat} (hw : 0 < w)
    (hI : OInv w h s) (D : DInv w h s) (hp : s.path = c :: rest) (hle : graph w h s.maze ≤ graph w h T)
    (hTt : (graph w h T).IsAcyclic) (hTd : DepthFirst w h T)
    (hall : ∀ (hc : c < w * h) (y : Fin (w * h)), (graph w h T).Adj ⟨c, hc⟩ y → R w h s.maze 0 y) {m : Nat}
    {d : MazeDirection} (hd : nbr w h c d = some m) : R w h s.maze 0 m := by
  classical
  have hr0c : R w h s.maze 0 c := hI.path c (by simp [hp])
  obtain ⟨h0, hc, hreach⟩ := hr0c
  have hr0c : R w h s.maze 0 c := ⟨h0, hc, hreach⟩
  have uniq : ∀ {b : Fin (w * h)} (p q : (graph w h T).Walk ⟨0, h0⟩ b), p.IsPath → q.IsPath → p = q := by
    intro b p q hp hq
    exact congrArg Subtype.val ((hTt.subsingleton_path _ _).elim ⟨p, hp⟩ ⟨q, hq⟩)
  rcases hTd c m d hc hd with ⟨_, _, hm, p, hpp, hmem⟩ | ⟨_, hm, _, p, hpp, hmem⟩
  · -- `c` lies on the route to `m`
    let q := p.dropUntil _ hmem
    have hstk : ∀ x ∈ s.path, OnRoute w h T x c := by
      intro x hx
      have h1 := D.stack
      rw [hp] at h1 hx
      rcases List.mem_cons.mp hx with rfl | hx
      · exact OnRoute.mono hle (OnRoute.self hr0c)
      · exact OnRoute.mono hle ((List.pairwise_cons.mp h1).1 x hx)
    have hq : ∀ z ∈ q.support, z.1 ∈ s.path → z.1 = c := by
      intro z hz hzs
      obtain ⟨_, hz', _, r, hr, hrz⟩ := hstk z.1 hzs
      have : r = p.takeUntil _ hmem := uniq _ _ hr (hpp.takeUntil hmem)
      rw [this] at hrz
      have hdis := SimpleGraph.Walk.take_spec p hmem
      have hnd := hpp.support_nodup
      rw [← hdis, SimpleGraph.Walk.support_append] at hnd
      have hz2 : z ∈ q.support := hz
      rw [SimpleGraph.Walk.mem_support_iff] at hz2
      rcases hz2 with e | e
      · exact congrArg Fin.val e
      · exact absurd e (List.disjoint_of_nodup_append hnd hrz)
    have walk : ∀ {x y : Fin (w * h)} (r : (graph w h T).Walk x y), (∀ z ∈ r.support, z ∈ q.support) →
        R w h s.maze 0 x → R w h s.maze 0 y := by
      intro x y r
      induction r with
      | nil => intro _ hx; exact hx
      | @cons x z y hadj r ih =>
        intro hsup hx
        refine ih (fun z hz => hsup z (by simp [hz])) ?_
        by_cases hxs : x.1 ∈ s.path
        · have e := hq x (hsup x (by simp)) hxs
          refine hall hc z ?_
          have : x = ⟨c, hc⟩ := Fin.ext e
          rwa [this] at hadj
        · obtain ⟨d', hd'⟩ := adj_nbr hadj hw
          exact hI.finished hx hxs hd'
    exact walk q (fun _ hz => hz) hr0c
  · -- `m` lies on the route to `c`
    obtain ⟨_, _, _, r, hr, _⟩ := OnRoute.self hr0c
    have e : r.mapLe hle = p := uniq _ _ ((SimpleGraph.Walk.isPath_mapLe hle).mpr hr) hpp
    rw [← e, SimpleGraph.Walk.support_mapLe_eq_support] at hmem
    exact ⟨h0, hm, ⟨r.takeUntil _ hmem⟩⟩

/-- `rnd` yields the draws `ds` from position `k` on. -/
def Yields (rnd : Nat → Nat) (k : Nat) (ds : List Nat) : Prop := ∀ i (hi : i < ds.length), rnd (k + i) = ds[i]

theorem Yields.left {rnd : Nat → Nat} {k : Nat} {ds es : List Nat} (H : Yields rnd k (ds ++ es)) :
    Yields rnd k ds := by
  intro i hi
  have := H i (by simp; omega)
  rwa [List.getElem_append_left hi] at this

theorem Yields.right {rnd : Nat → Nat} {k : Nat} {ds es : List Nat} (H : Yields rnd k (ds ++ es)) :
    Yields rnd (k + ds.length) es := by
  intro i hi
  have := H (ds.length + i) (by simp; omega)
  rw [List.getElem_append_right (by omega)] at this
  simpa [Nat.add_assoc] using this

theorem exists_yields (k : Nat) (ds : List Nat) : ∃ rnd, Yields rnd k ds :=
  ⟨fun i => ds.getD (i - k) 0, fun i hi => by simp [hi]⟩

/-- `visit_next` makes at most as many draws as there are directions left. -/
theorem visitNext_local {oc : Bool} {rnd rnd' : Nat → Nat} {s : VState} {c : Nat} (hw : 0 < w) (hh : 0 < h)
    (hn : w * h < 2 ^ 63) (hI : MInv w h s.maze s.conn) (hc : c < w * h)
    (hr : ∀ i, s.k ≤ i → i < s.k + s.visitable.length → rnd i = rnd' i) :
    visitNext oc rnd c w h s = visitNext oc rnd' c w h s := by
  generalize hN : s.visitable.length = N
  induction N generalizing s with
  | zero =>
    have hne : s.visitable = [] := List.length_eq_zero_iff.mp hN
    have e : ∀ rnd, visitBody oc rnd c w h s = .ok (.inr (none, s)) := by intro rnd; simp [visitBody, hne]
    rw [visitNext, loop_inr (e rnd), visitNext, loop_inr (e rnd')]
  | succ N ih =>
    have hne : s.visitable ≠ [] := by rintro e; rw [e] at hN; simp at hN
    have hb : visitBody oc rnd c w h s = visitBody oc rnd' c w h s := by
      simp only [visitBody, hr s.k (Nat.le_refl _) (by omega)]
    obtain ⟨hi, vis', h1, hp⟩ := chooseRandom_spec (rnd' s.k) hne
    have hlen := hp.length_eq
    simp at hlen
    have hbody : visitBody oc rnd' c w h s = visitDir oc c w h { s with visitable := vis', k := s.k + 1 }
        s.visitable[rnd' s.k % s.visitable.length] := by
      have : s.visitable.isEmpty = false := by simpa using hne
      simp [visitBody, this, h1]
    rcases visitDir_spec (oc := oc) (s := { s with visitable := vis', k := s.k + 1 }) hw hh hn hI hc
      s.visitable[rnd' s.k % s.visitable.length] with
      ⟨conn', e, hI', _⟩ | ⟨m', g', conn', hnb', _, e, hI', hop⟩
    · have e' := hbody.trans e
      rw [visitNext, loop_inl (hb.trans e'), visitNext, loop_inl e']
      refine ih (s := { s with visitable := vis', k := s.k + 1, conn := conn' }) hI' ?_ (by simp only; omega)
      intro i h1 h2
      simp only at h1 h2
      exact hr i (by omega) (by omega)
    · have e' := hbody.trans e
      rw [visitNext, loop_inr (hb.trans e'), visitNext, loop_inr e']

/-- For suitable draws `visit_next` only opens passages of the target. -/
theorem visitNext_target {oc : Bool} {s : VState} {c : Nat} (hw : 0 < w) (hh : 0 < h)
    (hn : w * h < 2 ^ 63) (hI : MInv w h s.maze s.conn) (hc : c < w * h)
    (hd : Done w h s.maze c s.visitable) (T : List MazeNode)
    (H : (∀ y : Fin (w * h), (graph w h T).Adj ⟨c, hc⟩ y → R w h s.maze c y) →
      ∀ d m, nbr w h c d = some m → R w h s.maze c m) :
    ∃ (ds : List Nat) (r : Option Nat) (v : VState),
      (∀ rnd, Yields rnd s.k ds → visitNext oc rnd c w h s = .ok (r, v)) ∧
      v.k = s.k + ds.length ∧
      ((r = none ∧ v.maze = s.maze) ∨
       (∃ (m : Fin (w * h)), r = some m.1 ∧ (graph w h T).Adj ⟨c, hc⟩ m)) := by
  by_cases hex : ∃ d ∈ s.visitable, ∃ m : Fin (w * h), nbr w h c d = some m.1 ∧
      (graph w h T).Adj ⟨c, hc⟩ m ∧ ¬ R w h s.maze c m
  · obtain ⟨d, hdv, m, hnb, hadj, hnr⟩ := hex
    obtain ⟨i, hi, hid⟩ := List.getElem_of_mem hdv
    have hne : s.visitable ≠ [] := by rintro e; rw [e] at hi; simp at hi
    obtain ⟨hi', vis', h1, hp⟩ := chooseRandom_spec i hne
    have hidx : i % s.visitable.length = i := Nat.mod_eq_of_lt hi
    have hd' : s.visitable[i % s.visitable.length] = d := by simp only [hidx]; exact hid
    rw [hd'] at h1
    have hbody : ∀ rnd, Yields rnd s.k [i] → visitBody oc rnd c w h s =
        visitDir oc c w h { s with visitable := vis', k := s.k + 1 } d := by
      intro rnd hY
      have hk : rnd s.k = i := hY 0 (by simp)
      have : s.visitable.isEmpty = false := by simpa using hne
      simp [visitBody, this, hk, h1]
    rcases visitDir_spec (oc := oc) (s := { s with visitable := vis', k := s.k + 1 }) hw hh hn hI hc d with
      ⟨conn', e, hI', hr⟩ | ⟨m', g', conn', hnb', hr, e, hI', hop⟩
    · exact absurd (hr m hnb) hnr
    · rw [hnb] at hnb'
      obtain rfl := Option.some.inj hnb'
      exact ⟨[i], _, _, fun rnd hY => loop_inr ((hbody rnd hY).trans e), rfl, .inr ⟨m, rfl, hadj⟩⟩
  · have hfull := H ?_
    · obtain ⟨r, v, hv, _, _, hcase, hk⟩ := visitNext_spec (oc := oc) (rnd := fun _ => 0) hw hh hn hI hc hd
      refine ⟨List.replicate s.visitable.length 0, r, v, ?_, ?_, ?_⟩
      · intro rnd hY
        rw [← hv]
        refine visitNext_local hw hh hn hI hc ?_
        intro i h1 h2
        have := hY (i - s.k) (by simp; omega)
        rw [show s.k + (i - s.k) = i by omega] at this
        simpa using this
      · rcases hcase with ⟨_, _, hnil⟩ | ⟨m, _, hnr, _, _, d, hnb⟩
        · rw [hnil] at hk; simpa using hk
        · exact absurd (hfull d m hnb) hnr
      · rcases hcase with ⟨h1, h2, _⟩ | ⟨m, _, hnr, _, _, d, hnb⟩
        · exact .inl ⟨h1, h2⟩
        · exact absurd (hfull d m hnb) hnr
    · intro y hadj
      obtain ⟨d, hnb⟩ := adj_nbr hadj hw
      by_cases hdv : d ∈ s.visitable
      · by_contra hnr
        exact hex ⟨d, hdv, y, hnb, hadj, hnr⟩
      · exact hd d hdv y hnb

/-- Two trees one of which contains the other are equal. -/
theorem tree_eq_of_le {V : Type} {G H : SimpleGraph V} (hle : G ≤ H) (hG : G.Connected) (hH : H.IsAcyclic) :
    G = H := by
  refine le_antisymm hle ?_
  intro a b hab
  by_contra hn
  have hb := SimpleGraph.isAcyclic_iff_forall_adj_isBridge.mp hH hab
  rw [SimpleGraph.isBridge_iff] at hb
  apply hb
  refine (hG.preconnected a b).mono ?_
  intro x y hxy
  rw [SimpleGraph.deleteEdges_adj]
  refine ⟨hle hxy, ?_⟩
  intro he
  rw [Set.mem_singleton_iff, Sym2.eq_iff] at he
  rcases he with ⟨rfl, rfl⟩ | ⟨rfl, rfl⟩
  · exact hn hxy
  · exact hn hxy.symm

/-- The passages and the outer walls determine the grid. -/
theorem grid_ext {g g' : List MazeNode} (hw : 0 < w) (hg : g.length = w * h) (hg' : g'.length = w * h)
    (bR : ∀ c, rightOpen g c = true → c % w + 1 < w) (bD : ∀ c, downOpen g c = true → c + w < w * h)
    (bR' : ∀ c, rightOpen g' c = true → c % w + 1 < w) (bD' : ∀ c, downOpen g' c = true → c + w < w * h)
    (e : graph w h g = graph w h g') : g = g' := by
  have key : ∀ {f f' : List MazeNode}, f.length = w * h → f'.length = w * h → graph w h f = graph w h f' →
      (∀ c, rightOpen f c = true → c % w + 1 < w) → (∀ c, downOpen f c = true → c + w < w * h) →
      ∀ c, (rightOpen f c = true → rightOpen f' c = true) ∧ (downOpen f c = true → downOpen f' c = true) := by
    intro f f' hf hf' e bR bD c
    constructor
    · intro hr
      have hm := bR c hr
      have hc : c < w * h := by
        by_contra hc
        simp [rightOpen, List.getElem?_eq_none (show f.length ≤ c by omega)] at hr
      have hc1 := succ_lt_of_mod hc hm
      have hadj : (graph w h f).Adj ⟨c, hc⟩ ⟨c + 1, hc1⟩ := by
        rw [graph, SimpleGraph.fromRel_adj]
        exact ⟨by simp, .inl (.inl ⟨rfl, hm, hr⟩)⟩
      rw [e, graph, SimpleGraph.fromRel_adj] at hadj
      rcases hadj.2 with (⟨_, _, h1⟩ | ⟨h1, _⟩) | (⟨h1, _⟩ | ⟨h1, _⟩)
      · exact h1
      · simp only at h1; omega
      · simp only at h1; omega
      · simp only at h1; omega
    · intro hr
      have hm := bD c hr
      have hc : c < w * h := by omega
      have hadj : (graph w h f).Adj ⟨c, hc⟩ ⟨c + w, hm⟩ := by
        rw [graph, SimpleGraph.fromRel_adj]
        exact ⟨by simp; omega, .inl (.inr ⟨rfl, hr⟩)⟩
      rw [e, graph, SimpleGraph.fromRel_adj] at hadj
      rcases hadj.2 with (⟨h1, h2, _⟩ | ⟨_, h1⟩) | (⟨h1, _⟩ | ⟨h1, _⟩)
      · simp only at h1
        have : w = 1 := by omega
        subst this; omega
      · exact h1
      · simp only at h1; omega
      · simp only at h1; omega
  apply List.ext_getElem (by omega)
  intro c h1 h2
  obtain ⟨r1, d1⟩ := key hg hg' e bR bD c
  obtain ⟨r2, d2⟩ := key hg' hg e.symm bR' bD' c
  rw [rightOpen_getElem h1, rightOpen_getElem h2] at r1 r2
  rw [downOpen_getElem h1, downOpen_getElem h2] at d1 d2
  generalize g[c] = x at *
  generalize g'[c] = y at *
  obtain ⟨xr, xd⟩ := x
  obtain ⟨yr, yd⟩ := y
  revert r1 d1 r2 d2
  cases xr <;> cases xd <;> cases yr <;> cases yd <;> simp

theorem backtrack_target {oc : Bool} {T : List MazeNode} (hw : 0 < w) (hh : 0 < h) (hn : w * h < 2 ^ 63)
    (hT : Perfect w h T) (hTd : DepthFirst w h T) (s : RState) (hI : OInv w h s) (D : DInv w h s)
    (hle : graph w h s.maze ≤ graph w h T) :
    ∃ ds : List Nat, ∀ rnd, Yields rnd s.k ds → loop (backtrackBody oc rnd w h) s = .ok T := by
  have hpos : 0 < w * h := Nat.mul_pos hw hh
  generalize hN : 2 * vsum s.canVisit + s.path.length = N
  induction N using Nat.strongRecOn generalizing s with
  | ind N ih =>
    cases hp : s.path with
    | nil =>
      refine ⟨[], fun rnd _ => ?_⟩
      rcases backtrackBody_spec (oc := oc) (rnd := rnd) hw hh hn hI (R.refl hpos) with
        ⟨s', e, _⟩ | ⟨g, e, hP⟩
      · simp [backtrackBody, hp] at e
      · have hg : g = s.maze := by simpa [backtrackBody, hp] using e.symm
        rw [loop_inr e]
        congr 1
        refine grid_ext hw hP.len hT.len hP.borderR hP.borderD hT.borderR hT.borderD ?_
        exact tree_eq_of_le (hg ▸ hle) (hP.isTree hw hh).connected hT.acyclic
    | cons c rest =>
      have hr0c : R w h s.maze 0 c := hI.path c (by simp [hp])
      have hc : c < w * h := hr0c.choose_spec.choose
      have hc' : c < s.canVisit.length := hI.cvlen ▸ hc
      obtain ⟨ds, r, v, hv, hk, hcase⟩ := visitNext_target (oc := oc)
        (s := ⟨s.maze, s.conn, s.canVisit[c], s.k⟩)
        hw hh hn hI.minv hc (hI.done c _ (List.getElem?_eq_getElem hc')) T (by
          intro hall d m hd
          refine hr0c.symm.trans (all_reached hw hI D hp hle hT.acyclic hTd ?_ hd)
          intro _ y hy
          exact hr0c.trans (hall y hy))
      have hb : ∃ s', (∀ rnd, Yields rnd s.k ds → backtrackBody oc rnd w h s = .ok (.inl s')) ∧
          OInv w h s' ∧ DInv w h s' ∧ graph w h s'.maze ≤ graph w h T ∧ s'.k = s.k + ds.length ∧
          2 * vsum s'.canVisit + s'.path.length < N := by
        obtain ⟨rnd, hY⟩ := exists_yields s.k ds
        obtain ⟨s', e, hO, hTn, hm, _⟩ := backtrackBody_turn (oc := oc) (rnd := rnd) hw hh hn hI
          (R.refl hpos) hp
        have e' := e
        simp only [backtrackBody, hp, getP_ok hc', hv rnd hY, setP_ok hc', Prog.ok_bind] at e'
        refine ⟨s', ?_, hO, D.turn hw hI hp hTn, ?_, ?_, by omega⟩
        · intro rnd' hY'
          simp only [backtrackBody, hp, getP_ok hc', hv rnd' hY', setP_ok hc', Prog.ok_bind]
          exact e'
        · cases hTn with
          | back hmaze _ _ => rw [hmaze]; exact hle
          | go m hpath hnr hop hnb =>
            rcases hcase with ⟨rfl, _⟩ | ⟨m', rfl, hadj⟩
            · simp at e'
              rw [← e'] at hpath
              have := congrArg List.length hpath
              simp at this
              omega
            · simp at e'
              rw [← e'] at hpath
              simp at hpath
              subst hpath
              rw [hop.eq]
              refine sup_le hle ?_
              rw [SimpleGraph.edge_le_iff]
              exact .inr hadj
        · cases r <;> simp at e' <;> rw [← e'] <;> exact hk
      obtain ⟨s', e, hO, hD', hle', hk', hm⟩ := hb
      obtain ⟨es, hes⟩ := ih _ hm s' hO hD' hle' rfl
      refine ⟨ds ++ es, fun rnd hY => ?_⟩
      rw [loop_inl (e rnd hY.left)]
      exact hes rnd (hk' ▸ hY.right)

theorem recursiveBacktrack_target (oc : Bool) {T : List MazeNode} (hw : 0 < w) (hh : 0 < h)
    (hn : w * h * 24 < 2 ^ 63) (hT : Perfect w h T) (hTd : DepthFirst w h T) :
    ∃ rnd, recursiveBacktrack oc rnd w h = .ok T := by
  have hpos : 0 < w * h := Nat.mul_pos hw hh
  obtain ⟨ds, hds⟩ := backtrack_target (oc := oc) hw hh (by omega) hT hTd (initState w h) (init_oinv hpos)
    (init_dinv hpos) (by
      have : graph w h (initState w h).maze = ⊥ := graph_new w h (w * h)
      rw [this]; exact bot_le)
  obtain ⟨rnd, hY⟩ := exists_yields (initState w h).k ds
  exact ⟨rnd, (recursiveBacktrack_eq oc rnd hn).trans (hds rnd hY)⟩

/-! ### The number of draws -/

theorem le_vsum {l : List (List MazeDirection)} {c : Nat} (hc : c < l.length) : l[c].length ≤ vsum l :=
  List.le_sum_of_mem (List.mem_map.mpr ⟨l[c], List.getElem_mem hc, rfl⟩)

theorem backtrack_local {oc : Bool} {rnd rnd' : Nat → Nat} (hw : 0 < w) (hh : 0 < h) (hn : w * h < 2 ^ 63)
    (s : RState) (hI : OInv w h s) (hr : ∀ i, s.k ≤ i → i < s.k + vsum s.canVisit → rnd i = rnd' i) :
    loop (backtrackBody oc rnd w h) s = loop (backtrackBody oc rnd' w h) s := by
  have hpos : 0 < w * h := Nat.mul_pos hw hh
  generalize hN : 2 * vsum s.canVisit + s.path.length = N
  induction N using Nat.strongRecOn generalizing s with
  | ind N ih =>
    cases hp : s.path with
    | nil =>
      have e : ∀ rnd, backtrackBody oc rnd w h s = .ok (.inr s.maze) := by
        intro rnd; simp [backtrackBody, hp]
      rw [loop_inr (e rnd), loop_inr (e rnd')]
    | cons c rest =>
      have hr0c : R w h s.maze 0 c := hI.path c (by simp [hp])
      have hc : c < w * h := hr0c.choose_spec.choose
      have hc' : c < s.canVisit.length := hI.cvlen ▸ hc
      have hle := le_vsum hc'
      have hv : visitNext oc rnd c w h ⟨s.maze, s.conn, s.canVisit[c], s.k⟩ =
          visitNext oc rnd' c w h ⟨s.maze, s.conn, s.canVisit[c], s.k⟩ :=
        visitNext_local hw hh hn hI.minv hc fun i h1 h2 => hr i h1 (by simp only at h2; omega)
      have hb : backtrackBody oc rnd w h s = backtrackBody oc rnd' w h s := by
        simp only [backtrackBody, hp, getP_ok hc', Prog.ok_bind, hv]
      obtain ⟨s', e, hO, hT, hm, hk⟩ := backtrackBody_turn (oc := oc) (rnd := rnd') hw hh hn hI
        (R.refl hpos) hp
      have hkk : s.k ≤ s'.k := by
        rw [hp] at hm
        cases hT with
        | back _ hpath _ => rw [hpath] at hm; simp only [List.length_cons] at hm; omega
        | go m hpath _ _ _ => rw [hpath] at hm; simp only [List.length_cons] at hm; omega
      rw [loop_inl (hb.trans e), loop_inl e]
      exact ih _ (by omega) s' hO (fun i h1 h2 => hr i (by omega) (by omega)) rfl

theorem recursiveBacktrack_local (oc : Bool) {rnd rnd' : Nat → Nat} (hw : 0 < w) (hh : 0 < h)
    (hn : w * h * 24 < 2 ^ 63) (hr : ∀ i, i < 4 * (w * h) → rnd i = rnd' i) :
    recursiveBacktrack oc rnd w h = recursiveBacktrack oc rnd' w h := by
  rw [recursiveBacktrack_eq oc rnd hn, recursiveBacktrack_eq oc rnd' hn]
  refine backtrack_local hw hh (by omega) _ (init_oinv (Nat.mul_pos hw hh)) ?_
  intro i _ hi
  refine hr i ?_
  simp only [initState, vsum_replicate, List.length_cons, List.length_nil] at hi
  omega

/-! ### The closed tree of the specification -/

theorem Perfect.closedTree {g : List MazeNode} (hP : Perfect w h g) (hw : 0 < w) (hh : 0 < h) :
    ClosedTree w h g := by
  refine ⟨hP.len, ?_, ?_, hP.isTree hw hh⟩
  · intro c _ hm
    by_contra hr
    have := hP.borderR c (by simpa using hr)
    omega
  · intro c _ hm
    by_contra hr
    have h3 := hP.borderD c (by simpa using hr)
    have h4 := (lt_mul_pred hh).mp h3
    have h5 : c / w < h - 1 := by rw [Nat.div_lt_iff_lt_mul hw, Nat.mul_comm]; exact h4
    omega

theorem Spec.ClosedTree.perfect {g : List MazeNode} (hC : ClosedTree w h g) (hw : 0 < w) (hh : 0 < h) :
    Perfect w h g := by
  have hlt : ∀ c, rightOpen g c = true ∨ downOpen g c = true → c < w * h := by
    intro c hc
    by_contra hx
    have : g[c]? = none := List.getElem?_eq_none (by have := hC.len; omega)
    simp [rightOpen, downOpen, this] at hc
  refine ⟨hC.len, hC.tree.isAcyclic, ?_, ?_, ?_⟩
  · intro c hr
    have h1 := hlt c (.inl hr)
    have h2 := Nat.mod_lt c hw
    by_contra hx
    rw [hC.right c h1 (by omega)] at hr
    cases hr
  · intro c hr
    have h1 := hlt c (.inr hr)
    by_contra hx
    have h2 : ¬ c < w * (h - 1) := fun h2 => hx ((lt_mul_pred hh).mpr h2)
    have h3 : c / w < h := by rw [Nat.div_lt_iff_lt_mul hw, Nat.mul_comm]; exact h1
    have h4 : ¬ c / w < h - 1 := by rw [Nat.div_lt_iff_lt_mul hw, Nat.mul_comm]; exact h2
    rw [hC.bottom c h1 (by omega)] at hr
    cases hr
  · intro c hc
    exact ⟨Nat.mul_pos hw hh, hc, hC.tree.connected.preconnected _ _⟩

end Maze
