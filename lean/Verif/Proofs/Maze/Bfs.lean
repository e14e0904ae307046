import Verif.Proofs.Maze.Backtrack

/-! Helper lemmas: the breadth-first search of `create_maze`. -/
namespace Maze
open Spec

variable {w h : Nat}

/-- Adjacency of cell numbers. -/
def A (w h : Nat) (g : List MazeNode) (a b : Nat) : Prop :=
  ∃ (ha : a < w * h) (hb : b < w * h), (graph w h g).Adj ⟨a, ha⟩ ⟨b, hb⟩

theorem A.symm {g a b} (H : A w h g a b) : A w h g b a := by
  obtain ⟨ha, hb, H⟩ := H; exact ⟨hb, ha, H.symm⟩

theorem A.lt {g a b} (H : A w h g a b) : a < w * h ∧ b < w * h := ⟨H.choose, H.choose_spec.choose⟩

theorem A_of_passage {g a b} (hw : 0 < w) (ha : a < w * h) (hb : b < w * h) (H : Passage w g a b) :
    A w h g a b := by
  refine ⟨ha, hb, ?_⟩
  simp only [graph, SimpleGraph.fromRel_adj, ne_eq, Fin.ext_iff]
  refine ⟨?_, .inl H⟩
  rcases H with ⟨e, _⟩ | ⟨e, _⟩ <;> omega

theorem A_iff {g a b} (hw : 0 < w) (ha : a < w * h) (hb : b < w * h) :
    A w h g a b ↔ Passage w g a b ∨ Passage w g b a := by
  constructor
  · rintro ⟨_, _, H⟩
    simp only [graph, SimpleGraph.fromRel_adj] at H
    exact H.2
  · rintro (H | H)
    · exact A_of_passage hw ha hb H
    · exact (A_of_passage hw hb ha H).symm

theorem rightOpen_getElem {g : List MazeNode} {c : Nat} (hc : c < g.length) :
    rightOpen g c = !g[c].right := by
  simp [rightOpen, List.getElem?_eq_getElem hc]

theorem downOpen_getElem {g : List MazeNode} {c : Nat} (hc : c < g.length) :
    downOpen g c = !g[c].down := by
  simp [downOpen, List.getElem?_eq_getElem hc]

/-! ### Expanding one cell -/

structure Ext (w h : Nat) (g : List MazeNode) (c : Nat) (s s' : BState) (new : List Nat) : Prop where
  len : s'.pathTree.length = s.pathTree.length
  trav : s'.traversal = s.traversal ++ new
  found : s'.foundPaths = s.foundPaths
  nodup : new.Nodup
  mem : ∀ x ∈ new, s.pathTree[x]? = some .Unvisited ∧ A w h g c x ∧ s'.pathTree[x]? = some (.Path c)
  old : ∀ x, x ∉ new → s'.pathTree[x]? = s.pathTree[x]?

theorem Ext.refl (g c s) : Ext w h g c s s [] :=
  ⟨rfl, by simp, rfl, List.nodup_nil, by simp, fun _ _ => rfl⟩

theorem Ext.trans {g c s s' s'' n1 n2} (H1 : Ext w h g c s s' n1) (H2 : Ext w h g c s' s'' n2) :
    Ext w h g c s s'' (n1 ++ n2) := by
  have disj : ∀ x, x ∈ n1 → x ∉ n2 := by
    intro x h1 h2
    have := (H1.mem x h1).2.2
    rw [(H2.mem x h2).1] at this
    cases this
  refine ⟨H2.len.trans H1.len, by rw [H2.trav, H1.trav, List.append_assoc], H2.found.trans H1.found,
    ?_, ?_, ?_⟩
  · rw [List.nodup_append]
    refine ⟨H1.nodup, H2.nodup, ?_⟩
    rintro x h1 y h2 rfl
    exact disj x h1 h2
  · intro x hx
    rcases List.mem_append.mp hx with h1 | h2
    · obtain ⟨a, b, e⟩ := H1.mem x h1
      exact ⟨a, b, by rw [H2.old x (disj x h1)]; exact e⟩
    · obtain ⟨a, b, e⟩ := H2.mem x h2
      have : x ∉ n1 := fun h1 => disj x h1 h2
      exact ⟨by rw [← H1.old x this]; exact a, b, e⟩
  · intro x hx
    simp only [List.mem_append, not_or] at hx
    rw [H2.old x hx.2, H1.old x hx.1]

theorem Ext.keep {g c s s' new} (H : Ext w h g c s s' new) {x : Nat}
    (hx : s.pathTree[x]? ≠ some .Unvisited) : s'.pathTree[x]? ≠ some .Unvisited := by
  by_cases hm : x ∈ new
  · rw [(H.mem x hm).2.2]; simp
  · rw [H.old x hm]; exact hx

theorem tryVisit_spec {g : List MazeNode} {s : BState} {wall : Bool} {c tgt : Nat}
    (hl : s.pathTree.length = w * h) (ha : wall = false → A w h g c tgt) :
    ∃ s' new, tryVisit s wall c tgt = .ok s' ∧ Ext w h g c s s' new ∧
      (wall = false → s'.pathTree[tgt]? ≠ some .Unvisited) := by
  cases wall with
  | true => exact ⟨s, [], by simp [tryVisit], Ext.refl g c s, by simp⟩
  | false =>
    have ha := ha rfl
    have ht : tgt < s.pathTree.length := hl ▸ ha.lt.2
    cases hp : s.pathTree[tgt] with
    | Unvisited =>
      refine ⟨{ s with pathTree := s.pathTree.set tgt (.Path c), traversal := s.traversal ++ [tgt] }, [tgt],
        by simp [tryVisit, getP_ok ht, hp, setP_ok ht], ⟨by simp, rfl, rfl, by simp, ?_, ?_⟩, ?_⟩
      · intro x hx
        simp at hx; subst hx
        exact ⟨by rw [List.getElem?_eq_getElem ht, hp], ha, by simp [ht]⟩
      · intro x hx
        simp at hx
        simp [Ne.symm hx]
      · simp [ht]
    | Start =>
      exact ⟨s, [], by simp [tryVisit, getP_ok ht, hp], Ext.refl g c s,
        by simp [List.getElem?_eq_getElem ht, hp]⟩
    | Path p =>
      exact ⟨s, [], by simp [tryVisit, getP_ok ht, hp], Ext.refl g c s,
        by simp [List.getElem?_eq_getElem ht, hp]⟩

theorem expand_spec (oc : Bool) {g : List MazeNode} (hP : Perfect w h g) (hw : 0 < w) (hn : w * h < 2 ^ 63) {c : Nat}
    (hc : c < w * h)
    {s : BState} (hl : s.pathTree.length = w * h) :
    ∃ s' new, expand oc g w c s = .ok s' ∧ Ext w h g c s s' new ∧
      ∀ x, A w h g c x → s'.pathTree[x]? ≠ some .Unvisited := by
  have hcg : c < g.length := hP.len ▸ hc
  have aR : ∀ c, c < w * h → rightOpen g c = true → A w h g c (c + 1) := fun c hc ho =>
    A_of_passage hw hc (succ_lt_of_mod hc (hP.borderR c ho)) (.inl ⟨rfl, hP.borderR c ho, ho⟩)
  have aD : ∀ c, c < w * h → downOpen g c = true → A w h g c (c + w) := fun c hc ho =>
    A_of_passage hw hc (hP.borderD c ho) (.inr ⟨rfl, ho⟩)
  obtain ⟨s1, n1, e1, x1, v1⟩ := tryVisit_spec (w := w) (h := h) (g := g) (s := s) (wall := g[c].right)
    (c := c) (tgt := c + 1) hl (fun e => aR c hc (by rw [rightOpen_getElem hcg, e]; rfl))
  obtain ⟨s2, n2, e2, x2, v2⟩ := tryVisit_spec (w := w) (h := h) (g := g) (s := s1) (wall := g[c].down)
    (c := c) (tgt := c + w) (x1.len.trans hl) (fun e => aD c hc (by rw [downOpen_getElem hcg, e]; rfl))
  have h3 : ∃ s3 n3, (if 1 ≤ c then do
        let node ← getP g (c - 1)
        tryVisit s2 node.right c (c - 1)
      else pure s2) = .ok s3 ∧ Ext w h g c s2 s3 n3 ∧
      (1 ≤ c → rightOpen g (c - 1) = true → s3.pathTree[c - 1]? ≠ some .Unvisited) := by
    by_cases h1 : 1 ≤ c
    · have hlt : c - 1 < g.length := by omega
      obtain ⟨s3, n3, e3, x3, v3⟩ := tryVisit_spec (w := w) (h := h) (g := g) (s := s2)
        (wall := g[c - 1].right) (c := c) (tgt := c - 1) (x2.len.trans (x1.len.trans hl)) (fun e => by
          have := aR (c - 1) (by omega) (by rw [rightOpen_getElem hlt, e]; rfl)
          rw [Nat.sub_add_cancel h1] at this
          exact this.symm)
      exact ⟨s3, n3, by simp [h1, getP_ok hlt, e3], x3, fun _ ho => v3 (by
        rw [rightOpen_getElem hlt] at ho; simpa using ho)⟩
    · exact ⟨s2, [], by simp [h1], Ext.refl g c s2, fun h => absurd h h1⟩
  obtain ⟨s3, n3, e3, x3, v3⟩ := h3
  have h4 : ∃ s4 n4, (if w ≤ c then do
        let node ← getP g (c - w)
        tryVisit s3 node.down c (c - w)
      else pure s3) = .ok s4 ∧ Ext w h g c s3 s4 n4 ∧
      (w ≤ c → downOpen g (c - w) = true → s4.pathTree[c - w]? ≠ some .Unvisited) := by
    by_cases h1 : w ≤ c
    · have hlt : c - w < g.length := by omega
      obtain ⟨s4, n4, e4, x4, v4⟩ := tryVisit_spec (w := w) (h := h) (g := g) (s := s3)
        (wall := g[c - w].down) (c := c) (tgt := c - w)
        (x3.len.trans (x2.len.trans (x1.len.trans hl))) (fun e => by
          have := aD (c - w) (by omega) (by rw [downOpen_getElem hlt, e]; rfl)
          rw [Nat.sub_add_cancel h1] at this
          exact this.symm)
      exact ⟨s4, n4, by simp [h1, getP_ok hlt, e4], x4, fun _ ho => v4 (by
        rw [downOpen_getElem hlt] at ho; simpa using ho)⟩
    · exact ⟨s3, [], by simp [h1], Ext.refl g c s3, fun h => absurd h h1⟩
  obtain ⟨s4, n4, e4, x4, v4⟩ := h4
  refine ⟨s4, _, ?_, ((x1.trans x2).trans x3).trans x4, ?_⟩
  · have hww : w ≤ w * h := Nat.le_mul_of_pos_right _ (Nat.pos_of_ne_zero fun h0 => by rw [h0] at hc; simp at hc)
    unfold expand
    simp only [addW_ok (show c + 1 < 2 ^ 64 by omega), addW_ok (show c + w < 2 ^ 64 by omega), getP_ok hcg,
      Prog.ok_bind, e1, e2]
    rw [e3]
    exact e4
  · intro x hA
    rcases (A_iff hw hc hA.lt.2).mp hA with (⟨rfl, _, ho⟩ | ⟨rfl, ho⟩) | (⟨rfl, _, ho⟩ | ⟨rfl, ho⟩)
    · rw [rightOpen_getElem hcg] at ho
      exact x4.keep (x3.keep (x2.keep (v1 (by simpa using ho))))
    · rw [downOpen_getElem hcg] at ho
      exact x4.keep (x3.keep (v2 (by simpa using ho)))
    · have := v3 (by omega) (by simpa using ho)
      rw [Nat.add_sub_cancel] at this
      exact x4.keep this
    · have := v4 (by omega) (by simpa using ho)
      rwa [Nat.add_sub_cancel] at this

/-! ### The invariant of the search -/

structure Tree (w h : Nat) (g : List MazeNode) (pt : List PathNode) (depth : Nat → Nat)
    (P Q : List Nat) : Prop where
  len : pt.length = w * h
  nodup : (P ++ Q).Nodup
  visited : ∀ x, x ∈ P ++ Q ↔ ∃ e, pt[x]? = some e ∧ e ≠ .Unvisited
  start : ∀ x, pt[x]? = some .Start ↔ x = 0
  depth0 : depth 0 = 0
  par : ∀ x p, pt[x]? = some (.Path p) → p ∈ P ∧ A w h g p x ∧ depth x = depth p + 1
  closed : ∀ p ∈ P, ∀ x, A w h g p x → x ∈ P ++ Q
  sorted : (P ++ Q).Pairwise (fun a b => depth a ≤ depth b)
  near : ∀ a ∈ Q, ∀ b ∈ Q, depth b ≤ depth a + 1

theorem Tree.lt {g pt depth P Q} (H : Tree w h g pt depth P Q) {x} (hx : x ∈ P ++ Q) : x < w * h := by
  obtain ⟨e, he, _⟩ := (H.visited x).mp hx
  rw [← H.len]; exact (List.getElem?_eq_some_iff.mp he).1

theorem Tree.zero_mem {g pt depth P Q} (H : Tree w h g pt depth P Q) : 0 ∈ P ++ Q :=
  (H.visited 0).mpr ⟨_, (H.start 0).mpr rfl, by simp⟩

theorem Tree.pop {g : List MazeNode} {depth P c rest} {s s' : BState} {new : List Nat}
    (H : Tree w h g s.pathTree depth P (c :: rest)) (hs : s.traversal = rest)
    (hE : Ext w h g c s s' new) (hcl : ∀ x, A w h g c x → s'.pathTree[x]? ≠ some .Unvisited) :
    Tree w h g s'.pathTree (fun x => if x ∈ new then depth c + 1 else depth x) (P ++ [c]) s'.traversal := by
  have htr : P ++ [c] ++ s'.traversal = (P ++ c :: rest) ++ new := by
    rw [hE.trav, hs]; simp
  have hdisj : ∀ x, x ∈ P ++ c :: rest → x ∉ new := by
    intro x hx hn
    obtain ⟨e, he, hne⟩ := (H.visited x).mp hx
    rw [(hE.mem x hn).1] at he
    exact hne (Option.some.inj he).symm
  have hdep : ∀ x, x ∈ P ++ c :: rest → (if x ∈ new then depth c + 1 else depth x) = depth x := by
    intro x hx; simp [hdisj x hx]
  have hle : ∀ a ∈ P ++ c :: rest, depth a ≤ depth c + 1 := by
    intro a ha
    rcases List.mem_append.mp ha with h1 | h1
    · have := (List.pairwise_append.mp H.sorted).2.2 a h1 c (by simp)
      omega
    · exact H.near c (by simp) a h1
  have hcr : ∀ a ∈ rest, depth c ≤ depth a := by
    have := (List.pairwise_append.mp H.sorted).2.1
    exact (List.pairwise_cons.mp this).1
  refine ⟨hE.len.trans H.len, ?_, ?_, ?_, ?_, ?_, ?_, ?_, ?_⟩
  · rw [htr, List.nodup_append]
    refine ⟨H.nodup, hE.nodup, ?_⟩
    rintro x hx y hy rfl
    exact hdisj x hx hy
  · intro x
    rw [htr, List.mem_append, H.visited]
    constructor
    · rintro (⟨e, he, hne⟩ | hn)
      · refine ⟨e, ?_, hne⟩
        rw [hE.old x (hdisj x ((H.visited x).mpr ⟨e, he, hne⟩))]; exact he
      · exact ⟨_, (hE.mem x hn).2.2, by simp⟩
    · rintro ⟨e, he, hne⟩
      by_cases hn : x ∈ new
      · exact .inr hn
      · rw [hE.old x hn] at he; exact .inl ⟨e, he, hne⟩
  · intro x
    by_cases hn : x ∈ new
    · rw [(hE.mem x hn).2.2]
      have : x ≠ 0 := by rintro rfl; exact hdisj 0 H.zero_mem hn
      simp [this]
    · rw [hE.old x hn]; exact H.start x
  · have := hdisj 0 H.zero_mem
    simp [this, H.depth0]
  · intro x p hx
    by_cases hn : x ∈ new
    · rw [(hE.mem x hn).2.2] at hx
      obtain rfl : c = p := by simpa using hx
      refine ⟨by simp, (hE.mem x hn).2.1, ?_⟩
      rw [if_pos hn, hdep c (by simp)]
    · rw [hE.old x hn] at hx
      obtain ⟨h1, h2, h3⟩ := H.par x p hx
      refine ⟨by simp [h1], h2, ?_⟩
      rw [if_neg hn, hdep p (by simp [h1])]
      exact h3
  · intro p hp x hA
    rw [htr, List.mem_append]
    rcases List.mem_append.mp hp with h1 | h1
    · exact .inl (H.closed p h1 x hA)
    · simp at h1; subst h1
      by_cases hn : x ∈ new
      · exact .inr hn
      · left
        have := hcl x hA
        rw [hE.old x hn] at this
        have hlt : x < s.pathTree.length := H.len ▸ hA.lt.2
        refine (H.visited x).mpr ⟨_, List.getElem?_eq_getElem hlt, ?_⟩
        intro e
        rw [List.getElem?_eq_getElem hlt, e] at this
        exact this rfl
  · rw [htr, List.pairwise_append]
    refine ⟨?_, ?_, ?_⟩
    · refine H.sorted.imp_of_mem ?_
      intro a b ha hb hab
      rw [hdep a ha, hdep b hb]; exact hab
    · refine List.pairwise_of_forall_mem_list ?_
      intro a ha b hb
      simp [ha, hb]
    · intro a ha b hb
      rw [hdep a ha, if_pos hb]
      exact hle a ha
  · intro a ha b hb
    rw [hE.trav, hs] at ha hb
    have low : depth c ≤ (if a ∈ new then depth c + 1 else depth a) := by
      split
      · omega
      · next hn =>
        rcases List.mem_append.mp ha with h1 | h1
        · exact hcr a h1
        · exact absurd h1 hn
    have high : (if b ∈ new then depth c + 1 else depth b) ≤ depth c + 1 := by
      split
      · omega
      · next hn =>
        rcases List.mem_append.mp hb with h1 | h1
        · exact hle b (by simp [h1])
        · exact absurd h1 hn
    omega

/-- A path from the start to every visited cell, of length `depth`. -/
theorem Tree.path {g pt depth P Q} (H : Tree w h g pt depth P Q) :
    ∀ k x, depth x = k → ∀ (hx : x ∈ P ++ Q) (h0 : 0 < w * h) (hxl : x < w * h),
      ∃ p : (graph w h g).Walk ⟨x, hxl⟩ ⟨0, h0⟩, p.IsPath ∧ p.length = depth x ∧
        ∀ y ∈ p.support, depth y ≤ depth x := by
  intro k
  induction k with
  | zero =>
    intro x hk hx h0 hxl
    obtain ⟨e, he, hne⟩ := (H.visited x).mp hx
    cases e with
    | Start =>
      obtain rfl := (H.start x).mp he
      exact ⟨.nil, by simp, by simp [hk], by simp⟩
    | Path p => have := (H.par x p he).2.2; omega
    | Unvisited => exact absurd rfl hne
  | succ k ih =>
    intro x hk hx h0 hxl
    obtain ⟨e, he, hne⟩ := (H.visited x).mp hx
    cases e with
    | Start =>
      obtain rfl := (H.start x).mp he
      have := H.depth0; omega
    | Path p =>
      obtain ⟨hp, hA, hd⟩ := H.par x p he
      obtain ⟨q, hq, hql, hqs⟩ := ih p (by omega) (by simp [hp]) h0 hA.lt.1
      obtain ⟨_, _, hadj⟩ := hA
      refine ⟨.cons hadj.symm q, ?_, ?_, ?_⟩
      · rw [SimpleGraph.Walk.cons_isPath_iff]
        refine ⟨hq, fun hm => ?_⟩
        have := hqs _ hm
        simp only at this
        omega
      · simp [hql, hd]
      · intro y hy
        rw [SimpleGraph.Walk.support_cons] at hy
        rcases List.mem_cons.mp hy with rfl | hy
        · simp
        · have := hqs y hy; omega
    | Unvisited => exact absurd rfl hne

theorem path_length_eq_dist {V : Type} {G : SimpleGraph V} (hG : G.IsAcyclic) {u v : V}
    (p : G.Walk u v) (hp : p.IsPath) : p.length = G.dist u v := by
  obtain ⟨q, hq⟩ := SimpleGraph.Reachable.exists_walk_length_eq_dist (G := G) ⟨p⟩
  have := (hG.subsingleton_path u v).elim ⟨p, hp⟩ ⟨q, q.isPath_of_length_eq_dist hq⟩
  have : p = q := congrArg Subtype.val this
  rw [this, hq]

theorem Tree.dist {g pt depth P Q} (H : Tree w h g pt depth P Q) (hG : (graph w h g).IsAcyclic)
    {x : Nat} (hx : x ∈ P ++ Q) (h0 : 0 < w * h) (hxl : x < w * h) :
    (graph w h g).dist ⟨0, h0⟩ ⟨x, hxl⟩ = depth x := by
  obtain ⟨p, hp, hl, _⟩ := H.path _ x rfl hx h0 hxl
  rw [SimpleGraph.dist_comm, ← path_length_eq_dist hG p hp, hl]

/-! ### Reading the solution off the tree -/

theorem walk_append {g : List MazeNode} {x y : Nat} {d : MazeDirection} {ds : List MazeDirection} :
    ∀ {c : Nat} {cells : List Nat}, walk w h g c ds = some cells → cells.getLast? = some x →
      move w h g x d = some y → walk w h g c (ds ++ [d]) = some (cells ++ [y]) := by
  induction ds with
  | nil =>
    intro c cells h1 h2 h3
    simp [walk] at h1
    subst h1
    simp at h2; subst h2
    simp [walk, h3]
  | cons d' ds ih =>
    intro c cells h1 h2 h3
    simp only [walk, List.cons_append] at h1 ⊢
    cases hm : move w h g c d' with
    | none => simp [hm] at h1
    | some c' =>
      rw [hm] at h1
      simp only [Option.map_eq_some_iff] at h1 ⊢
      obtain ⟨cs, h4, rfl⟩ := h1
      have hne : cs ≠ [] := by
        rintro rfl
        cases ds <;> simp [walk] at h4
        split at h4 <;> simp at h4
      refine ⟨cs ++ [y], ih h4 ?_ h3, by simp⟩
      rw [List.getLast?_cons] at h2
      rw [List.getLast?_eq_some_getLast hne] at h2 ⊢
      simpa using h2

theorem stepDir_spec (oc : Bool) {g : List MazeNode} (hP : Perfect w h g) (hw : 2 ≤ w) (hn : w * h < 2 ^ 63) {x p : Nat}
    (hA : A w h g p x) : ∃ d, stepDir oc w x p = .ok d ∧ move w h g p d = some x := by
  obtain ⟨hp, hx⟩ := hA.lt
  have hww : w ≤ w * h := Nat.le_mul_of_pos_right _ (Nat.pos_of_ne_zero fun h0 => by rw [h0] at hp; simp at hp)
  have a1 := addW_ok (oc := oc) (show x + 1 < 2 ^ 64 by omega)
  have a2 := addW_ok (oc := oc) (show x + w < 2 ^ 64 by omega)
  rcases (A_iff (by omega) hp hx).mp hA with (⟨rfl, hm, ho⟩ | ⟨rfl, ho⟩) | (⟨rfl, hm, ho⟩ | ⟨rfl, ho⟩)
  · refine ⟨.Right, ?_, ?_⟩
    · simp [stepDir, a1, a2, show p ≠ p + 1 + 1 by omega, show p ≠ p + 1 + w by omega, subW]
    · simp [move, sideOpen, ho, nbr, hm]
  · refine ⟨.Down, ?_, ?_⟩
    · simp [stepDir, a1, a2, show p ≠ p + w + 1 by omega, show p ≠ p + w + w by omega,
        subW_ok (show 1 ≤ p + w by omega), show p ≠ p + w - 1 by omega]
    · simp [move, sideOpen, ho, nbr, hP.borderD p ho]
  · refine ⟨.Left, ?_, ?_⟩
    · simp [stepDir, a1]
    · have hm' : 0 < (x + 1) % w := by
        have h1 := Nat.div_add_mod x w
        have h3 : x + 1 = w * (x / w) + (x % w + 1) := by omega
        rw [h3, Nat.mul_add_mod, Nat.mod_eq_of_lt (by omega)]
        omega
      simp [move, sideOpen, ho, nbr, hm']
  · refine ⟨.Up, ?_, ?_⟩
    · simp [stepDir, a1, a2, show w ≠ 1 by omega]
    · simp [move, sideOpen, ho, nbr]

theorem solution_spec (oc : Bool) {g pt depth P Q} (hP : Perfect w h g) (hw : 2 ≤ w) (hn : w * h < 2 ^ 63)
    (H : Tree w h g pt depth P Q) :
    ∀ k x, depth x = k → x ∈ P ++ Q → ∀ acc, ∃ ds cells,
      loop (solutionBody oc w pt) (x, acc) = .ok (acc ++ ds) ∧ ds.length = depth x ∧
      walk w h g 0 ds.reverse = some cells ∧ cells.getLast? = some x ∧ cells.Nodup ∧
      ∀ y ∈ cells, depth y ≤ depth x := by
  intro k
  induction k with
  | zero =>
    intro x hk hx acc
    obtain ⟨e, he, hne⟩ := (H.visited x).mp hx
    cases e with
    | Start =>
      obtain rfl := (H.start x).mp he
      refine ⟨[], [0], ?_, by simp [hk], rfl, rfl, by simp, by simp⟩
      rw [loop_inr (a := acc)]
      · simp
      · simp [solutionBody, getP, he]
    | Path p => have := (H.par x p he).2.2; omega
    | Unvisited => exact absurd rfl hne
  | succ k ih =>
    intro x hk hx acc
    obtain ⟨e, he, hne⟩ := (H.visited x).mp hx
    cases e with
    | Start =>
      obtain rfl := (H.start x).mp he
      have := H.depth0; omega
    | Path p =>
      obtain ⟨hp, hA, hd⟩ := H.par x p he
      obtain ⟨d, hd1, hd2⟩ := stepDir_spec oc hP hw hn hA
      obtain ⟨ds, cells, h1, h2, h3, h4, h5, h6⟩ := ih p (by omega) (by simp [hp]) (acc ++ [d])
      refine ⟨d :: ds, cells ++ [x], ?_, by simp [h2, hd], ?_, by simp, ?_, ?_⟩
      · rw [loop_inl (s' := (p, acc ++ [d]))]
        · rw [h1]; simp
        · simp [solutionBody, getP, he, hd1]
      · rw [List.reverse_cons]
        exact walk_append h3 h4 hd2
      · rw [List.nodup_append]
        refine ⟨h5, by simp, ?_⟩
        rintro y hy z hz rfl
        simp at hz; subst hz
        have := h6 _ hy; omega
      · intro y hy
        rcases List.mem_append.mp hy with h | h
        · have := h6 y h; omega
        · simp at h; subst h; omega
    | Unvisited => exact absurd rfl hne

/-- In a maze of width 1 the depth of a cell is its number. -/
theorem depth_width_one {g pt depth P Q} (H : Tree 1 h g pt depth P Q) :
    ∀ k x, depth x = k → x ∈ P ++ Q → depth x = x := by
  intro k
  induction k using Nat.strongRecOn with
  | ind k ih =>
    intro x hk hx
    obtain ⟨e, he, hne⟩ := (H.visited x).mp hx
    cases e with
    | Start =>
      obtain rfl := (H.start x).mp he
      exact H.depth0
    | Path p =>
      obtain ⟨hp, hA, hd⟩ := H.par x p he
      have hpm : p ∈ P ++ Q := by simp [hp]
      have ihp := ih (depth p) (by omega) p rfl hpm
      obtain ⟨hpl, hxl⟩ := hA.lt
      rcases (A_iff (by omega) hpl hxl).mp hA with (⟨_, hm, _⟩ | ⟨rfl, ho⟩) | (⟨_, hm, _⟩ | ⟨rfl, ho⟩)
      · omega
      · omega
      · omega
      · exfalso
        obtain ⟨e', he', hne'⟩ := (H.visited _).mp hpm
        cases e' with
        | Start => have := (H.start _).mp he'; omega
        | Path p' =>
          obtain ⟨hp', hA', hd'⟩ := H.par _ p' he'
          have := ih (depth p') (by omega) p' rfl (by simp [hp'])
          have : p' = x := by omega
          subst this
          omega
        | Unvisited => exact absurd rfl hne'
    | Unvisited => exact absurd rfl hne

theorem solution_width_one (oc : Bool) {g pt depth P Q} (hn : h < 2 ^ 63) (H : Tree 1 h g pt depth P Q) :
    ∀ x, x ∈ P ++ Q → ∀ acc,
      loop (solutionBody oc 1 pt) (x, acc) = .ok (acc ++ List.replicate x .Right) := by
  intro x
  induction x with
  | zero =>
    intro hx acc
    rw [loop_inr (a := acc)]
    · simp
    · simp [solutionBody, getP, (H.start 0).mpr rfl]
  | succ x ih =>
    intro hx acc
    have hdx := depth_width_one H _ _ rfl hx
    obtain ⟨e, he, hne⟩ := (H.visited _).mp hx
    cases e with
    | Start => have := (H.start _).mp he; omega
    | Path p =>
      obtain ⟨hp, hA, hd⟩ := H.par _ p he
      have hpm : p ∈ P ++ Q := by simp [hp]
      have hpx := depth_width_one H _ _ rfl hpm
      obtain rfl : p = x := by omega
      rw [loop_inl (s' := (p, acc ++ [.Right]))]
      · rw [ih hpm, List.append_assoc, List.replicate_succ]; simp
      · have hx1 : p + 1 < 1 * h := H.lt hx
        simp [solutionBody, getP, he, stepDir, subW, addW_ok (show p + 1 + 1 < 2 ^ 64 by omega),
          show p ≠ p + 1 + 1 by omega]
    | Unvisited => exact absurd rfl hne

/-! ### Counting bottom cells -/

def isBottom (w h x : Nat) : Bool := x / w == h - 1

theorem bottom_iff (hw : 0 < w) (hh : 0 < h) {x : Nat} :
    (x < w * h ∧ isBottom w h x = true) ↔ x ∈ List.range' (w * (h - 1)) w := by
  obtain ⟨k, rfl⟩ : ∃ k, h = k + 1 := ⟨h - 1, by omega⟩
  simp only [isBottom, Nat.add_sub_cancel, beq_iff_eq, List.mem_range'_1, Nat.mul_succ]
  rw [Nat.div_eq_iff hw]
  have : k * w = w * k := Nat.mul_comm ..
  omega

theorem bottom_count_le {P : List Nat} (hw : 0 < w) (hh : 0 < h) (hall : ∀ x, x < w * h → x ∈ P) :
    w ≤ (P.filter (isBottom w h)).length := by
  have hn : (List.range' (w * (h - 1)) w).Nodup := List.nodup_range'
  have hs : List.range' (w * (h - 1)) w ⊆ P.filter (isBottom w h) := by
    intro x hx
    have := (bottom_iff hw hh).mpr hx
    exact List.mem_filter.mpr ⟨hall x this.1, this.2⟩
  have := (hn.subperm hs).length_le
  simpa using this

theorem bottom_all {P : List Nat} (hw : 0 < w) (hh : 0 < h) (hn : P.Nodup) (hl : ∀ x ∈ P, x < w * h)
    (hc : (P.filter (isBottom w h)).length = w) {x : Nat} (hx : x < w * h)
    (hb : isBottom w h x = true) : x ∈ P := by
  have hs : P.filter (isBottom w h) ⊆ List.range' (w * (h - 1)) w := by
    intro y hy
    obtain ⟨h1, h2⟩ := List.mem_filter.mp hy
    exact (bottom_iff hw hh).mp ⟨hl y h1, h2⟩
  have hp := ((hn.filter _).subperm hs).perm_of_length_le (by simp [hc])
  exact (List.mem_filter.mp (hp.mem_iff.mpr ((bottom_iff hw hh).mp ⟨hx, hb⟩))).1

/-! ### The whole search -/

/-- What the search returns: `e` is the exit, `sol` the directions. -/
structure Searched (w h : Nat) (g g' : List MazeNode) (sol : List MazeDirection) (e : Nat) : Prop where
  he : e < w * h
  bottom : isBottom w h e = true
  opened : ∃ hg : e < g.length, g' = g.set e { g[e] with down := false }
  far : ∀ (h0 : 0 < w * h) b (hb : b < w * h), isBottom w h b = true →
    (graph w h g).dist ⟨0, h0⟩ ⟨b, hb⟩ ≤ (graph w h g).dist ⟨0, h0⟩ ⟨e, he⟩
  len : ∀ h0 : 0 < w * h, sol.length = (graph w h g).dist ⟨0, h0⟩ ⟨e, he⟩
  wide : 2 ≤ w → ∃ cells, walk w h g 0 sol.reverse = some cells ∧ cells.getLast? = some e ∧ cells.Nodup
  narrow : w = 1 → sol = List.replicate (h - 1) .Right

/-- `J` is any further invariant of the order in which the cells are visited. -/
theorem bfs_spec (oc : Bool) {g : List MazeNode} (hP : Perfect w h g) (hw : 0 < w) (hh : 0 < h) (hn : w * h < 2 ^ 63)
    (J : List Nat → List Nat → Prop)
    (hJ : ∀ P c rest s s' new, J P (c :: rest) → c < w * h → s.traversal = rest →
      s.pathTree.length = w * h → expand oc g w c s = .ok s' → Ext w h g c s s' new →
      (∀ x ∈ P ++ c :: rest, x ∉ new) → J (P ++ [c]) (rest ++ new)) :
    ∀ k (P Q : List Nat) depth pt found, w * h - P.length = k → Tree w h g pt depth P Q → J P Q →
      found = (P.filter (isBottom w h)).length → found < w →
      ∃ g' sol e, loop (bfsBody oc w h g) ⟨pt, Q, found⟩ = .ok (g', sol) ∧ Searched w h g g' sol e ∧
        ∃ P rest, J P (e :: rest) ∧ ∀ b, b < w * h → isBottom w h b = true → b ∈ P ++ [e] := by
  intro k
  induction k using Nat.strongRecOn with
  | ind k ih =>
    intro P Q depth pt found hk H hj hf hfw
    have h0 : 0 < w * h := Nat.mul_pos hw hh
    cases Q with
    | nil =>
      exfalso
      have hall : ∀ x, x < w * h → x ∈ P := by
        intro x hx
        obtain ⟨h0, hx, ⟨p⟩⟩ := hP.reach x hx
        have key : ∀ {u v : Fin (w * h)} (p : (graph w h g).Walk u v), u.1 ∈ P → v.1 ∈ P := by
          intro u v p
          induction p with
          | nil => exact id
          | cons hadj p ih =>
            intro hu
            apply ih
            have := H.closed _ hu _ ⟨Fin.isLt _, Fin.isLt _, hadj⟩
            simpa using this
        exact key p (by simpa using H.zero_mem)
      have := bottom_count_le hw hh hall
      omega
    | cons c rest =>
      have hcm : c ∈ P ++ c :: rest := by simp
      have hc : c < w * h := H.lt hcm
      have hcg : c < g.length := hP.len ▸ hc
      have hw0 : w ≠ 0 := by omega
      have hPl : P.length < w * h := by
        have hsub : (P ++ [c]) ⊆ List.range (w * h) := by
          intro x hx
          rw [List.mem_range]
          rcases List.mem_append.mp hx with h1 | h1
          · exact H.lt (by simp [h1])
          · simp at h1; subst h1; exact hc
        have hnd : (P ++ [c]).Nodup := by
          have := H.nodup
          rw [show P ++ c :: rest = (P ++ [c]) ++ rest by simp] at this
          exact (List.nodup_append.mp this).1
        have := (hnd.subperm hsub).length_le
        simp at this
        omega
      have hndP : (P ++ [c]).Nodup := by
        have := H.nodup
        rw [show P ++ c :: rest = (P ++ [c]) ++ rest by simp] at this
        exact (List.nodup_append.mp this).1
      -- continue with the expanded state
      have cont : ∀ found', found' = ((P ++ [c]).filter (isBottom w h)).length → found' < w →
          bfsBody oc w h g ⟨pt, c :: rest, found⟩ =
            (do let s ← expand oc g w c ⟨pt, rest, found'⟩; return .inl s) →
          ∃ g' sol e, loop (bfsBody oc w h g) ⟨pt, c :: rest, found⟩ = .ok (g', sol) ∧
            Searched w h g g' sol e ∧
            ∃ P rest, J P (e :: rest) ∧ ∀ b, b < w * h → isBottom w h b = true → b ∈ P ++ [e] := by
        intro found' hf' hfw' hbody
        obtain ⟨s', new, e1, hE, hcl⟩ := expand_spec oc hP hw hn hc (s := ⟨pt, rest, found'⟩) H.len
        have H' := Tree.pop (s := ⟨pt, rest, found'⟩) H rfl hE hcl
        have hj' := hJ P c rest _ _ new hj hc rfl H.len e1 hE (by
          intro x hx hn
          obtain ⟨e, he, hne⟩ := (H.visited x).mp hx
          rw [(hE.mem x hn).1] at he
          exact hne (Option.some.inj he).symm)
        rw [e1] at hbody
        rw [loop_inl hbody]
        have htr := hE.trav
        obtain ⟨pt', Q', f'⟩ := s'
        have hff : f' = found' := hE.found
        subst hff
        simp only at htr
        exact ih (w * h - (P ++ [c]).length) (by simp; omega) (P ++ [c]) Q' _ pt' f' rfl H' (htr ▸ hj') hf' hfw'
      by_cases hb : c / w = h - 1
      · have hbc : isBottom w h c = true := by simp [isBottom, hb]
        have hcount : ((P ++ [c]).filter (isBottom w h)).length = found + 1 := by
          simp [List.filter_append, hbc, hf]
        by_cases hfin : found + 1 = w
        · -- return
          have hmemP : ∀ b, b < w * h → isBottom w h b = true → b ∈ P ++ [c] := by
            intro b hb1 hb2
            refine bottom_all hw hh hndP ?_ (hcount.trans hfin) hb1 hb2
            intro x hx
            rcases List.mem_append.mp hx with h1 | h1
            · exact H.lt (by simp [h1])
            · simp at h1; subst h1; exact hc
          have hfar : ∀ b, b < w * h → isBottom w h b = true → b ∈ P ++ c :: rest ∧ depth b ≤ depth c := by
            intro b hb1 hb2
            rcases List.mem_append.mp (hmemP b hb1 hb2) with h1 | h1
            · exact ⟨by simp [h1], (List.pairwise_append.mp H.sorted).2.2 b h1 c (by simp)⟩
            · simp at h1; subst h1; exact ⟨by simp, Nat.le_refl _⟩
          have fin : ∀ sol, loop (solutionBody oc w pt) (c, []) = .ok sol → sol.length = depth c →
              (2 ≤ w → ∃ cells, walk w h g 0 sol.reverse = some cells ∧ cells.getLast? = some c ∧
                cells.Nodup) → (w = 1 → sol = List.replicate (h - 1) .Right) →
              ∃ g' sol e, loop (bfsBody oc w h g) ⟨pt, c :: rest, found⟩ = .ok (g', sol) ∧
                Searched w h g g' sol e ∧
                ∃ P rest, J P (e :: rest) ∧ ∀ b, b < w * h → isBottom w h b = true → b ∈ P ++ [e] := by
            intro sol hs hlen hwide hnarrow
            refine ⟨g.set c { g[c] with down := false }, sol, c, ?_,
              ⟨hc, hbc, ⟨hcg, rfl⟩, ?_, ?_, hwide, hnarrow⟩, P, rest, hj, hmemP⟩
            · apply loop_inr
              simp [bfsBody, hw0, subW_ok (show 1 ≤ h by omega), hb, hfin, getP_ok hcg, setP_ok hcg, hs]
            · intro h0 b hb1 hb2
              obtain ⟨h1, h2⟩ := hfar b hb1 hb2
              rw [H.dist hP.acyclic h1 h0 hb1, H.dist hP.acyclic hcm h0 hc]
              exact h2
            · intro h0
              rw [H.dist hP.acyclic hcm h0 hc]; exact hlen
          by_cases hw2 : 2 ≤ w
          · obtain ⟨ds, cells, s1, s2, s3, s4, s5, _⟩ := solution_spec oc hP hw2 hn H _ c rfl hcm []
            exact fin ds (by simpa using s1) s2 (fun _ => ⟨cells, s3, s4, s5⟩) (fun e => by omega)
          · have hw1 : w = 1 := by omega
            subst hw1
            have hcc : c = h - 1 := by simpa using hb
            have hdc := depth_width_one H _ _ rfl hcm
            refine fin (List.replicate c .Right) ?_ (by simp [hdc]) (fun e => absurd e hw2)
              (fun _ => by rw [hcc])
            simpa using solution_width_one oc (by omega) H c hcm []
        · refine cont (found + 1) hcount.symm (by omega) ?_
          simp [bfsBody, hw0, subW_ok (show 1 ≤ h by omega), hb, hfin]
      · have hbc : isBottom w h c = false := by simp [isBottom, hb]
        refine cont found (by simp [List.filter_append, hbc, hf]) hfw ?_
        simp [bfsBody, hw0, subW_ok (show 1 ≤ h by omega), hb]

theorem init_tree (hw : 0 < w) (hh : 0 < h) (g : List MazeNode) :
    Tree w h g ((List.replicate (w * h) PathNode.Unvisited).set 0 .Start) (fun _ => 0) [] [0] := by
  have h0 : 0 < w * h := Nat.mul_pos hw hh
  have hget : ∀ x e, ((List.replicate (w * h) PathNode.Unvisited).set 0 .Start)[x]? = some e ↔
      (x = 0 ∧ e = .Start) ∨ (x ≠ 0 ∧ x < w * h ∧ e = .Unvisited) := by
    intro x e
    rw [List.getElem?_set]
    by_cases hx : 0 = x
    · subst hx; simp [h0, eq_comm]
    · simp [hx, Ne.symm hx, List.getElem?_replicate, eq_comm]
  refine ⟨by simp, by simp, ?_, ?_, rfl, ?_, by simp, by simp, by simp⟩
  · intro x
    simp only [List.nil_append, List.mem_singleton, hget]
    constructor
    · rintro rfl; exact ⟨.Start, .inl ⟨rfl, rfl⟩, by simp⟩
    · rintro ⟨e, ⟨h1, _⟩ | ⟨_, _, h1⟩, h2⟩
      · exact h1
      · exact absurd h1 h2
  · intro x; rw [hget]; simp
  · intro x p hx
    rw [hget] at hx
    simp at hx

theorem createMaze_order (oc : Bool) (rnd : Nat → Nat) (hw : 0 < w) (hh : 0 < h)
    (hn : w * h * 24 < 2 ^ 63) (alg : MazeAlgorithm) (J : List MazeNode → List Nat → List Nat → Prop)
    (hJ0 : ∀ g, J g [] [0])
    (hJ : ∀ g, Perfect w h g → ∀ P c rest s s' new, J g P (c :: rest) → c < w * h → s.traversal = rest →
      s.pathTree.length = w * h → expand oc g w c s = .ok s' → Ext w h g c s s' new →
      (∀ x ∈ P ++ c :: rest, x ∉ new) → J g (P ++ [c]) (rest ++ new)) :
    ∃ g g' sol e, createMaze oc rnd w h alg = .ok (g', sol) ∧ Perfect w h g ∧ Searched w h g g' sol e ∧
      recursiveBacktrack oc rnd w h = .ok g ∧
      ∃ P rest, J g P (e :: rest) ∧ ∀ b, b < w * h → isBottom w h b = true → b ∈ P ++ [e] := by
  obtain ⟨g, hg, hP⟩ := recursiveBacktrack_spec oc rnd hw hh hn
  have h0 : 0 < w * h := Nat.mul_pos hw hh
  obtain ⟨g', sol, e, h1, h2, h3⟩ := bfs_spec oc hP hw hh (by omega) (J g) (hJ g hP) _ [] [0] _ _ 0 rfl
    (init_tree hw hh g) (hJ0 g) rfl hw
  refine ⟨g, g', sol, e, ?_, hP, h2, hg, h3⟩
  cases alg
  unfold createMaze
  simp only [hg, Prog.ok_bind, mulW_ok (show w * h < 2 ^ 64 by omega), vecRepeat,
    show w * h * 16 < 2 ^ 63 by omega, if_true]
  rw [setP_ok (by simpa using h0)]
  exact h1

theorem createMaze_spec (oc : Bool) (rnd : Nat → Nat) (hw : 0 < w) (hh : 0 < h)
    (hn : w * h * 24 < 2 ^ 63) (alg : MazeAlgorithm) :
    ∃ g g' sol e, createMaze oc rnd w h alg = .ok (g', sol) ∧ Perfect w h g ∧ Searched w h g g' sol e ∧
      recursiveBacktrack oc rnd w h = .ok g := by
  obtain ⟨g, g', sol, e, h1, h2, h3, h4, _⟩ := createMaze_order oc rnd hw hh hn alg (fun _ _ _ => True)
    (fun _ => trivial) (fun _ _ _ _ _ _ _ _ _ _ _ _ _ _ _ => trivial)
  exact ⟨g, g', sol, e, h1, h2, h3, h4⟩

end Maze
