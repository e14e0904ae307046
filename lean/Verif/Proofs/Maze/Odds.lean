import Verif.Spec.MazeOdds
import Verif.Proofs.Maze.Rooted
import Verif.Proofs.Maze.Ends
import Verif.Proofs.Maze.Transpose

/-! Helper lemmas: which orders of the directions make a given maze. -/
namespace Maze
open Spec

variable {w h : Nat} {g : List MazeNode}

/-! ### Routes in a tree -/

theorem onRoute_lt {a b : Nat} (H : OnRoute w h g a b) : a < w * h ∧ b < w * h := by
  obtain ⟨_, ha, hb, _⟩ := H
  exact ⟨ha, hb⟩

theorem onRoute_refl (hT : (graph w h g).IsTree) {a : Nat} (ha : a < w * h) : OnRoute w h g a a := by
  have h0 : 0 < w * h := by omega
  exact ⟨h0, ha, ha, Anc.refl hT.connected _⟩

theorem onRoute_root (hT : (graph w h g).IsTree) {a : Nat} (ha : a < w * h) : OnRoute w h g 0 a := by
  have h0 : 0 < w * h := by omega
  exact ⟨h0, h0, ha, Anc.root hT.connected _⟩

theorem onRoute_trans (hT : (graph w h g).IsTree) {a b c : Nat} (h1 : OnRoute w h g a b) (h2 : OnRoute w h g b c) :
    OnRoute w h g a c := by
  obtain ⟨h0, ha, hb, p⟩ := h1
  obtain ⟨_, _, hc, q⟩ := h2
  exact ⟨h0, ha, hc, Anc.trans hT.isAcyclic p q⟩

theorem onRoute_antisymm (hT : (graph w h g).IsTree) {a b : Nat} (h1 : OnRoute w h g a b) (h2 : OnRoute w h g b a) :
    a = b := by
  obtain ⟨h0, ha, hb, p⟩ := h1
  obtain ⟨_, _, _, q⟩ := h2
  exact congrArg Fin.val (Anc.antisymm hT.isAcyclic p q)

/-- `u` is the cell after `c` on the route to `u`, in direction `d`. -/
def Kid (w h : Nat) (g : List MazeNode) (c : Nat) (d : MazeDirection) (u : Nat) : Prop :=
  move w h g c d = some u ∧ OnRoute w h g c u

theorem move_nbr {c u : Nat} {d : MazeDirection} (H : move w h g c d = some u) : nbr w h c d = some u := by
  unfold move at H
  split at H
  · exact H
  · cases H

theorem Kid.child (hw : 0 < w) {c u : Nat} {d : MazeDirection} (H : Kid w h g c d u) :
    ∃ (h0 : 0 < w * h) (hc : c < w * h) (hu : u < w * h), Child (graph w h g) ⟨0, h0⟩ ⟨c, hc⟩ ⟨u, hu⟩ := by
  obtain ⟨h1, h0, hc, hu, p⟩ := H
  obtain ⟨_, h2⟩ := move_adj hw hc h1
  exact ⟨h0, hc, hu, h2, p⟩

theorem Child.kid (hw : 0 < w) {h0 : 0 < w * h} {c u : Fin (w * h)} (H : Child (graph w h g) ⟨0, h0⟩ c u) :
    ∃ d, Kid w h g c d u := by
  obtain ⟨d, hd⟩ := adj_move hw H.adj
  exact ⟨d, hd, h0, c.2, u.2, H.anc⟩

theorem Kid.ne (hw : 0 < w) {c u : Nat} {d : MazeDirection} (H : Kid w h g c d u) : c ≠ u := by
  obtain ⟨h0, hc, hu, hk⟩ := H.child hw
  exact fun e => hk.adj.ne (Fin.ext e)

theorem onRoute_next (hw : 0 < w) {c x : Nat} (H : OnRoute w h g c x) (hne : c ≠ x) :
    ∃ d u, Kid w h g c d u ∧ OnRoute w h g u x := by
  obtain ⟨h0, hc, hx, p⟩ := H
  obtain ⟨u, h1, h2⟩ := Anc.next p (fun e => hne (congrArg Fin.val e))
  obtain ⟨d, hd⟩ := Child.kid hw h1
  exact ⟨d, u, hd, h0, u.2, hx, h2⟩

theorem Kid.unique (hw : 0 < w) (hT : (graph w h g).IsTree) {c u u' x : Nat} {d d' : MazeDirection}
    (h1 : Kid w h g c d u) (h2 : Kid w h g c d' u') (h3 : OnRoute w h g u x) (h4 : OnRoute w h g u' x) :
    d = d' ∧ u = u' := by
  obtain ⟨h0, hc, hu, k1⟩ := h1.child hw
  obtain ⟨_, _, hu', k2⟩ := h2.child hw
  obtain ⟨_, _, hx, a1⟩ := h3
  obtain ⟨_, _, _, a2⟩ := h4
  have e : u = u' := congrArg Fin.val (Child.unique hT k1 k2 a1 a2)
  subst e
  exact ⟨nbr_inj hw (move_nbr h1.1) (move_nbr h2.1), rfl⟩

theorem Kid.before (hw : 0 < w) (hT : (graph w h g).IsTree) {c b x : Nat} {d : MazeDirection}
    (h1 : Kid w h g c d b) (h2 : OnRoute w h g x b) : x = b ∨ OnRoute w h g x c := by
  obtain ⟨h0, hc, hu, k1⟩ := h1.child hw
  obtain ⟨_, hx, _, a1⟩ := h2
  rcases Child.before hT k1 a1 with e | e
  · exact .inl (congrArg Fin.val e)
  · exact .inr ⟨h0, hx, hc, e⟩

theorem kid_of_move (hw : 0 < w) (hT : (graph w h g).IsTree) {c b : Nat} {d : MazeDirection} (hc : c < w * h)
    (H : move w h g c d = some b) : Kid w h g c d b ∨ OnRoute w h g b c := by
  obtain ⟨hb, h1⟩ := move_adj hw hc H
  have h0 : 0 < w * h := by omega
  rcases Child.of_adj (r := ⟨0, h0⟩) hT h1 with k | k
  · exact .inl ⟨H, h0, hc, hb, k.anc⟩
  · exact .inr ⟨h0, hb, hc, k.anc⟩

/-! ### What the search does -/

/-- In the list `l` of directions of cell `c`, no direction to a cell beyond a passage comes before the direction of
that passage, unless that cell is in `V`. -/
def Ordered (w h : Nat) (g : List MazeNode) (V : List Nat) (c : Nat) (l : List MazeDirection) : Prop :=
  ∀ pre e post, l = pre ++ e :: post → ∀ v, nbr w h c e = some v → v ∉ V →
    ∀ d u, Kid w h g c d u → OnRoute w h g u v → d = e ∨ d ∈ pre

/-- The visited cells when the search is in cell `c`: with every cell all cells before it, and all cells beyond it
unless it lies on the route to `c`. -/
structure Between (w h : Nat) (g : List MazeNode) (V : List Nat) (c : Nat) : Prop where
  lt : c < w * h
  here : c ∈ V
  before : ∀ x ∈ V, ∀ y, OnRoute w h g y x → y ∈ V
  after : ∀ x ∈ V, OnRoute w h g x c ∨ ∀ y, OnRoute w h g x y → y ∈ V

theorem Between.enter (hw : 0 < w) (hT : (graph w h g).IsTree) {V : List Nat} {c b : Nat} {d : MazeDirection}
    (H : Between w h g V c) (hk : Kid w h g c d b) : Between w h g (b :: V) b := by
  refine ⟨(onRoute_lt hk.2).2, by simp, ?_, ?_⟩
  · intro x hx y hy
    rcases List.mem_cons.mp hx with rfl | hx
    · rcases hk.before hw hT hy with rfl | hy
      · simp
      · exact List.mem_cons_of_mem _ (H.before c H.here y hy)
    · exact List.mem_cons_of_mem _ (H.before x hx y hy)
  · intro x hx
    rcases List.mem_cons.mp hx with rfl | hx
    · exact .inl (onRoute_refl hT (onRoute_lt hk.2).2)
    · rcases H.after x hx with h1 | h1
      · exact .inl (onRoute_trans hT h1 hk.2)
      · exact .inr fun y hy => List.mem_cons_of_mem _ (h1 y hy)

/-- The cells visited when the directions `ds` of cell `c` have been tried. -/
def Visits (w h : Nat) (g : List MazeNode) (V : List Nat) (c : Nat) (ds : List MazeDirection) (V' : List Nat) : Prop :=
  ∀ x, x ∈ V' ↔ x ∈ V ∨ ∃ d ∈ ds, ∃ u, Kid w h g c d u ∧ OnRoute w h g u x

/-- All directions of a new cell have been tried. -/
theorem Visits.all (hw : 0 < w) (hT : (graph w h g).IsTree) {V V' : List Nat} {b : Nat} {ds : List MazeDirection}
    (hb : b < w * h) (hds : ∀ d, d ∈ ds) (H : Visits w h g (b :: V) b ds V') (x : Nat) :
    x ∈ V' ↔ x ∈ V ∨ OnRoute w h g b x := by
  rw [H x]
  constructor
  · rintro (h1 | ⟨d, _, u, hk, hx⟩)
    · rcases List.mem_cons.mp h1 with rfl | h1
      · exact .inr (onRoute_refl hT hb)
      · exact .inl h1
    · exact .inr (onRoute_trans hT hk.2 hx)
  · rintro (h1 | h1)
    · exact .inl (List.mem_cons_of_mem _ h1)
    · by_cases e : b = x
      · exact .inl (by simp [e])
      · obtain ⟨d, u, hk, hx⟩ := onRoute_next hw h1 e
        exact .inr ⟨d, hds d, u, hk, hx⟩

theorem Between.leave (hw : 0 < w) (hT : (graph w h g).IsTree) {V V' : List Nat} {c b : Nat} {d : MazeDirection}
    (H : Between w h g V c) (hk : Kid w h g c d b) (hV : ∀ x, x ∈ V' ↔ x ∈ V ∨ OnRoute w h g b x) :
    Between w h g V' c := by
  refine ⟨H.lt, (hV c).mpr (.inl H.here), ?_, ?_⟩
  · intro x hx y hy
    rw [hV] at hx ⊢
    rcases hx with hx | hx
    · exact .inl (H.before x hx y hy)
    · rcases (Anc.chain (G := graph w h g) hT.isAcyclic
        (r := ⟨0, by have := H.lt; omega⟩) (a := ⟨y, (onRoute_lt hy).1⟩) (b := ⟨b, (onRoute_lt hx).1⟩)
        (x := ⟨x, (onRoute_lt hx).2⟩) (by obtain ⟨_, _, _, p⟩ := hy; exact p)
        (by obtain ⟨_, _, _, p⟩ := hx; exact p)) with h1 | h1
      · rcases hk.before hw hT ⟨_, _, _, h1⟩ with rfl | h1
        · exact .inr (onRoute_refl hT (onRoute_lt hx).1)
        · exact .inl (H.before c H.here y h1)
      · exact .inr ⟨_, _, _, h1⟩
  · intro x hx
    rw [hV] at hx
    rcases hx with hx | hx
    · rcases H.after x hx with h1 | h1
      · exact .inl h1
      · exact .inr fun y hy => (hV y).mpr (.inl (h1 y hy))
    · exact .inr fun y hy => (hV y).mpr (.inr (onRoute_trans hT hx hy))

/-- A neighbour not yet visited lies beyond `c`. -/
theorem Between.beyond (hD : DepthFirst w h g) {V : List Nat} {c v : Nat} {e : MazeDirection}
    (H : Between w h g V c) (hv : nbr w h c e = some v) (hn : v ∉ V) : OnRoute w h g c v := by
  rcases hD c v e H.lt hv with h1 | h1
  · exact h1
  · exact absurd (H.before c H.here v h1) hn

theorem Visits.nil {V : List Nat} {c : Nat} : Visits w h g V c [] V := by intro x; simp

theorem Visits.skip {V V' : List Nat} {c : Nat} {d : MazeDirection} {ds : List MazeDirection}
    (hT : (graph w h g).IsTree) (hw : 0 < w)
    (B : Between w h g V c) (hb : ∀ b, nbr w h c d = some b → b ∈ V) (H : Visits w h g V c ds V') :
    Visits w h g V c (d :: ds) V' := by
  intro x
  rw [H x]
  constructor
  · rintro (h1 | ⟨d', h1, h2⟩)
    · exact .inl h1
    · exact .inr ⟨d', List.mem_cons_of_mem _ h1, h2⟩
  · rintro (h1 | ⟨d', h1, u, h2, h3⟩)
    · exact .inl h1
    · rcases List.mem_cons.mp h1 with rfl | h1
      · rcases B.after u (hb u (move_nbr h2.1)) with h4 | h4
        · exact absurd (onRoute_antisymm hT h2.2 h4) (h2.ne hw)
        · exact .inl (h4 x h3)
      · exact .inr ⟨d', h1, u, h2, h3⟩

theorem Visits.enter {V V1 V' : List Nat} {c b : Nat} {d : MazeDirection} {ds : List MazeDirection}
    (hk : Kid w h g c d b) (hV : ∀ x, x ∈ V1 ↔ x ∈ V ∨ OnRoute w h g b x) (H : Visits w h g V1 c ds V') :
    Visits w h g V c (d :: ds) V' := by
  intro x
  rw [H x, hV x]
  constructor
  · rintro ((h1 | h1) | ⟨d', h1, h2⟩)
    · exact .inl h1
    · exact .inr ⟨d, by simp, b, hk, h1⟩
    · exact .inr ⟨d', List.mem_cons_of_mem _ h1, h2⟩
  · rintro (h1 | ⟨d', h1, u, h2, h3⟩)
    · exact .inl (.inl h1)
    · rcases List.mem_cons.mp h1 with rfl | h1
      · obtain rfl : u = b := Option.some.inj (h2.1.symm.trans hk.1)
        exact .inl (.inr h3)
      · exact .inr ⟨d', h1, u, h2, h3⟩

/-- Every passage of `m` is one of `g`. -/
def Within (m g : List MazeNode) : Prop :=
  ∀ x, (rightOpen m x = true → rightOpen g x = true) ∧ (downOpen m x = true → downOpen g x = true)

theorem within_open {m : List MazeNode} {c : Nat} {d : MazeDirection} (hm : Within m g)
    (ho : sideOpen w g c d = true) : Within (openSide w m c d) g := by
  intro x
  have hx := hm x
  cases d <;> simp only [openSide, rightOpen, downOpen, sideOpen, List.getElem?_modify] at hx ho ⊢
  · by_cases e : c = x
    · subst e; cases hz : m[c]? <;> simp_all
    · simpa [e] using hx
  · by_cases e : c = x
    · subst e; cases hz : m[c]? <;> simp_all
    · simpa [e] using hx
  · by_cases e : c - 1 = x
    · subst e; cases hz : m[c - 1]? <;> simp_all
    · simpa [e] using hx
  · by_cases e : c - w = x
    · subst e; cases hz : m[c - w]? <;> simp_all
    · simpa [e] using hx

theorem open_side {m : List MazeNode} {c b : Nat} {d : MazeDirection} (hm : m.length = w * h) (hc : c < w * h)
    (hb : nbr w h c d = some b) : sideOpen w (openSide w m c d) c d = true := by
  have h1 : c - 1 < w * h := by omega
  have h2 : c - w < w * h := by omega
  rw [← hm] at hc h1 h2
  cases d <;> simp [openSide, sideOpen, rightOpen, downOpen, hc, h1, h2]

theorem within_side {m : List MazeNode} (H : Within m g) {c : Nat} {d : MazeDirection}
    (hs : sideOpen w m c d = true) : sideOpen w g c d = true := by
  cases d
  · exact (H _).1 hs
  · exact (H _).2 hs
  · exact (H _).1 hs
  · exact (H _).2 hs

theorem Explores.length {ord c ds} {s t : List Nat × List MazeNode} (H : Explores w h ord c ds s t) :
    t.2.length = s.2.length := by
  induction H with
  | nil => rfl
  | skip _ _ ih => exact ih
  | enter _ _ _ _ ih1 ih2 => rw [ih2, ih1, openSide_length]

theorem openSide_within {m : List MazeNode} {c : Nat} {d : MazeDirection} : Within m (openSide w m c d) := by
  have key : ∀ (i : Nat) (f : MazeNode → MazeNode), (∀ n : MazeNode, (n.right = false → (f n).right = false) ∧
      (n.down = false → (f n).down = false)) → Within m (m.modify i f) := by
    intro i f hf x
    unfold rightOpen downOpen
    rw [List.getElem?_modify]
    cases m[x]? with
    | none => simp
    | some n =>
      by_cases hx : i = x
      · simpa [hx] using hf n
      · simp [hx]
  cases d <;> exact key _ _ fun n => ⟨fun _ => by simp_all, fun _ => by simp_all⟩

theorem Within.trans {a b c : List MazeNode} (h1 : Within a b) (h2 : Within b c) : Within a c :=
  fun x => ⟨fun hx => (h2 x).1 ((h1 x).1 hx), fun hx => (h2 x).2 ((h1 x).2 hx)⟩

theorem explores_within {ord c ds} {s t : List Nat × List MazeNode} (H : Explores w h ord c ds s t) :
    Within s.2 t.2 := by
  induction H with
  | nil => exact fun _ => ⟨id, id⟩
  | skip _ _ ih => exact ih
  | enter _ _ _ _ ih1 ih2 => exact openSide_within.trans (ih1.trans ih2)

theorem Kid.not_mem (hw : 0 < w) (hT : (graph w h g).IsTree) {V : List Nat} {c d u v} (B : Between w h g V c)
    (hk : Kid w h g c d u) (hr : OnRoute w h g u v) (hn : v ∉ V) : u ∉ V := by
  intro hu
  rcases B.after u hu with h1 | h1
  · exact hk.ne hw (onRoute_antisymm hT hk.2 h1)
  · exact hn (h1 v hr)

/-- If the orders suit the tree `g`, the search opens only passages of `g`. -/
theorem explores_suits (hw : 0 < w) (hT : (graph w h g).IsTree) (hD : DepthFirst w h g)
    {ord : Nat → List MazeDirection} (hall : ∀ c, c < w * h → ∀ d, d ∈ ord c)
    (hord : ∀ c, c < w * h → Ordered w h g [] c (ord c)) {c : Nat} {ds : List MazeDirection}
    {s t : List Nat × List MazeNode} (H : Explores w h ord c ds s t) (B : Between w h g s.1 c)
    (ho : Ordered w h g s.1 c ds) (hs : Within s.2 g) :
    Visits w h g s.1 c ds t.1 ∧ Within t.2 g := by
  induction H with
  | nil => exact ⟨.nil, hs⟩
  | @skip c d ds s t hb ht ih =>
    obtain ⟨h1, h2⟩ := ih B (fun pre e post he v hv hn d' u hk hr => by
      rcases ho (d :: pre) e post (by simp [he]) v hv hn d' u hk hr with h1 | h1
      · exact .inl h1
      · rcases List.mem_cons.mp h1 with rfl | h1
        · exact absurd (hb u (move_nbr hk.1)) (hk.not_mem hw hT B hr hn)
        · exact .inr h1) hs
    exact ⟨h1.skip hT hw B hb, h2⟩
  | @enter c d ds b s s1 t hb hn h1 ht ih1 ih2 =>
    have hcb := B.beyond hD hb hn
    have hne : c ≠ b := by rintro rfl; exact hn B.here
    obtain ⟨d', u, hk, hr⟩ := onRoute_next hw hcb hne
    obtain rfl : d' = d := by
      rcases ho [] d ds rfl b hb hn d' u hk hr with e | e
      · exact e
      · cases e
    obtain rfl : b = u := Option.some.inj (hb.symm.trans (move_nbr hk.1))
    have hbl := (onRoute_lt hcb).2
    have hopen : sideOpen w g c d' = true := by
      have := hk.1
      unfold move at this
      split at this
      · assumption
      · cases this
    obtain ⟨v1, w1⟩ := ih1 (B.enter hw hT hk)
      (fun pre e post he v hv _ d u hk hr => hord b hbl pre e post he v hv (by simp) d u hk hr)
      (within_open hs hopen)
    have hV := Visits.all hw hT hbl (hall b hbl) v1
    obtain ⟨v2, w2⟩ := ih2 (B.leave hw hT hk hV) (fun pre e post he v hv hnv d u hk' hr' => by
      have hnv' : v ∉ s.1 := fun hx => hnv ((hV v).mpr (.inl hx))
      rcases ho (d' :: pre) e post (by simp [he]) v hv hnv' d u hk' hr' with h1 | h1
      · exact .inl h1
      · rcases List.mem_cons.mp h1 with rfl | h1
        · obtain rfl : b = u := Option.some.inj (hk.1.symm.trans hk'.1)
          exact absurd ((hV v).mpr (.inr hr')) hnv
        · exact .inr h1) w1
    exact ⟨v2.enter hk hV, w2⟩

/-- If the search opens only passages of the tree `g`, the orders of the cells it enters suit `g`. -/
theorem explores_ordered (hw : 0 < w) (hT : (graph w h g).IsTree)
    {ord : Nat → List MazeDirection} (hall : ∀ c, c < w * h → ∀ d, d ∈ ord c) {c : Nat} {ds : List MazeDirection}
    {s t : List Nat × List MazeNode} (H : Explores w h ord c ds s t) (hl : s.2.length = w * h)
    (B : Between w h g s.1 c) (ht : Within t.2 g) :
    Visits w h g s.1 c ds t.1 ∧ Ordered w h g s.1 c ds ∧ ∀ x ∈ t.1, x ∉ s.1 → Ordered w h g [] x (ord x) := by
  induction H with
  | nil => exact ⟨.nil, by intro pre e post he; simp at he, fun x h1 h2 => absurd h1 h2⟩
  | @skip c d ds s t hb ht' ih =>
    obtain ⟨h1, h2, h3⟩ := ih hl B ht
    refine ⟨h1.skip hT hw B hb, ?_, h3⟩
    intro pre e post he v hv hnv d' u hk hr
    cases pre with
    | nil =>
      obtain ⟨rfl, rfl⟩ : d = e ∧ ds = post := by simpa using he
      exact absurd (hb v hv) hnv
    | cons p pre =>
      obtain ⟨rfl, he'⟩ : d = p ∧ ds = pre ++ e :: post := by simpa using he
      rcases h2 pre e post he' v hv hnv d' u hk hr with h4 | h4
      · exact .inl h4
      · exact .inr (List.mem_cons_of_mem _ h4)
  | @enter c d ds b s s1 t hb hn h1 ht' ih1 ih2 =>
    have w1 := (explores_within ht').trans ht
    have w0 := (explores_within h1).trans w1
    have hmove : move w h g c d = some b := by
      unfold move
      rw [if_pos (within_side w0 (open_side hl B.lt hb))]
      exact hb
    have hk : Kid w h g c d b := by
      rcases kid_of_move hw hT B.lt hmove with hk | hk
      · exact hk
      · exact absurd (B.before c B.here b hk) hn
    have hbl := (onRoute_lt hk.2).2
    obtain ⟨v1, o1, n1⟩ := ih1 (by rw [openSide_length]; exact hl) (B.enter hw hT hk) w1
    have hV := Visits.all hw hT hbl (hall b hbl) v1
    obtain ⟨v2, o2, n2⟩ := ih2 (by rw [Explores.length h1, openSide_length]; exact hl) (B.leave hw hT hk hV) ht
    refine ⟨v2.enter hk hV, ?_, ?_⟩
    · intro pre e post he v hv hnv d' u hk' hr'
      cases pre with
      | nil =>
        obtain ⟨rfl, rfl⟩ : d = e ∧ ds = post := by simpa using he
        obtain rfl : b = v := Option.some.inj (hb.symm.trans hv)
        exact .inl (hk'.unique hw hT hk hr' (onRoute_refl hT hbl)).1
      | cons p pre =>
        obtain ⟨rfl, he'⟩ : d = p ∧ ds = pre ++ e :: post := by simpa using he
        by_cases hv1 : v ∈ s1.1
        · rcases (hV v).mp hv1 with hx | hx
          · exact absurd hx hnv
          · exact .inr (by simp [(hk'.unique hw hT hk hr' hx).1])
        · rcases o2 pre e post he' v hv hv1 d' u hk' hr' with h4 | h4
          · exact .inl h4
          · exact .inr (List.mem_cons_of_mem _ h4)
    · intro x hx hnx
      by_cases hx1 : x ∈ s1.1
      · by_cases hxb : x = b
        · subst hxb
          intro pre e post he v hv _ d' u hk' hr'
          refine o1 pre e post he v hv ?_ d' u hk' hr'
          intro hvm
          rcases List.mem_cons.mp hvm with rfl | hvm
          · exact hk'.ne hw (onRoute_antisymm hT hk'.2 hr')
          · exact hn (B.before v hvm _ (onRoute_trans hT hk'.2 hr'))
        · exact n1 x hx1 (by simp [hxb, hnx])
      · exact n2 x hx hx1

end Maze
