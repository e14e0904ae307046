import Verif.Proofs.Maze.Final
import Verif.Proofs.Maze.Dfs

/-!
Mazes that consist of a single path through all cells, and distances in a maze.
-/
namespace Maze
open Maze.Spec

section
variable {V : Type} {G : SimpleGraph V}

/-- A function that grows by at most one along each edge bounds the length of walks. -/
theorem lipschitz_walk (f : V → Nat) (hf : ∀ a b, G.Adj a b → f b ≤ f a + 1) {a b : V} (p : G.Walk a b) :
    f b ≤ f a + p.length := by
  induction p with
  | nil => simp
  | cons h p ih =>
    have := hf _ _ h
    rw [SimpleGraph.Walk.length_cons]
    omega

theorem lipschitz_dist (hG : G.Connected) (f : V → Nat) (hf : ∀ a b, G.Adj a b → f b ≤ f a + 1) (a b : V) :
    f b ≤ f a + G.dist a b := by
  obtain ⟨p, hp⟩ := hG.exists_walk_length_eq_dist a b
  rw [← hp]
  exact lipschitz_walk f hf p

/-- The vertices are numbered, and the edges are the pairs of successive numbers. -/
structure Line (G : SimpleGraph V) (n : Nat) (pos : V → Nat) : Prop where
  lt : ∀ a, pos a < n
  inj : ∀ a b, pos a = pos b → a = b
  surj : ∀ i < n, ∃ a, pos a = i
  adj : ∀ a b, G.Adj a b ↔ pos a + 1 = pos b ∨ pos b + 1 = pos a

variable {n : Nat} {pos : V → Nat}

theorem Line.walk (L : Line G n pos) {a : V} (ha : pos a = 0) : ∀ (k : Nat) (b : V), pos b = k →
    ∃ p : G.Walk a b, p.length = k := by
  intro k
  induction k with
  | zero => intro b hb; obtain rfl := L.inj a b (by omega); exact ⟨.nil, rfl⟩
  | succ k ih =>
    intro b hb
    obtain ⟨c, hc⟩ := L.surj k (by have := L.lt b; omega)
    obtain ⟨p, hp⟩ := ih c hc
    exact ⟨p.concat ((L.adj c b).2 (.inl (by omega))), by rw [SimpleGraph.Walk.length_concat, hp]⟩

theorem Line.connected (L : Line G n pos) {a : V} (ha : pos a = 0) : G.Connected :=
  { preconnected := fun x y => by
      obtain ⟨p, _⟩ := L.walk ha _ x rfl
      obtain ⟨q, _⟩ := L.walk ha _ y rfl
      exact ⟨p.reverse.append q⟩
    nonempty := ⟨a⟩ }

theorem Line.dist (L : Line G n pos) {a : V} (ha : pos a = 0) (b : V) : G.dist a b = pos b := by
  apply Nat.le_antisymm
  · obtain ⟨p, hp⟩ := L.walk ha _ b rfl
    rw [← hp]
    exact SimpleGraph.dist_le p
  · have := lipschitz_dist (L.connected ha) pos (fun x y h => by
      rcases (L.adj x y).1 h with h | h <;> omega) a b
    omega

theorem Line.acyclic (L : Line G n pos) : G.IsAcyclic := by
  rw [SimpleGraph.isAcyclic_iff_forall_adj_isBridge]
  have key : ∀ v w : V, G.Adj v w → pos v + 1 = pos w → G.IsBridge s(v, w) := by
    intro v w hvw e
    rw [SimpleGraph.isBridge_iff]
    rintro ⟨p⟩
    have : ∀ {x y : V} (p : (G.deleteEdges {s(v, w)}).Walk x y), pos x ≤ pos v → pos y ≤ pos v := by
      intro x y p
      induction p with
      | nil => exact id
      | cons h p ih =>
        rename_i a b c
        intro ha
        apply ih
        rw [SimpleGraph.deleteEdges_adj] at h
        rcases (L.adj a b).1 h.1 with h1 | h1
        · by_contra hc
          have ea : a = v := L.inj _ _ (by omega)
          have eb : b = w := L.inj _ _ (by omega)
          subst ea eb
          exact h.2 rfl
        · omega
    have := this p (Nat.le_refl _)
    omega
  intro v w hvw
  rcases (L.adj v w).1 hvw with h | h
  · exact key v w hvw h
  · rw [Sym2.eq_swap]; exact key w v hvw.symm h

theorem Line.support (L : Line G n pos) {a b : V} (p : G.Walk a b) (c : V) (h1 : pos a ≤ pos c) (h2 : pos c ≤ pos b) :
    c ∈ p.support := by
  induction p with
  | nil =>
    rw [SimpleGraph.Walk.support_nil, List.mem_singleton]
    exact L.inj _ _ (by omega)
  | cons h p ih =>
    rename_i x y z
    rw [SimpleGraph.Walk.support_cons, List.mem_cons]
    by_cases e : pos c = pos x
    · exact .inl (L.inj _ _ e)
    · right
      apply ih _ h2
      rcases (L.adj x y).1 h with h | h <;> omega

theorem Line.route (L : Line G n pos) {a : V} (ha : pos a = 0) (b c : V) (h : pos c ≤ pos b) :
    ∃ p : G.Walk a b, p.IsPath ∧ c ∈ p.support := by
  obtain ⟨p, hp⟩ := (L.connected ha).exists_isPath a b
  exact ⟨p, hp, L.support p c (by omega) h⟩

end

/-- A numbering of the cells (column, row) of a grid in which successive numbers are neighbours. -/
structure Ham (w h : Nat) (pos : Nat → Nat → Nat) : Prop where
  lt : ∀ x y, x < w → y < h → pos x y < w * h
  inj : ∀ x y x' y', x < w → y < h → x' < w → y' < h → pos x y = pos x' y' → x = x' ∧ y = y'
  zero : pos 0 0 = 0
  next : ∀ x y, x < w → y < h → pos x y + 1 < w * h → ∃ x' y', x' < w ∧ y' < h ∧ pos x' y' = pos x y + 1 ∧
    ((x' = x ∧ (y' = y + 1 ∨ y = y' + 1)) ∨ (y' = y ∧ (x' = x + 1 ∨ x = x' + 1)))

/-- Are the two numbers successive? -/
def succs (a b : Nat) : Bool := decide (a + 1 = b ∨ b + 1 = a)

/-- The maze along a numbering: no walls between successive cells. -/
def hamGrid (w h : Nat) (pos : Nat → Nat → Nat) : List MazeNode :=
  (List.range (w * h)).map fun c =>
    { right := !(decide (c % w + 1 < w) && succs (pos (c % w) (c / w)) (pos (c % w + 1) (c / w)))
      down := !(decide (c / w + 1 < h) && succs (pos (c % w) (c / w)) (pos (c % w) (c / w + 1))) }

variable {w h : Nat} {pos : Nat → Nat → Nat}

theorem hamGrid_get {c : Nat} (hc : c < w * h) : (hamGrid w h pos)[c]? = some
    { right := !(decide (c % w + 1 < w) && succs (pos (c % w) (c / w)) (pos (c % w + 1) (c / w)))
      down := !(decide (c / w + 1 < h) && succs (pos (c % w) (c / w)) (pos (c % w) (c / w + 1))) } := by
  simp [hamGrid, hc]

theorem ham_right {c : Nat} (hc : c < w * h) : rightOpen (hamGrid w h pos) c = true ↔
    c % w + 1 < w ∧ succs (pos (c % w) (c / w)) (pos (c % w + 1) (c / w)) = true := by
  simp [rightOpen, hamGrid_get hc]

theorem ham_down {c : Nat} (hc : c < w * h) : downOpen (hamGrid w h pos) c = true ↔
    c / w + 1 < h ∧ succs (pos (c % w) (c / w)) (pos (c % w) (c / w + 1)) = true := by
  simp [downOpen, hamGrid_get hc]

theorem Ham.line (H : Ham w h pos) (hw : 1 ≤ w) :
    Line (graph w h (hamGrid w h pos)) (w * h) fun c => pos (c.1 % w) (c.1 / w) := by
  have mw : ∀ c : Nat, c % w < w := fun c => Nat.mod_lt _ hw
  have dh : ∀ c : Fin (w * h), c.1 / w < h := fun c => Nat.div_lt_of_lt_mul c.2
  have back : ∀ c : Nat, w * (c / w) + c % w = c := fun c => Nat.div_add_mod c w
  have linj : ∀ a b : Fin (w * h), pos (a.1 % w) (a.1 / w) = pos (b.1 % w) (b.1 / w) → a = b := by
    intro a b e
    obtain ⟨e1, e2⟩ := H.inj _ _ _ _ (mw a) (dh a) (mw b) (dh b) e
    apply Fin.ext
    rw [← back a, ← back b, e1, e2]
  have llt : ∀ c : Fin (w * h), pos (c.1 % w) (c.1 / w) < w * h := fun c => H.lt _ _ (mw c) (dh c)
  have right : ∀ x y, x + 1 < w → y < h → (w * y + x) % w = x ∧ (w * y + x) / w = y ∧
      (w * y + x + 1) % w = x + 1 ∧ (w * y + x + 1) / w = y := by
    intro x y hx _
    have q : ∀ x, x < w → (w * y + x) % w = x ∧ (w * y + x) / w = y := fun x hx =>
      ⟨by rw [Nat.mul_add_mod, Nat.mod_eq_of_lt hx], by
        rw [Nat.mul_add_div hw, Nat.div_eq_of_lt hx, Nat.add_zero]⟩
    exact ⟨(q x (by omega)).1, (q x (by omega)).2, (q (x + 1) hx).1, (q (x + 1) hx).2⟩
  have addw : ∀ c : Nat, (c + w) % w = c % w ∧ (c + w) / w = c / w + 1 := fun c =>
    ⟨Nat.add_mod_right c w, Nat.add_div_right c hw⟩
  have add1 : ∀ c : Nat, c % w + 1 < w → (c + 1) % w = c % w + 1 ∧ (c + 1) / w = c / w := by
    intro c hc
    have := right (c % w) (c / w) hc
    by_cases hd : c / w < h
    · have := this hd; rw [back c] at this; exact ⟨this.2.2.1, this.2.2.2⟩
    · have e : (c + 1) % w = c % w + 1 := by
        rw [Nat.add_mod, Nat.mod_eq_of_lt (show 1 < w by omega), Nat.mod_eq_of_lt hc]
      refine ⟨e, ?_⟩
      have h1 := back (c + 1)
      have h2 := back c
      have : w * ((c + 1) / w) = w * (c / w) := by omega
      exact Nat.eq_of_mul_eq_mul_left hw this
  refine ⟨llt, linj, ?_, ?_⟩
  · have hs : Function.Surjective (fun c : Fin (w * h) => (⟨_, llt c⟩ : Fin (w * h))) :=
      Finite.surjective_of_injective fun a b e => linj a b (by simpa using e)
    intro i hi
    obtain ⟨a, ha⟩ := hs ⟨i, hi⟩
    exact ⟨a, by simpa using ha⟩
  · have one : ∀ a b : Fin (w * h), Passage w (hamGrid w h pos) a b →
        succs (pos (a.1 % w) (a.1 / w)) (pos (b.1 % w) (b.1 / w)) = true := by
      intro a b hp
      rcases hp with ⟨e, h1, h2⟩ | ⟨e, h2⟩
      · rw [ham_right a.2] at h2
        obtain ⟨e1, e2⟩ := add1 a.1 h1
        rw [e, e1, e2]; exact h2.2
      · rw [ham_down a.2] at h2
        obtain ⟨e1, e2⟩ := addw a.1
        rw [e, e1, e2]; exact h2.2
    -- a step of the numbering is a passage, one way or the other
    have two : ∀ a b : Fin (w * h), pos (a.1 % w) (a.1 / w) + 1 = pos (b.1 % w) (b.1 / w) →
        Passage w (hamGrid w h pos) a b ∨ Passage w (hamGrid w h pos) b a := by
      intro a b e
      obtain ⟨x', y', hx, hy, e', hn⟩ := H.next _ _ (mw a) (dh a) (by rw [e]; exact llt b)
      obtain ⟨ex, ey⟩ := H.inj _ _ _ _ hx hy (mw b) (dh b) (by rw [e', e])
      subst ex ey
      have ba := back a.1
      have bb := back b.1
      have hs : succs (pos (a.1 % w) (a.1 / w)) (pos (b.1 % w) (b.1 / w)) = true := by simp [succs, e]
      have hs' : succs (pos (b.1 % w) (b.1 / w)) (pos (a.1 % w) (a.1 / w)) = true := by simp [succs, e]
      rcases hn with ⟨h1, h2 | h2⟩ | ⟨h1, h2 | h2⟩
      · left; right
        rw [h2, Nat.mul_add, h1] at bb
        refine ⟨by omega, (ham_down a.2).2 ⟨by have := dh b; omega, ?_⟩⟩
        rwa [h1, h2] at hs
      · right; right
        rw [h2, Nat.mul_add, ← h1] at ba
        refine ⟨by omega, (ham_down b.2).2 ⟨by have := dh a; omega, ?_⟩⟩
        rwa [← h1, h2] at hs'
      · left; left
        rw [h1, h2] at bb
        refine ⟨by omega, by have := mw b; omega, (ham_right a.2).2 ⟨by have := mw b; omega, ?_⟩⟩
        rwa [h1, h2] at hs
      · right; left
        rw [← h1, h2] at ba
        refine ⟨by omega, by have := mw a; omega, (ham_right b.2).2 ⟨by have := mw a; omega, ?_⟩⟩
        rwa [← h1, h2] at hs'
    intro a b
    rw [graph, SimpleGraph.fromRel_adj]
    constructor
    · rintro ⟨_, hp | hp⟩
      · simpa [succs] using one a b hp
      · have := one b a hp
        simp only [succs, decide_eq_true_eq] at this
        exact this.symm
    · intro hp
      refine ⟨?_, ?_⟩
      · rintro rfl; omega
      · rcases hp with hp | hp
        · exact two a b hp
        · exact (two b a hp).symm

theorem Ham.closed (H : Ham w h pos) (hw : 1 ≤ w) (hh : 1 ≤ h) : ClosedTree w h (hamGrid w h pos) := by
  have h0 : 0 < w * h := Nat.mul_pos hw hh
  have L := H.line hw
  have z : pos ((⟨0, h0⟩ : Fin (w * h)).1 % w) ((⟨0, h0⟩ : Fin (w * h)).1 / w) = 0 := by simp [H.zero]
  refine ⟨by simp [hamGrid], ?_, ?_, ⟨L.connected z, L.acyclic⟩⟩
  · intro c hc e
    by_contra hn
    rw [Bool.not_eq_false, ham_right hc] at hn
    omega
  · intro c hc e
    by_contra hn
    rw [Bool.not_eq_false, ham_down hc] at hn
    omega

theorem ham_nbr_lt {w h a b : Nat} {d : MazeDirection} (ha : a < w * h) (hd : nbr w h a d = some b) (hw : 1 ≤ w) : b < w * h := by
  cases d
  · simp only [nbr] at hd
    split at hd
    · cases hd
      have h1 := Nat.div_lt_of_lt_mul ha
      have h2 := Nat.div_add_mod a w
      have h3 : w * (a / w + 1) ≤ w * h := Nat.mul_le_mul_left _ h1
      rw [Nat.mul_add] at h3
      omega
    · cases hd
  all_goals
    simp only [nbr] at hd
    split at hd <;> (cases hd; try omega)

theorem Ham.depthFirst (H : Ham w h pos) (hw : 1 ≤ w) (hh : 1 ≤ h) : DepthFirst w h (hamGrid w h pos) := by
  have h0 : 0 < w * h := Nat.mul_pos hw hh
  have L := H.line hw
  have z : pos ((⟨0, h0⟩ : Fin (w * h)).1 % w) ((⟨0, h0⟩ : Fin (w * h)).1 / w) = 0 := by simp [H.zero]
  intro a b d ha hd
  have hb := ham_nbr_lt ha hd hw
  rcases Nat.le_total (pos (a % w) (a / w)) (pos (b % w) (b / w)) with hle | hle
  · exact .inl ⟨h0, ha, hb, L.route z ⟨b, hb⟩ ⟨a, ha⟩ hle⟩
  · exact .inr ⟨h0, hb, ha, L.route z ⟨a, ha⟩ ⟨b, hb⟩ hle⟩

/-- Some draws make the maze along a numbering, and its solution leads to the highest number in the last row. -/
theorem Ham.create (H : Ham w h pos) (oc : Bool) (alg : MazeAlgorithm) (hw : 1 ≤ w) (hh : 1 ≤ h)
    (hn : w * h * 24 < 2 ^ 63) : ∃ rnd g sol e, createMaze oc rnd w h alg = .ok (g, sol) ∧ e < w ∧
      downOpen g (w * (h - 1) + e) = true ∧ sol.length = pos e (h - 1) ∧ ∀ x < w, pos x (h - 1) ≤ pos e (h - 1) := by
  have h0 : 0 < w * h := Nat.mul_pos hw hh
  obtain ⟨rnd, h1⟩ := recursiveBacktrack_target oc hw hh hn ((H.closed hw hh).perfect hw hh) (H.depthFirst hw hh)
  obtain ⟨g, g', sol, e, h2, hP, hS, h3⟩ := createMaze_spec oc rnd hw hh hn alg
  rw [h1] at h3
  obtain rfl : hamGrid w h pos = g := by simpa using h3
  obtain ⟨hg, rfl⟩ := hS.opened
  have hgr := graph_exit hw hh hg hS.he hS.bottom
  obtain ⟨g1, sol1, e1, h4, R⟩ := createMaze_result oc rnd hw hh hn alg
  rw [h2] at h4
  obtain ⟨rfl, rfl⟩ : _ = g1 ∧ sol = sol1 := by simpa using h4
  have L := H.line hw
  have z : pos ((⟨0, h0⟩ : Fin (w * h)).1 % w) ((⟨0, h0⟩ : Fin (w * h)).1 / w) = 0 := by simp [H.zero]
  have sl := R.slen h0
  have far := R.far h0
  rw [hgr, L.dist z] at sl
  refine ⟨rnd, _, sol, e1 % w, h2, Nat.mod_lt _ hw, ?_, by rw [sl, R.bottom], ?_⟩
  · rw [show w * (h - 1) + e1 % w = e1 by rw [← R.bottom]; exact Nat.div_add_mod e1 w]
    exact (R.exits e1 R.he R.bottom).mpr rfl
  intro x hx
  have hb : w * (h - 1) + x < w * h := by
    have : w * (h - 1) + w = w * h := by rw [← Nat.mul_succ]; congr 1; omega
    omega
  have hd : (w * (h - 1) + x) / w = h - 1 := by rw [Nat.mul_add_div hw, Nat.div_eq_of_lt hx, Nat.add_zero]
  have := far (w * (h - 1) + x) hb hd
  rw [hgr, L.dist z, L.dist z] at this
  simpa [hd, R.bottom, Nat.mod_eq_of_lt hx] using this

end Maze
