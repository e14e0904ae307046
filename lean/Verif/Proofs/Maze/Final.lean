import Verif.Proofs.Maze.Bfs
import Verif.Proofs.Maze.PrintSolution

/-! Helper lemmas: from the invariants to the statements about the returned maze. -/
namespace Maze
open Spec

variable {w h : Nat}

theorem isBottom_iff {x : Nat} : isBottom w h x = true ↔ x / w = h - 1 := by simp [isBottom]

theorem graph_exit {g : List MazeNode} {e : Nat} (hw : 0 < w) (hh : 0 < h) (hg : e < g.length)
    (he : e < w * h) (hb : isBottom w h e = true) :
    graph w h (g.set e { g[e] with down := false }) = graph w h g := by
  have hbot := (bottom_iff hw hh).mp ⟨he, hb⟩
  have hout : w * h ≤ e + w := by
    rw [List.mem_range'_1] at hbot
    obtain ⟨k, rfl⟩ : ∃ k, h = k + 1 := ⟨h - 1, by omega⟩
    rw [Nat.mul_succ]
    simp at hbot
    omega
  ext a b
  simp only [graph, SimpleGraph.fromRel_adj, Passage, rightOpen_set_down hg, downOpen_set_down hg,
    Bool.or_eq_true, beq_iff_eq]
  have ha := a.isLt
  have hb := b.isLt
  constructor
  · rintro ⟨hne, h1⟩
    refine ⟨hne, ?_⟩
    rcases h1 with (h1 | ⟨e1, e2 | e2⟩) | (h1 | ⟨e1, e2 | e2⟩)
    · exact .inl (.inl h1)
    · exact .inl (.inr ⟨e1, e2⟩)
    · omega
    · exact .inr (.inl h1)
    · exact .inr (.inr ⟨e1, e2⟩)
    · omega
  · rintro ⟨hne, h1⟩
    refine ⟨hne, ?_⟩
    rcases h1 with (h1 | ⟨e1, e2⟩) | (h1 | ⟨e1, e2⟩)
    · exact .inl (.inl h1)
    · exact .inl (.inr ⟨e1, .inl e2⟩)
    · exact .inr (.inl h1)
    · exact .inr (.inr ⟨e1, .inl e2⟩)

theorem walk_exit {g : List MazeNode} {e : Nat} (hg : e < g.length) (ds : List MazeDirection) :
    ∀ {c cells}, walk w h g c ds = some cells →
      walk w h (g.set e { g[e] with down := false }) c ds = some cells := by
  induction ds with
  | nil => intro c cells hc; exact hc
  | cons d ds ih =>
    intro c cells hc
    simp only [walk] at hc ⊢
    cases hm : move w h g c d with
    | none => simp [hm] at hc
    | some c' =>
      rw [hm] at hc
      have hm' : move w h (g.set e { g[e] with down := false }) c d = some c' := by
        unfold move at hm ⊢
        have hs : sideOpen w g c d = true → sideOpen w (g.set e { g[e] with down := false }) c d = true := by
          cases d <;> simp only [sideOpen, rightOpen_set_down hg, downOpen_set_down hg, Bool.or_eq_true] <;> tauto
        split at hm
        · next hso => rw [if_pos (hs hso)]; exact hm
        · cases hm
      rw [hm']
      simp only [Option.map_eq_some_iff] at hc ⊢
      obtain ⟨cs, h1, h2⟩ := hc
      exact ⟨cs, ih h1, h2⟩

theorem Perfect.isTree {g : List MazeNode} (hP : Perfect w h g) (hw : 0 < w) (hh : 0 < h) :
    (graph w h g).IsTree := by
  have h0 : 0 < w * h := Nat.mul_pos hw hh
  have hne : Nonempty (Fin (w * h)) := ⟨⟨0, h0⟩⟩
  refine ⟨⟨?_⟩, hP.acyclic⟩
  intro a b
  obtain ⟨_, _, ha⟩ := hP.reach a.1 a.2
  obtain ⟨_, _, hb⟩ := hP.reach b.1 b.2
  exact ha.symm.trans hb

/-- Everything known about the result of `create_maze`. -/
structure Result (w h : Nat) (g : List MazeNode) (sol : List MazeDirection) (e : Nat) : Prop where
  len : g.length = w * h
  tree : (graph w h g).IsTree
  borderR : ∀ c, rightOpen g c = true → c % w + 1 < w
  he : e < w * h
  bottom : e / w = h - 1
  exits : ∀ c, c < w * h → c / w = h - 1 → (downOpen g c = true ↔ c = e)
  far : ∀ (h0 : 0 < w * h) b (hb : b < w * h), b / w = h - 1 →
    (graph w h g).dist ⟨0, h0⟩ ⟨b, hb⟩ ≤ (graph w h g).dist ⟨0, h0⟩ ⟨e, he⟩
  slen : ∀ h0 : 0 < w * h, sol.length = (graph w h g).dist ⟨0, h0⟩ ⟨e, he⟩
  wide : 2 ≤ w → ∃ cells, walk w h g 0 sol.reverse = some cells ∧ cells.getLast? = some e ∧ cells.Nodup
  narrow : w = 1 → sol = List.replicate (h - 1) .Right

theorem createMaze_result (oc : Bool) (rnd : Nat → Nat) (hw : 0 < w) (hh : 0 < h)
    (hn : w * h * 24 < 2 ^ 63) (alg : MazeAlgorithm) :
    ∃ g sol e, createMaze oc rnd w h alg = .ok (g, sol) ∧ Result w h g sol e := by
  obtain ⟨g, g', sol, e, h1, hP, hS, _⟩ := createMaze_spec oc rnd hw hh hn alg
  obtain ⟨hg, rfl⟩ := hS.opened
  have hgr := graph_exit hw hh hg hS.he hS.bottom
  refine ⟨_, sol, e, h1, by simp [hP.len], ?_, ?_, hS.he, isBottom_iff.mp hS.bottom, ?_, ?_, ?_, ?_, hS.narrow⟩
  · rw [hgr]; exact hP.isTree hw hh
  · intro c hc
    rw [rightOpen_set_down hg] at hc
    exact hP.borderR c hc
  · intro c hc hb
    rw [downOpen_set_down hg]
    simp only [Bool.or_eq_true, beq_iff_eq]
    constructor
    · rintro (h2 | h2)
      · exfalso
        have h3 := hP.borderD c h2
        have h4 := (lt_mul_pred hh).mp h3
        have h5 : c / w < h - 1 := by rw [Nat.div_lt_iff_lt_mul hw, Nat.mul_comm]; exact h4
        omega
      · exact h2
    · exact .inr
  · rw [hgr]; intro h0 b hb hbb; exact hS.far h0 b hb (isBottom_iff.mpr hbb)
  · rw [hgr]; exact hS.len
  · intro h2
    obtain ⟨cells, c1, c2, c3⟩ := hS.wide h2
    exact ⟨cells, walk_exit hg _ c1, c2, c3⟩

/-! ### Positions -/

theorem nbr_pos {c m : Nat} {d : MazeDirection} (hw : 0 < w) (hc : c < w * h) (hm : nbr w h c d = some m) :
    m < w * h ∧ ((m % w : Nat) : Int) = (c % w : Nat) + (vec d).1 ∧ ((m / w : Nat) : Int) = (c / w : Nat) + (vec d).2 := by
  have hdm := Nat.div_add_mod c w
  have hml := Nat.mod_lt c hw
  cases d with
  | Right =>
    simp only [nbr] at hm
    split at hm
    · next h1 =>
      obtain rfl := Option.some.inj hm
      have e : c + 1 = w * (c / w) + (c % w + 1) := by omega
      refine ⟨succ_lt_of_mod hc h1, ?_, ?_⟩
      · have : (c + 1) % w = c % w + 1 := by
          rw [e, Nat.mul_add_mod, Nat.mod_eq_of_lt h1]
        rw [this]; simp [vec]
      · have : (c + 1) / w = c / w := by
          rw [e, Nat.mul_add_div hw, Nat.div_eq_of_lt h1]; omega
        rw [this]; simp [vec]
    · cases hm
  | Down =>
    simp only [nbr] at hm
    split at hm
    · next h1 =>
      obtain rfl := Option.some.inj hm
      refine ⟨h1, ?_, ?_⟩
      · rw [Nat.add_mod_right]; simp [vec]
      · rw [Nat.add_div_right _ hw]; simp [vec]
    · cases hm
  | Left =>
    simp only [nbr] at hm
    split at hm
    · next h1 =>
      obtain rfl := Option.some.inj hm
      have e : c - 1 = w * (c / w) + (c % w - 1) := by omega
      refine ⟨by omega, ?_, ?_⟩
      · have : (c - 1) % w = c % w - 1 := by
          rw [e, Nat.mul_add_mod, Nat.mod_eq_of_lt (show c % w - 1 < w by omega)]
        rw [this]; simp only [vec]; omega
      · have : (c - 1) / w = c / w := by
          rw [e, Nat.mul_add_div hw, Nat.div_eq_of_lt (show c % w - 1 < w by omega), Nat.add_zero]
        rw [this]; simp [vec]
    · cases hm
  | Up =>
    simp only [nbr] at hm
    split at hm
    · next h1 =>
      obtain rfl := Option.some.inj hm
      obtain ⟨k, rfl⟩ : ∃ k, c = k + w := ⟨c - w, by omega⟩
      refine ⟨by omega, ?_, ?_⟩
      · rw [Nat.add_sub_cancel, Nat.add_mod_right]; simp [vec]
      · rw [Nat.add_sub_cancel, Nat.add_div_right _ hw]; simp only [vec]; omega
    · cases hm

theorem walk_pos {g : List MazeNode} (hw : 0 < w) (ds : List MazeDirection) :
    ∀ {c cells e}, c < w * h → walk w h g c ds = some cells → cells.getLast? = some e →
      e < w * h ∧ endPos (((c % w : Nat) : Int), ((c / w : Nat) : Int)) ds = (((e % w : Nat) : Int), ((e / w : Nat) : Int)) ∧
      ∀ q ∈ segments (((c % w : Nat) : Int), ((c / w : Nat) : Int)) ds, InImage (10 * w + 1) (10 * h + 1) q := by
  induction ds with
  | nil =>
    intro c cells e hc hwk hl
    simp [walk] at hwk
    subst hwk
    simp at hl; subst hl
    exact ⟨hc, rfl, by simp [segments]⟩
  | cons d ds ih =>
    intro c cells e hc hwk hl
    simp only [walk] at hwk
    cases hm : move w h g c d with
    | none => simp [hm] at hwk
    | some c' =>
      rw [hm] at hwk
      simp only [Option.map_eq_some_iff] at hwk
      obtain ⟨cs, h1, rfl⟩ := hwk
      have hnb : nbr w h c d = some c' := by
        unfold move at hm
        split at hm
        · exact hm
        · cases hm
      obtain ⟨p1, p2, p3⟩ := nbr_pos hw hc hnb
      have hne : cs ≠ [] := by
        rintro rfl
        cases ds <;> simp [walk] at h1
        split at h1 <;> simp at h1
      have hl' : cs.getLast? = some e := by
        rw [List.getLast?_cons] at hl
        rw [List.getLast?_eq_some_getLast hne] at hl ⊢
        simpa using hl
      obtain ⟨i1, i2, i3⟩ := ih p1 h1 hl'
      rw [p2, p3] at i2 i3
      refine ⟨i1, i2, ?_⟩
      intro q hq
      simp only [segments, List.mem_append] at hq
      rcases hq with hq | hq
      · have b1 : c % w < w := Nat.mod_lt _ hw
        have b2 : c / w < h := by rw [Nat.div_lt_iff_lt_mul hw, Nat.mul_comm]; exact hc
        have b3 : c' % w < w := Nat.mod_lt _ hw
        have b4 : c' / w < h := by rw [Nat.div_lt_iff_lt_mul hw, Nat.mul_comm]; exact p1
        generalize c % w = x at *
        generalize c / w = y at *
        generalize c' % w = x' at *
        generalize c' / w = y' at *
        simp only [segment, List.mem_map, List.mem_range] at hq
        obtain ⟨k, hk, rfl⟩ := hq
        clear i1 i2 i3 ih
        cases d <;> simp only [vec] at p2 p3 <;> simp only [InImage, vec] <;> omega
      · exact i3 q hq

end Maze
