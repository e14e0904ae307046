import Verif.Proofs.Maze.Final

/-! Routes in the picture of a maze: where a route meets a wall pixel. -/
namespace Maze.Picture
open Maze Maze.Spec

variable {w h : Nat}

/-- The pixels in the middle of a row of cells. -/
theorem wall_row (g : List MazeNode) (X y : Nat) : WallPixel w g X (10 * y + 5) ↔
    X = 0 ∨ ∃ c n, g[c]? = some n ∧ n.right = true ∧ X = 10 * (c % w + 1) ∧ c / w = y := by
  constructor
  · rintro (h | ⟨h, _⟩ | ⟨c, n, hn, ⟨h1, h2, h3, h4⟩ | ⟨h1, h2, _⟩⟩)
    · exact .inl h
    · omega
    · exact .inr ⟨c, n, hn, h1, h2, by omega⟩
    · omega
  · rintro (h | ⟨c, n, hn, h1, h2, h3⟩)
    · exact .inl h
    · exact .inr (.inr ⟨c, n, hn, .inl ⟨h1, h2, by omega, by omega⟩⟩)

/-- The pixels in the middle of a column of cells. -/
theorem wall_col (g : List MazeNode) (x Y : Nat) : WallPixel w g (10 * x + 5) Y ↔
    (Y = 0 ∧ 1 ≤ x) ∨ ∃ c n, g[c]? = some n ∧ n.down = true ∧ Y = 10 * (c / w + 1) ∧ c % w = x := by
  constructor
  · rintro (h | ⟨h, h'⟩ | ⟨c, n, hn, ⟨h1, h2, h3, h4⟩ | ⟨h1, h2, h3, h4⟩⟩)
    · omega
    · exact .inl ⟨h, by omega⟩
    · omega
    · exact .inr ⟨c, n, hn, h1, h2, by omega⟩
  · rintro (⟨h, h'⟩ | ⟨c, n, hn, h1, h2, h3⟩)
    · exact .inr (.inl ⟨h, by omega⟩)
    · exact .inr (.inr ⟨c, n, hn, .inr ⟨h1, h2, by omega, by omega⟩⟩)

theorem eq_of_pos {a b : Nat} (h1 : a % w = b % w) (h2 : a / w = b / w) : a = b := by
  rw [← Nat.div_add_mod a w, ← Nat.div_add_mod b w, h1, h2]

/-- The position of a cell. -/
def pos (w c : Nat) : Int × Int := (((c % w : Nat) : Int), ((c / w : Nat) : Int))

/-- A pixel given by integers is a wall pixel. -/
def Wall (w : Nat) (g : List MazeNode) (q : Int × Int) : Prop := WallPixel w g q.1.toNat q.2.toNat

theorem open_right {g : List MazeNode} {c : Nat} (hc : c < g.length) : rightOpen g c = true ↔ g[c].right = false := by
  unfold rightOpen; rw [List.getElem?_eq_getElem hc]; simp
theorem open_down {g : List MazeNode} {c : Nat} (hc : c < g.length) : downOpen g c = true ↔ g[c].down = false := by
  unfold downOpen; rw [List.getElem?_eq_getElem hc]; simp

theorem row_step {g : List MazeNode} {c X y : Nat} (hc : c < g.length) (hy : c / w = y)
    (hX : 10 * (c % w) < X) (hX' : X < 10 * (c % w) + 20) :
    WallPixel w g X (10 * y + 5) ↔ X = 10 * (c % w + 1) ∧ rightOpen g c = false := by
  rw [wall_row]
  constructor
  · rintro (h | ⟨c', n, hn, h1, h2, h3⟩)
    · omega
    · have : c' = c := eq_of_pos (w := w) (by omega) (by omega)
      subst this
      refine ⟨h2, ?_⟩
      unfold rightOpen; rw [hn]; simp [h1]
  · rintro ⟨h1, h2⟩
    refine .inr ⟨c, g[c], List.getElem?_eq_getElem hc, ?_, h1, hy⟩
    by_contra h3
    rw [(open_right hc).mpr (by simpa using h3)] at h2
    simp at h2

theorem col_step {g : List MazeNode} {c x Y : Nat} (hc : c < g.length) (hx : c % w = x)
    (hY : 10 * (c / w) < Y) (hY' : Y < 10 * (c / w) + 20) :
    WallPixel w g (10 * x + 5) Y ↔ Y = 10 * (c / w + 1) ∧ downOpen g c = false := by
  rw [wall_col]
  constructor
  · rintro (h | ⟨c', n, hn, h1, h2, h3⟩)
    · omega
    · have : c' = c := eq_of_pos (w := w) (by omega) (by omega)
      subst this
      refine ⟨h2, ?_⟩
      unfold downOpen; rw [hn]; simp [h1]
  · rintro ⟨h1, h2⟩
    refine .inr ⟨c, g[c], List.getElem?_eq_getElem hc, ?_, h1, hx⟩
    by_contra h3
    rw [(open_down hc).mpr (by simpa using h3)] at h2
    simp at h2

/-- A step whose pixels lie in the picture stays in the grid. -/
theorem nbr_of_inImage {c : Nat} (hw : 0 < w) (hc : c < w * h) (d : MazeDirection)
    (hi : ∀ q ∈ segment (pos w c) d, InImage (10 * w + 1) (10 * h + 1) q) : ∃ m, nbr w h c d = some m := by
  have h10 := hi _ (List.mem_map.mpr ⟨10, by simp, rfl⟩)
  have hdm := Nat.div_add_mod c w
  simp only [pos, InImage] at h10
  obtain ⟨a1, a2, a3, a4⟩ := h10
  cases d with
  | Right =>
    simp only [vec] at a2
    exact ⟨_, if_pos (by omega)⟩
  | Down =>
    simp only [vec] at a4
    have h1 : c / w + 1 < h := by omega
    have h2 : w * (c / w + 1) + c % w < w * h := by
      have := Nat.mod_lt c hw
      have h3 : w * (c / w + 2) ≤ w * h := Nat.mul_le_mul_left _ (by omega)
      rw [Nat.mul_add] at h3 ⊢
      omega
    rw [Nat.mul_add] at h2
    exact ⟨_, if_pos (by omega)⟩
  | Left =>
    simp only [vec] at a1
    exact ⟨_, if_pos (by omega)⟩
  | Up =>
    simp only [vec] at a3
    have h1 : 1 ≤ c / w := by omega
    exact ⟨_, if_pos (by
      have := Nat.mul_le_mul_left w h1
      omega)⟩

/-- A step inside the grid meets a wall pixel exactly if it crosses a wall. -/
theorem segment_white {g : List MazeNode} {c m : Nat} (hl : g.length = w * h) (hw : 0 < w) (hc : c < w * h)
    (d : MazeDirection) (hm : nbr w h c d = some m) :
    (∀ q ∈ segment (pos w c) d, ¬ Wall w g q) ↔ sideOpen w g c d = true := by
  have hdm := Nat.div_add_mod c w
  have hlt := Nat.mod_lt c hw
  obtain ⟨p1, p2, p3⟩ := nbr_pos hw hc hm
  have hseg : ∀ P : Int × Int → Prop, (∀ q ∈ segment (pos w c) d, P q) ↔
      ∀ k : Nat, k < 11 → P (10 * (pos w c).1 + 5 + (k : Int) * (vec d).1, 10 * (pos w c).2 + 5 + (k : Int) * (vec d).2) := by
    intro P
    simp [segment]
  rw [hseg]
  simp only [Wall, pos]
  cases d with
  | Right =>
    simp only [vec, nbr] at hm p2 p3 ⊢
    split at hm
    · have e : ∀ k : Nat, WallPixel w g (10 * ((c % w : Nat) : Int) + 5 + (k : Int) * 1).toNat
          (10 * ((c / w : Nat) : Int) + 5 + (k : Int) * 0).toNat = WallPixel w g (10 * (c % w) + 5 + k) (10 * (c / w) + 5) := by
        intro k; congr 1 <;> omega
      simp only [e, sideOpen]
      constructor
      · intro H
        by_contra hn
        refine H 5 (by omega) ((row_step (hl ▸ hc) rfl (by omega) (by omega)).mpr ⟨by omega, by simpa using hn⟩)
      · intro H k hk hW
        have := ((row_step (hl ▸ hc) rfl (by omega) (by omega)).mp hW).2
        rw [H] at this; simp at this
    · cases hm
  | Left =>
    simp only [vec, nbr] at hm p2 p3 ⊢
    split at hm
    · rename_i h0
      obtain rfl := Option.some.inj hm
      have m1 : (c - 1) % w = c % w - 1 := by omega
      have m2 : (c - 1) / w = c / w := by omega
      have e : ∀ k : Nat, k < 11 → (WallPixel w g (10 * ((c % w : Nat) : Int) + 5 + (k : Int) * (-1)).toNat
          (10 * ((c / w : Nat) : Int) + 5 + (k : Int) * 0).toNat ↔
          WallPixel w g (10 * (c % w) + 5 - k) (10 * (c / w) + 5)) := by
        intro k hk
        have e1 : (10 * ((c % w : Nat) : Int) + 5 + (k : Int) * (-1)).toNat = 10 * (c % w) + 5 - k := by omega
        have e2 : (10 * ((c / w : Nat) : Int) + 5 + (k : Int) * 0).toNat = 10 * (c / w) + 5 := by omega
        rw [e1, e2]
      simp only [sideOpen]
      constructor
      · intro H
        by_contra hn
        refine H 5 (by omega) ((e 5 (by omega)).mpr ((row_step (hl ▸ p1) m2 (by omega) (by omega)).mpr ⟨by omega, by simpa using hn⟩))
      · intro H k hk hW
        have := ((row_step (hl ▸ p1) m2 (by omega) (by omega)).mp ((e k hk).mp hW)).2
        rw [H] at this; simp at this
    · cases hm
  | Down =>
    simp only [vec, nbr] at hm p2 p3 ⊢
    split at hm
    · have e : ∀ k : Nat, WallPixel w g (10 * ((c % w : Nat) : Int) + 5 + (k : Int) * 0).toNat
          (10 * ((c / w : Nat) : Int) + 5 + (k : Int) * 1).toNat = WallPixel w g (10 * (c % w) + 5) (10 * (c / w) + 5 + k) := by
        intro k; congr 1 <;> omega
      simp only [e, sideOpen]
      constructor
      · intro H
        by_contra hn
        refine H 5 (by omega) ((col_step (hl ▸ hc) rfl (by omega) (by omega)).mpr ⟨by omega, by simpa using hn⟩)
      · intro H k hk hW
        have := ((col_step (hl ▸ hc) rfl (by omega) (by omega)).mp hW).2
        rw [H] at this; simp at this
    · cases hm
  | Up =>
    simp only [vec, nbr] at hm p2 p3 ⊢
    split at hm
    · rename_i h0
      obtain rfl := Option.some.inj hm
      have m1 : (c - w) % w = c % w := by omega
      have m2 : (c - w) / w = c / w - 1 := by
        generalize (c - w) / w = a at p3
        generalize c / w = b at p3
        omega
      have m3 : 1 ≤ c / w := by
        generalize (c - w) / w = a at p3
        generalize c / w = b at p3
        omega
      have e : ∀ k : Nat, k < 11 → (WallPixel w g (10 * ((c % w : Nat) : Int) + 5 + (k : Int) * 0).toNat
          (10 * ((c / w : Nat) : Int) + 5 + (k : Int) * (-1)).toNat ↔
          WallPixel w g (10 * (c % w) + 5) (10 * (c / w) + 5 - k)) := by
        intro k hk
        have e1 : (10 * ((c % w : Nat) : Int) + 5 + (k : Int) * 0).toNat = 10 * (c % w) + 5 := by omega
        have e2 : (10 * ((c / w : Nat) : Int) + 5 + (k : Int) * (-1)).toNat = 10 * (c / w) + 5 - k := by omega
        rw [e1, e2]
      simp only [sideOpen]
      constructor
      · intro H
        by_contra hn
        refine H 5 (by omega) ((e 5 (by omega)).mpr ((col_step (hl ▸ p1) m1 (by omega) (by omega)).mpr ⟨by omega, by simpa using hn⟩))
      · intro H k hk hW
        have := ((col_step (hl ▸ p1) m1 (by omega) (by omega)).mp ((e k hk).mp hW)).2
        rw [H] at this; simp at this
    · cases hm

/-- A route inside the picture meets no wall pixel exactly if a walker can follow it. -/
theorem segments_white {g : List MazeNode} (hl : g.length = w * h) (hw : 0 < w) (ds : List MazeDirection) :
    ∀ {c : Nat}, c < w * h → (∀ q ∈ segments (pos w c) ds, InImage (10 * w + 1) (10 * h + 1) q) →
      ((∀ q ∈ segments (pos w c) ds, ¬ Wall w g q) ↔ ∃ cells, walk w h g c ds = some cells) := by
  induction ds with
  | nil => intro c _ _; simp [segments, walk]
  | cons d ds ih =>
    intro c hc hi
    simp only [segments, List.mem_append, or_imp, forall_and] at hi ⊢
    obtain ⟨m, hm⟩ := nbr_of_inImage hw hc d hi.1
    obtain ⟨p1, p2, p3⟩ := nbr_pos hw hc hm
    have hp : pos w m = ((pos w c).1 + (vec d).1, (pos w c).2 + (vec d).2) := by
      simp only [pos, p2, p3]
    rw [← hp] at hi ⊢
    rw [segment_white hl hw hc d hm, ih p1 hi.2]
    constructor
    · rintro ⟨h1, cells, h2⟩
      exact ⟨c :: cells, by simp [walk, move, h1, hm, h2]⟩
    · rintro ⟨cells, h1⟩
      simp only [walk, move] at h1
      by_cases hs : sideOpen w g c d = true
      · rw [if_pos hs, hm] at h1
        simp only [Option.map_eq_some_iff] at h1
        obtain ⟨cs, h2, _⟩ := h1
        exact ⟨hs, cs, h2⟩
      · rw [if_neg hs] at h1; cases h1

theorem walk_last {g : List MazeNode} {ds : List MazeDirection} {c : Nat} {cells : List Nat}
    (h1 : walk w h g c ds = some cells) : ∃ e, cells.getLast? = some e := by
  cases cells with
  | nil =>
    cases ds with
    | nil => simp [walk] at h1
    | cons d ds =>
      simp only [walk] at h1
      split at h1
      · cases h1
      · simp [Option.map_eq_some_iff] at h1
  | cons a l => exact ⟨_, List.getLast?_eq_some_getLast (by simp)⟩

/-- The pixels of a whole route are no wall pixels exactly if a walker can follow it and then leave through the bottom
of the last cell. -/
theorem route_white {g : List MazeNode} (hl : g.length = w * h) (hw : 0 < w) (hh : 0 < h) (ds : List MazeDirection)
    (hi : ∀ q ∈ routePixels ds, InImage (10 * w + 1) (10 * h + 1) q) :
    (∀ q ∈ routePixels ds, ¬ Wall w g q) ↔
      ∃ cells c, walk w h g 0 ds = some cells ∧ cells.getLast? = some c ∧ downOpen g c = true := by
  have h0 : 0 < w * h := Nat.mul_pos hw hh
  have hp0 : pos w 0 = (0, 0) := by simp [pos]
  unfold routePixels at hi ⊢
  simp only [List.mem_append, or_imp, forall_and] at hi ⊢
  rw [← hp0] at hi ⊢
  have hentry : ∀ q ∈ (List.range 6).map (fun (k : Nat) => ((5 : Int), (k : Int))), ¬ Wall w g q := by
    intro q hq
    obtain ⟨k, hk, rfl⟩ := List.mem_map.mp hq
    have hk := List.mem_range.mp hk
    simp only [Wall]
    rw [show ((5 : Int)).toNat = 10 * 0 + 5 from rfl, Int.toNat_natCast, wall_col]
    rintro (h | ⟨c, n, _, _, h, _⟩)
    · omega
    · generalize c / w = a at h
      omega
  rw [segments_white hl hw ds h0 hi.1.2]
  constructor
  · rintro ⟨⟨_, cells, h1⟩, h2⟩
    obtain ⟨e, he⟩ := walk_last h1
    obtain ⟨e1, e2, _⟩ := walk_pos hw ds h0 h1 he
    refine ⟨cells, e, h1, he, ?_⟩
    by_contra hn
    refine h2 _ (List.mem_map.mpr ⟨4, by simp, rfl⟩) ?_
    change endPos (pos w 0) ds = pos w e at e2
    rw [e2]
    simp only [Wall, pos]
    have a1 : (10 * ((e % w : Nat) : Int) + 5).toNat = 10 * (e % w) + 5 := by omega
    have a2 : (10 * ((e / w : Nat) : Int) + 6 + ((4 : Nat) : Int)).toNat = 10 * (e / w) + 10 := by omega
    rw [a1, a2, col_step (hl ▸ e1) rfl (by omega) (by omega)]
    exact ⟨by omega, by simpa using hn⟩
  · rintro ⟨cells, e, h1, he, ho⟩
    obtain ⟨e1, e2, _⟩ := walk_pos hw ds h0 h1 he
    refine ⟨⟨hentry, cells, h1⟩, fun q hq => ?_⟩
    obtain ⟨k, hk, rfl⟩ := List.mem_map.mp hq
    have hk := List.mem_range.mp hk
    change endPos (pos w 0) ds = pos w e at e2
    rw [e2]
    simp only [Wall, pos]
    have a1 : (10 * ((e % w : Nat) : Int) + 5).toNat = 10 * (e % w) + 5 := by omega
    have a2 : (10 * ((e / w : Nat) : Int) + 6 + (k : Int)).toNat = 10 * (e / w) + 6 + k := by omega
    rw [a1, a2, col_step (hl ▸ e1) rfl (by omega) (by omega)]
    rintro ⟨_, h⟩
    rw [ho] at h; simp at h

end Maze.Picture
