import Verif.Spec.Maze
import Verif.Proofs.Image
import Mathlib.Data.Nat.Basic

/-! Helper lemmas: `print_maze`. -/
namespace Maze
open Spec

theorem putLoop_eq {img : Img} {lo hi : Nat} {c : Rgb} {f : Nat → Prog (Nat × Nat)} (a b : Nat → Nat)
    (hf : ∀ k, lo ≤ k → k ≤ hi → f k = .ok (a k, b k))
    (hb : ∀ k, lo ≤ k → k ≤ hi → a k < img.width ∧ b k < img.height) :
    putLoop img lo hi c f =
      .ok (img.puts ((List.range' lo (hi + 1 - lo)).map fun k => ⟨a k, b k, c⟩)) := by
  unfold putLoop
  have := forIn'_puts (img := img) (xs := List.range' lo (hi + 1 - lo))
    (f := fun k => [(⟨a k, b k, c⟩ : Put)])
    (body := fun img k => do let (x, y) ← f k; img.putPixel x y c) ?_
  · rw [this, ← List.map_eq_flatMap]
  · intro i hw hh k hk
    rw [List.mem_range'_1] at hk
    obtain ⟨h1, h2⟩ := hb k (by omega) (by omega)
    rw [hf k (by omega) (by omega)]
    simp [Img.putPixel, hw, hh, h1, h2, Img.puts]

def nodePuts (w : Nat) (p : MazeNode × Nat) : List Put :=
  (if p.1.right then (List.range' 0 11).map fun k => ⟨(p.2 % w + 1) * 10, p.2 / w * 10 + k, blackPixel⟩ else []) ++
  (if p.1.down then (List.range' 0 11).map fun k => ⟨p.2 % w * 10 + k, (p.2 / w + 1) * 10, blackPixel⟩ else [])

theorem printNode_eq (oc : Bool) {w h : Nat} {img : Img} {p : MazeNode × Nat} (hw : 0 < w)
    (hp : p.2 < w * h) (hp' : p.2 < 2 ^ 32) (h1 : w * 10 + 1 < 2 ^ 32) (h2 : h * 10 + 1 < 2 ^ 32)
    (hiw : img.width = w * 10 + 1) (hih : img.height = h * 10 + 1) :
    printNode oc w img p = .ok (img.puts (nodePuts w p)) := by
  have hx : p.2 % w < w := Nat.mod_lt _ hw
  have hy : p.2 / w < h := by rw [Nat.div_lt_iff_lt_mul hw, Nat.mul_comm]; exact hp
  have hw0 : w ≠ 0 := by omega
  obtain ⟨n, c⟩ := p
  simp only at hp hp' hx hy
  simp only [printNode, Nat.mod_eq_of_lt hp', if_neg hw0, nodePuts]
  generalize c % w = x at *
  generalize c / w = y at *
  have e1 : ∀ i : Img, i.width = img.width → i.height = img.height →
      putLoop i 0 10 blackPixel (fun k => do
        let a ← mulW oc 32 (← addW oc 32 x 1) 10
        let b ← addW oc 32 (← mulW oc 32 y 10) k
        return (a, b)) =
      .ok (i.puts ((List.range' 0 11).map fun k => ⟨(x + 1) * 10, y * 10 + k, blackPixel⟩)) := by
    intro i hi1 hi2
    refine putLoop_eq (fun _ => (x + 1) * 10) (fun k => y * 10 + k) ?_ ?_
    · intro k _ hk
      rw [addW_ok (by omega), Prog.ok_bind, mulW_ok (by omega), Prog.ok_bind, mulW_ok (by omega), Prog.ok_bind,
        addW_ok (by omega)]
      rfl
    · intro k _ hk; rw [hi1, hi2]; omega
  have e2 : ∀ i : Img, i.width = img.width → i.height = img.height →
      putLoop i 0 10 blackPixel (fun k => do
        let a ← addW oc 32 (← mulW oc 32 x 10) k
        let b ← mulW oc 32 (← addW oc 32 y 1) 10
        return (a, b)) =
      .ok (i.puts ((List.range' 0 11).map fun k => ⟨x * 10 + k, (y + 1) * 10, blackPixel⟩)) := by
    intro i hi1 hi2
    refine putLoop_eq (fun k => x * 10 + k) (fun _ => (y + 1) * 10) ?_ ?_
    · intro k _ hk
      rw [mulW_ok (by omega), Prog.ok_bind, addW_ok (by omega), Prog.ok_bind, addW_ok (by omega), Prog.ok_bind,
        mulW_ok (by omega)]
      rfl
    · intro k _ hk; rw [hi1, hi2]; omega
  simp only [Prog.pure_eq] at e1 e2
  cases n.right <;> cases n.down <;>
    simp only [if_true, Bool.false_eq_true, if_false, Prog.pure_eq, Prog.ok_bind, List.nil_append, List.append_nil]
  · rfl
  · exact e2 img rfl rfl
  · rw [e1 img rfl rfl]; rfl
  · rw [e1 img rfl rfl, Prog.ok_bind, e2 _ (by simp) (by simp), Img.puts_append]

def mazePuts (w h : Nat) (g : List MazeNode) : List Put :=
  (List.range (h * 10 + 1)).map (fun r => ⟨0, r, blackPixel⟩) ++
  (List.range' 10 (w * 10 + 1 - 10)).map (fun c => ⟨c, 0, blackPixel⟩) ++
  g.zipIdx.flatMap (nodePuts w)

theorem printMaze_eq (oc : Bool) {w h : Nat} {g : List MazeNode} (hl : g.length = w * h)
    (h1 : w * 10 + 1 < 2 ^ 32) (h2 : h * 10 + 1 < 2 ^ 32) (hn : w * h ≤ 2 ^ 32)
    (ha : 3 * (w * 10 + 1) * (h * 10 + 1) < 2 ^ 63) :
    printMaze oc w h g = .ok (.ok ((⟨w * 10 + 1, h * 10 + 1, fun _ _ => whitePixel⟩ : Img).puts (mazePuts w h g))) := by
  unfold printMaze
  simp only [hl, ne_eq, not_true_eq_false, if_false]
  rw [mulW_ok (by omega), Prog.ok_bind, addW_ok (by omega), Prog.ok_bind, mulW_ok (by omega), Prog.ok_bind,
    addW_ok (by omega), Prog.ok_bind]
  simp only [Img.fromPixel, ha, if_true, Prog.ok_bind]
  have e1 : ∀ i : Img, i.width = w * 10 + 1 → i.height = h * 10 + 1 →
      _root_.forIn' (List.range (h * 10 + 1)) i (fun img row => img.putPixel 0 row blackPixel) =
      .ok (i.puts ((List.range (h * 10 + 1)).map (fun r => ⟨0, r, blackPixel⟩))) := by
    intro i hi1 hi2
    rw [forIn'_puts (f := fun r => [(⟨0, r, blackPixel⟩ : Put)]), ← List.map_eq_flatMap]
    intro i' h1' h2' r hr
    rw [List.mem_range] at hr
    simp [Img.putPixel, h1', h2', hi1, hi2, hr, Img.puts]
  have e2 : ∀ i : Img, i.width = w * 10 + 1 → i.height = h * 10 + 1 →
      _root_.forIn' (List.range' 10 (w * 10 + 1 - 10)) i (fun img col => img.putPixel col 0 blackPixel) =
      .ok (i.puts ((List.range' 10 (w * 10 + 1 - 10)).map (fun c => ⟨c, 0, blackPixel⟩))) := by
    intro i hi1 hi2
    rw [forIn'_puts (f := fun c => [(⟨c, 0, blackPixel⟩ : Put)]), ← List.map_eq_flatMap]
    intro i' h1' h2' r hr
    rw [List.mem_range'_1] at hr
    have : r < w * 10 + 1 := by omega
    simp [Img.putPixel, h1', h2', hi1, hi2, this, Img.puts]
  have e3 : ∀ i : Img, i.width = w * 10 + 1 → i.height = h * 10 + 1 →
      _root_.forIn' g.zipIdx i (printNode oc w) = .ok (i.puts (g.zipIdx.flatMap (nodePuts w))) := by
    intro i hi1 hi2
    apply forIn'_puts
    intro i' h1' h2' p hp
    have hlt : p.2 < w * h := by
      have := List.snd_lt_add_of_mem_zipIdx hp
      omega
    have hw : 0 < w := by
      rcases Nat.eq_zero_or_pos w with h0 | h0
      · rw [h0] at hlt; simp at hlt
      · exact h0
    exact printNode_eq oc hw hlt (by omega) h1 h2 (h1'.trans hi1) (h2'.trans hi2)
  rw [e1 _ rfl rfl, Prog.ok_bind]
  simp only [Img.puts_width]
  rw [e2 _ (by simp) (by simp), Prog.ok_bind, e3 _ (by simp) (by simp), Prog.ok_bind]
  simp only [mazePuts, Img.puts_append]
  rfl

theorem mem_nodePuts {w : Nat} {p : MazeNode × Nat} {q : Put} :
    q ∈ nodePuts w p ↔ q.c = blackPixel ∧
      ((p.1.right = true ∧ q.x = 10 * (p.2 % w + 1) ∧ 10 * (p.2 / w) ≤ q.y ∧ q.y ≤ 10 * (p.2 / w) + 10) ∨
       (p.1.down = true ∧ q.y = 10 * (p.2 / w + 1) ∧ 10 * (p.2 % w) ≤ q.x ∧ q.x ≤ 10 * (p.2 % w) + 10)) := by
  obtain ⟨⟨r, d⟩, c⟩ := p
  obtain ⟨qx, qy, qc⟩ := q
  simp only [nodePuts]
  generalize c % w = x
  generalize c / w = y
  simp only [List.mem_append]
  have m1 : (⟨qx, qy, qc⟩ : Put) ∈ (List.range' 0 11).map (fun k => (⟨(x + 1) * 10, y * 10 + k, blackPixel⟩ : Put)) ↔
      qc = blackPixel ∧ qx = 10 * (x + 1) ∧ 10 * y ≤ qy ∧ qy ≤ 10 * y + 10 := by
    simp only [List.mem_map, List.mem_range'_1, Put.mk.injEq]
    constructor
    · rintro ⟨k, hk, rfl, rfl, rfl⟩; exact ⟨rfl, by omega, by omega, by omega⟩
    · rintro ⟨rfl, h2, h3, h4⟩; exact ⟨qy - 10 * y, by omega, by omega, by omega, rfl⟩
  have m2 : (⟨qx, qy, qc⟩ : Put) ∈ (List.range' 0 11).map (fun k => (⟨x * 10 + k, (y + 1) * 10, blackPixel⟩ : Put)) ↔
      qc = blackPixel ∧ qy = 10 * (y + 1) ∧ 10 * x ≤ qx ∧ qx ≤ 10 * x + 10 := by
    simp only [List.mem_map, List.mem_range'_1, Put.mk.injEq]
    constructor
    · rintro ⟨k, hk, rfl, rfl, rfl⟩; exact ⟨rfl, by omega, by omega, by omega⟩
    · rintro ⟨rfl, h2, h3, h4⟩; exact ⟨qx - 10 * x, by omega, by omega, by omega, rfl⟩
  cases r <;> cases d <;> simp only [if_true, Bool.false_eq_true, if_false, m1, m2, List.not_mem_nil] <;> tauto

theorem mazePuts_black {w h : Nat} {g : List MazeNode} {q : Put} (hq : q ∈ mazePuts w h g) : q.c = blackPixel := by
  simp only [mazePuts, List.mem_append, List.mem_map, List.mem_flatMap] at hq
  rcases hq with (⟨_, _, rfl⟩ | ⟨_, _, rfl⟩) | ⟨p, _, hp⟩
  · rfl
  · rfl
  · exact (mem_nodePuts.mp hp).1

theorem mazePuts_iff {w h : Nat} {g : List MazeNode} {x y : Nat} (hx : x < w * 10 + 1) (hy : y < h * 10 + 1) :
    (∃ q ∈ mazePuts w h g, q.x = x ∧ q.y = y) ↔ WallPixel w g x y := by
  simp only [mazePuts, List.mem_append, List.mem_map, List.mem_flatMap, List.mem_range, List.mem_range'_1]
  constructor
  · rintro ⟨q, (⟨r, hr, rfl⟩ | ⟨c, hc, rfl⟩) | ⟨p, hp, hq⟩, rfl, rfl⟩
    · exact .inl rfl
    · exact .inr (.inl ⟨rfl, hc.1⟩)
    · right; right
      obtain ⟨n, c⟩ := p
      have := List.mk_mem_zipIdx_iff_getElem?.mp hp
      exact ⟨c, n, this, (mem_nodePuts.mp hq).2⟩
  · rintro (rfl | ⟨rfl, h10⟩ | ⟨c, n, hc, hw⟩)
    · exact ⟨_, .inl (.inl ⟨y, hy, rfl⟩), rfl, rfl⟩
    · exact ⟨_, .inl (.inr ⟨x, ⟨h10, by omega⟩, rfl⟩), rfl, rfl⟩
    · exact ⟨⟨x, y, blackPixel⟩, .inr ⟨(n, c), List.mk_mem_zipIdx_iff_getElem?.mpr hc,
        mem_nodePuts.mpr ⟨rfl, hw⟩⟩, rfl, rfl⟩

theorem printMaze_px (oc : Bool) {w h : Nat} {g : List MazeNode} (hl : g.length = w * h)
    (h1 : w * 10 + 1 < 2 ^ 32) (h2 : h * 10 + 1 < 2 ^ 32) (hn : w * h ≤ 2 ^ 32)
    (ha : 3 * (w * 10 + 1) * (h * 10 + 1) < 2 ^ 63) :
    ∃ img, printMaze oc w h g = .ok (.ok img) ∧ img.width = 10 * w + 1 ∧ img.height = 10 * h + 1 ∧
      ∀ x y, x < 10 * w + 1 → y < 10 * h + 1 →
        (WallPixel w g x y → img.px x y = blackPixel) ∧ (¬ WallPixel w g x y → img.px x y = whitePixel) := by
  refine ⟨_, printMaze_eq oc hl h1 h2 hn ha, by simp; omega, by simp; omega, ?_⟩
  intro x y hx hy
  have hp := Img.puts_px_one (img := ⟨w * 10 + 1, h * 10 + 1, fun _ _ => whitePixel⟩)
    (ps := mazePuts w h g) (c := blackPixel) (fun p hp => mazePuts_black hp) x y
  rw [mazePuts_iff (by omega) (by omega)] at hp
  exact hp

end Maze
