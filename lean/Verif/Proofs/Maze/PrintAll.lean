import Verif.Proofs.Maze.Print

/-! Helper lemmas: `print_maze` on every input, in both build modes. -/
namespace Maze
open Spec

theorem addW_wrap (a b : Nat) : addW false 32 a b = .ok ((a + b) % 2 ^ 32) := by
  unfold addW
  split
  · rename_i h; rw [Nat.mod_eq_of_lt h]
  · rfl

theorem mulW_wrap (a b : Nat) : mulW false 32 a b = .ok ((a * b) % 2 ^ 32) := by
  unfold mulW
  split
  · rename_i h; rw [Nat.mod_eq_of_lt h]
  · rfl

theorem putLoop_put {img : Img} {lo hi : Nat} {c : Rgb} {f : Nat → Prog (Nat × Nat)} (a b : Nat → Nat)
    (hf : ∀ k, lo ≤ k → k ≤ hi → f k = .ok (a k, b k)) :
    putLoop img lo hi c f =
      _root_.forIn' ((List.range' lo (hi + 1 - lo)).map fun k => (⟨a k, b k, c⟩ : Put)) img Img.put := by
  unfold putLoop
  rw [List.map_eq_flatMap, ← forIn'_flatMap]
  apply forIn'_congr_mem
  intro s k hk
  rw [List.mem_range'_1] at hk
  rw [hf k (by omega) (by omega), forIn'_cons]
  simp only [Prog.ok_bind, forIn'_nil, Img.put]
  cases s.putPixel (a k) (b k) c <;> rfl

/-- The writes for one cell when all coordinates are computed modulo `2^32`. -/
def nodePuts32 (w : Nat) (p : MazeNode × Nat) : List Put :=
  (if p.1.right then (List.range' 0 11).map fun k =>
    ⟨((p.2 % 2 ^ 32 % w + 1) * 10) % 2 ^ 32, (p.2 % 2 ^ 32 / w * 10 + k) % 2 ^ 32, blackPixel⟩ else []) ++
  (if p.1.down then (List.range' 0 11).map fun k =>
    ⟨(p.2 % 2 ^ 32 % w * 10 + k) % 2 ^ 32, ((p.2 % 2 ^ 32 / w + 1) * 10) % 2 ^ 32, blackPixel⟩ else [])

theorem printNode_wrap {w : Nat} (hw : w ≠ 0) (img : Img) (p : MazeNode × Nat) :
    printNode false w img p = _root_.forIn' (nodePuts32 w p) img Img.put := by
  obtain ⟨n, c⟩ := p
  simp only [printNode, if_neg hw, nodePuts32]
  generalize c % 2 ^ 32 % w = x at *
  generalize c % 2 ^ 32 / w = y at *
  have e1 : ∀ i : Img,
      putLoop i 0 10 blackPixel (fun k => do
        let a ← mulW false 32 (← addW false 32 x 1) 10
        let b ← addW false 32 (← mulW false 32 y 10) k
        return (a, b)) =
      _root_.forIn' ((List.range' 0 11).map fun k =>
        (⟨((x + 1) * 10) % 2 ^ 32, (y * 10 + k) % 2 ^ 32, blackPixel⟩ : Put)) i Img.put := by
    intro i
    refine putLoop_put (fun _ => ((x + 1) * 10) % 2 ^ 32) (fun k => (y * 10 + k) % 2 ^ 32) ?_
    intro k _ hk
    simp only [addW_wrap, mulW_wrap, Prog.ok_bind]
    rw [Nat.mod_mul_mod, Nat.mod_add_mod]
    rfl
  have e2 : ∀ i : Img,
      putLoop i 0 10 blackPixel (fun k => do
        let a ← addW false 32 (← mulW false 32 x 10) k
        let b ← mulW false 32 (← addW false 32 y 1) 10
        return (a, b)) =
      _root_.forIn' ((List.range' 0 11).map fun k =>
        (⟨(x * 10 + k) % 2 ^ 32, ((y + 1) * 10) % 2 ^ 32, blackPixel⟩ : Put)) i Img.put := by
    intro i
    refine putLoop_put (fun k => (x * 10 + k) % 2 ^ 32) (fun _ => ((y + 1) * 10) % 2 ^ 32) ?_
    intro k _ hk
    simp only [addW_wrap, mulW_wrap, Prog.ok_bind]
    rw [Nat.mod_mul_mod, Nat.mod_add_mod]
    rfl
  simp only [Prog.pure_eq] at e1 e2
  cases n.right <;> cases n.down <;>
    simp only [if_true, Bool.false_eq_true, if_false, Prog.pure_eq, Prog.ok_bind, List.nil_append, List.append_nil]
  · rfl
  · exact e2 img
  · rw [e1 img]
    cases _root_.forIn' _ img Img.put <;> rfl
  · rw [e1 img, forIn'_append]
    congr 1
    funext i
    exact e2 i

/-- All writes of `print_maze` into an image of `W x H` pixels. -/
def mazePuts32 (W H w : Nat) (g : List MazeNode) : List Put :=
  (List.range H).map (fun r => ⟨0, r, blackPixel⟩) ++
  (List.range' 10 (W - 10)).map (fun c => ⟨c, 0, blackPixel⟩) ++
  g.zipIdx.flatMap (nodePuts32 w)

theorem printMaze_wrap {w h : Nat} {g : List MazeNode} (hl : g.length = w * h) :
    let W := (10 * w + 1) % 2 ^ 32
    let H := (10 * h + 1) % 2 ^ 32
    printMaze false w h g = if 3 * W * H < 2 ^ 63 then
      (_root_.forIn' (mazePuts32 W H w g) ⟨W, H, fun _ _ => whitePixel⟩ Img.put) >>= fun img => .ok (.ok img)
      else .panic := by
  intro W H
  have hW : ((w * 10) % 2 ^ 32 + 1) % 2 ^ 32 = W := by rw [Nat.mod_add_mod, Nat.mul_comm]
  have hH : ((h * 10) % 2 ^ 32 + 1) % 2 ^ 32 = H := by rw [Nat.mod_add_mod, Nat.mul_comm]
  unfold printMaze
  simp only [hl, ne_eq, not_true_eq_false, if_false, addW_wrap, mulW_wrap, Prog.ok_bind, hW, hH, Img.fromPixel]
  split
  swap
  · rfl
  simp only [Prog.ok_bind]
  have e1 : ∀ i : Img, _root_.forIn' (List.range H) i (fun img row => img.putPixel 0 row blackPixel) =
      _root_.forIn' ((List.range H).map fun r => (⟨0, r, blackPixel⟩ : Put)) i Img.put := by
    intro i
    rw [List.map_eq_flatMap, ← forIn'_flatMap]
    apply forIn'_congr_mem
    intro s k _
    rw [forIn'_cons]
    simp only [forIn'_nil, Img.put]
    cases s.putPixel 0 k blackPixel <;> rfl
  have e2 : ∀ i : Img, _root_.forIn' (List.range' 10 (W - 10)) i (fun img col => img.putPixel col 0 blackPixel) =
      _root_.forIn' ((List.range' 10 (W - 10)).map fun c => (⟨c, 0, blackPixel⟩ : Put)) i Img.put := by
    intro i
    rw [List.map_eq_flatMap, ← forIn'_flatMap]
    apply forIn'_congr_mem
    intro s k _
    rw [forIn'_cons]
    simp only [forIn'_nil, Img.put]
    cases s.putPixel k 0 blackPixel <;> rfl
  have e3 : ∀ i : Img, _root_.forIn' g.zipIdx i (printNode false w) =
      _root_.forIn' (g.zipIdx.flatMap (nodePuts32 w)) i Img.put := by
    intro i
    rw [← forIn'_flatMap]
    apply forIn'_congr_mem
    intro s p hp
    have hlt : p.2 < w * h := by
      have := List.snd_lt_add_of_mem_zipIdx hp
      omega
    exact printNode_wrap (by rintro rfl; simp at hlt) s p
  have dim : ∀ ps : List Put, ∀ i i' : Img, _root_.forIn' ps i Img.put = .ok i' →
      i'.width = i.width ∧ i'.height = i.height := by
    intro ps i i' e
    by_cases hb : ∀ p ∈ ps, p.x < i.width ∧ p.y < i.height
    · rw [forIn'_put hb] at e
      simp only [Prog.ok.injEq] at e
      subst e; simp
    · rw [forIn'_put_panic (by simpa only [not_forall, exists_prop] using hb)] at e
      cases e
  simp only [mazePuts32, forIn'_append, e1, e2, e3, bind_assoc]
  have h0 : ∀ p ∈ (List.range H).map (fun r => (⟨0, r, blackPixel⟩ : Put)), p.x < W ∧ p.y < H := by
    intro p hp
    simp only [List.mem_map, List.mem_range] at hp
    obtain ⟨r, hr, rfl⟩ := hp
    exact ⟨by simp only [W]; omega, hr⟩
  rw [forIn'_put (img := ⟨W, H, fun _ _ => whitePixel⟩) h0]
  simp only [Prog.ok_bind, Img.puts_width, e2]
  rfl

theorem mem_nodePuts32 {w : Nat} {p : MazeNode × Nat} {q : Put} :
    q ∈ nodePuts32 w p ↔ q.c = blackPixel ∧ ∃ x y, q.x = x % 2 ^ 32 ∧ q.y = y % 2 ^ 32 ∧
      ((p.1.right = true ∧ x = 10 * (p.2 % 2 ^ 32 % w + 1) ∧ 10 * (p.2 % 2 ^ 32 / w) ≤ y ∧
          y ≤ 10 * (p.2 % 2 ^ 32 / w) + 10) ∨
       (p.1.down = true ∧ y = 10 * (p.2 % 2 ^ 32 / w + 1) ∧ 10 * (p.2 % 2 ^ 32 % w) ≤ x ∧
          x ≤ 10 * (p.2 % 2 ^ 32 % w) + 10)) := by
  obtain ⟨⟨r, d⟩, c⟩ := p
  obtain ⟨qx, qy, qc⟩ := q
  simp only [nodePuts32]
  generalize c % 2 ^ 32 % w = x
  generalize c % 2 ^ 32 / w = y
  simp only [List.mem_append]
  have m1 : (⟨qx, qy, qc⟩ : Put) ∈ (List.range' 0 11).map
        (fun k => (⟨((x + 1) * 10) % 2 ^ 32, (y * 10 + k) % 2 ^ 32, blackPixel⟩ : Put)) ↔
      qc = blackPixel ∧ ∃ a b, qx = a % 2 ^ 32 ∧ qy = b % 2 ^ 32 ∧ a = 10 * (x + 1) ∧ 10 * y ≤ b ∧ b ≤ 10 * y + 10 := by
    simp only [List.mem_map, List.mem_range'_1, Put.mk.injEq]
    constructor
    · rintro ⟨k, hk, rfl, rfl, rfl⟩
      exact ⟨rfl, (x + 1) * 10, y * 10 + k, rfl, rfl, by omega, by omega, by omega⟩
    · rintro ⟨rfl, a, b, h1, h2, h3, h4, h5⟩
      refine ⟨b - 10 * y, by omega, ?_, ?_, rfl⟩
      · rw [h1, h3, Nat.mul_comm]
      · rw [h2, Nat.mul_comm y 10, show 10 * y + (b - 10 * y) = b by omega]
  have m2 : (⟨qx, qy, qc⟩ : Put) ∈ (List.range' 0 11).map
        (fun k => (⟨(x * 10 + k) % 2 ^ 32, ((y + 1) * 10) % 2 ^ 32, blackPixel⟩ : Put)) ↔
      qc = blackPixel ∧ ∃ a b, qx = a % 2 ^ 32 ∧ qy = b % 2 ^ 32 ∧ b = 10 * (y + 1) ∧ 10 * x ≤ a ∧ a ≤ 10 * x + 10 := by
    simp only [List.mem_map, List.mem_range'_1, Put.mk.injEq]
    constructor
    · rintro ⟨k, hk, rfl, rfl, rfl⟩
      exact ⟨rfl, x * 10 + k, (y + 1) * 10, rfl, rfl, by omega, by omega, by omega⟩
    · rintro ⟨rfl, a, b, h1, h2, h3, h4, h5⟩
      refine ⟨a - 10 * x, by omega, ?_, ?_, rfl⟩
      · rw [h1, Nat.mul_comm x 10, show 10 * x + (a - 10 * x) = a by omega]
      · rw [h2, h3, Nat.mul_comm]
  cases r <;> cases d <;> simp only [if_true, Bool.false_eq_true, if_false, m1, m2, List.not_mem_nil, false_and,
    true_and, or_false, false_or, and_false, exists_false]
  constructor
  · rintro (⟨rfl, a, b, h1, h2, h3⟩ | ⟨rfl, a, b, h1, h2, h3⟩)
    · exact ⟨rfl, a, b, h1, h2, .inl h3⟩
    · exact ⟨rfl, a, b, h1, h2, .inr h3⟩
  · rintro ⟨rfl, a, b, h1, h2, h3 | h3⟩
    · exact .inl ⟨rfl, a, b, h1, h2, h3⟩
    · exact .inr ⟨rfl, a, b, h1, h2, h3⟩

theorem mazePuts32_iff {W H w : Nat} {g : List MazeNode} {x y : Nat} (hx : x < W) (hy : y < H) :
    (∃ q ∈ mazePuts32 W H w g, q.x = x ∧ q.y = y) ↔ x = 0 ∨ (y = 0 ∧ 10 ≤ x) ∨
      ∃ a b, DrawnWall w g a b ∧ x = a % 2 ^ 32 ∧ y = b % 2 ^ 32 := by
  simp only [mazePuts32, List.mem_append, List.mem_map, List.mem_flatMap, List.mem_range, List.mem_range'_1]
  constructor
  · rintro ⟨q, (⟨r, hr, rfl⟩ | ⟨c, hc, rfl⟩) | ⟨p, hp, hq⟩, rfl, rfl⟩
    · exact .inl rfl
    · exact .inr (.inl ⟨rfl, hc.1⟩)
    · right; right
      obtain ⟨n, c⟩ := p
      have := List.mk_mem_zipIdx_iff_getElem?.mp hp
      obtain ⟨_, a, b, h1, h2, h3⟩ := mem_nodePuts32.mp hq
      exact ⟨a, b, ⟨c, n, this, h3⟩, h1, h2⟩
  · rintro (rfl | ⟨rfl, h10⟩ | ⟨a, b, ⟨c, n, hc, hw⟩, h1, h2⟩)
    · exact ⟨_, .inl (.inl ⟨y, hy, rfl⟩), rfl, rfl⟩
    · exact ⟨_, .inl (.inr ⟨x, ⟨h10, by omega⟩, rfl⟩), rfl, rfl⟩
    · exact ⟨⟨x, y, blackPixel⟩, .inr ⟨(n, c), List.mk_mem_zipIdx_iff_getElem?.mpr hc,
        mem_nodePuts32.mpr ⟨rfl, a, b, h1, h2, hw⟩⟩, rfl, rfl⟩

theorem mazePuts32_black {W H w : Nat} {g : List MazeNode} {q : Put} (hq : q ∈ mazePuts32 W H w g) :
    q.c = blackPixel := by
  simp only [mazePuts32, List.mem_append, List.mem_map, List.mem_flatMap] at hq
  rcases hq with (⟨_, _, rfl⟩ | ⟨_, _, rfl⟩) | ⟨p, _, hp⟩
  · rfl
  · rfl
  · exact (mem_nodePuts32.mp hp).1

theorem mazePuts32_in {W H w : Nat} {g : List MazeNode} (hW : 0 < W) (hH : 0 < H) :
    (∀ q ∈ mazePuts32 W H w g, q.x < W ∧ q.y < H) ↔
      ∀ a b, DrawnWall w g a b → a % 2 ^ 32 < W ∧ b % 2 ^ 32 < H := by
  simp only [mazePuts32, List.mem_append, List.mem_map, List.mem_flatMap, List.mem_range, List.mem_range'_1]
  constructor
  · rintro hq a b ⟨c, n, hc, hw⟩
    exact hq ⟨a % 2 ^ 32, b % 2 ^ 32, blackPixel⟩ (.inr ⟨(n, c), List.mk_mem_zipIdx_iff_getElem?.mpr hc,
      mem_nodePuts32.mpr ⟨rfl, a, b, rfl, rfl, hw⟩⟩)
  · rintro hd q ((⟨r, hr, rfl⟩ | ⟨c, hc, rfl⟩) | ⟨⟨n, c⟩, hp, hq⟩)
    · exact ⟨hW, hr⟩
    · exact ⟨by simp only; omega, hH⟩
    · obtain ⟨_, a, b, h1, h2, h3⟩ := mem_nodePuts32.mp hq
      rw [h1, h2]
      exact hd a b ⟨c, n, List.mk_mem_zipIdx_iff_getElem?.mp hp, h3⟩

/-- The outcome of a release build. -/
theorem printMaze_release {w h : Nat} {g : List MazeNode} (hl : g.length = w * h) :
    let W := (10 * w + 1) % 2 ^ 32
    let H := (10 * h + 1) % 2 ^ 32
    let fits := 3 * W * H < 2 ^ 63 ∧ ∀ a b, DrawnWall w g a b → a % 2 ^ 32 < W ∧ b % 2 ^ 32 < H
    (fits → ∃ img, printMaze false w h g = .ok (.ok img) ∧ img.width = W ∧ img.height = H ∧
      ∀ x y, x < W → y < H →
        ((x = 0 ∨ (y = 0 ∧ 10 ≤ x) ∨ ∃ a b, DrawnWall w g a b ∧ x = a % 2 ^ 32 ∧ y = b % 2 ^ 32) →
          img.px x y = blackPixel) ∧
        (¬ (x = 0 ∨ (y = 0 ∧ 10 ≤ x) ∨ ∃ a b, DrawnWall w g a b ∧ x = a % 2 ^ 32 ∧ y = b % 2 ^ 32) →
          img.px x y = whitePixel)) ∧
    (¬ fits → printMaze false w h g = .panic) := by
  intro W H fits
  have hW : 0 < W := by simp only [W]; omega
  have hH : 0 < H := by simp only [H]; omega
  have e := printMaze_wrap hl
  simp only at e
  constructor
  · rintro ⟨f1, f2⟩
    rw [if_pos f1, forIn'_put (img := ⟨W, H, fun _ _ => whitePixel⟩) ((mazePuts32_in hW hH).2 f2)] at e
    refine ⟨_, e, by simp, by simp, fun x y hx hy => ?_⟩
    have hp := Img.puts_px_one (img := ⟨W, H, fun _ _ => whitePixel⟩)
      (ps := mazePuts32 W H w g) (c := blackPixel) (fun p hp => mazePuts32_black hp) x y
    rw [mazePuts32_iff hx hy] at hp
    exact hp
  · intro hf
    rw [e]
    split
    · rename_i f1
      have : ¬ ∀ q ∈ mazePuts32 W H w g, q.x < W ∧ q.y < H := fun hq => hf ⟨f1, (mazePuts32_in hW hH).1 hq⟩
      rw [forIn'_put_panic (img := ⟨W, H, fun _ _ => whitePixel⟩) (by simpa only [not_forall, exists_prop] using this)]
      rfl
    · rfl

/-- With overflow checks an overflowing dimension panics; otherwise no operation overflows. -/
theorem printMaze_debug {w h : Nat} {g : List MazeNode} (hl : g.length = w * h) :
    (10 * w + 1 < 2 ^ 32 ∧ 10 * h + 1 < 2 ^ 32 → printMaze true w h g = printMaze false w h g) ∧
    (¬ (10 * w + 1 < 2 ^ 32 ∧ 10 * h + 1 < 2 ^ 32) → printMaze true w h g = .panic) := by
  constructor
  · rintro ⟨h1, h2⟩
    unfold printMaze
    simp only [hl, ne_eq, not_true_eq_false, if_false]
    have m1 : ∀ oc, mulW oc 32 w 10 = .ok (w * 10) := fun oc => mulW_ok (by omega)
    have m2 : ∀ oc, mulW oc 32 h 10 = .ok (h * 10) := fun oc => mulW_ok (by omega)
    have a1 : ∀ oc, addW oc 32 (w * 10) 1 = .ok (w * 10 + 1) := fun oc => addW_ok (by omega)
    have a2 : ∀ oc, addW oc 32 (h * 10) 1 = .ok (h * 10 + 1) := fun oc => addW_ok (by omega)
    simp only [m1, m2, a1, a2, Prog.ok_bind]
    congr 1; funext i1
    congr 1; funext i2
    congr 1; funext i3
    congr 1
    apply forIn'_congr_mem
    intro s p hp
    have hlt : p.2 < w * h := by
      have := List.snd_lt_add_of_mem_zipIdx hp
      omega
    have hw : 0 < w := by
      rcases Nat.eq_zero_or_pos w with h0 | h0
      · rw [h0] at hlt; simp at hlt
      · exact h0
    have hx : p.2 % 2 ^ 32 % w < w := Nat.mod_lt _ hw
    have hy : p.2 % 2 ^ 32 / w < h := by
      rw [Nat.div_lt_iff_lt_mul hw, Nat.mul_comm]
      exact Nat.lt_of_le_of_lt (Nat.mod_le _ _) hlt
    simp only [printNode]
    generalize p.2 % 2 ^ 32 % w = x at *
    generalize p.2 % 2 ^ 32 / w = y at *
    have b1 : ∀ oc, addW oc 32 x 1 = .ok (x + 1) := fun oc => addW_ok (by omega)
    have b2 : ∀ oc, mulW oc 32 (x + 1) 10 = .ok ((x + 1) * 10) := fun oc => mulW_ok (by omega)
    have b3 : ∀ oc, mulW oc 32 y 10 = .ok (y * 10) := fun oc => mulW_ok (by omega)
    have b4 : ∀ oc, mulW oc 32 x 10 = .ok (x * 10) := fun oc => mulW_ok (by omega)
    have b5 : ∀ oc, addW oc 32 y 1 = .ok (y + 1) := fun oc => addW_ok (by omega)
    have b6 : ∀ oc, mulW oc 32 (y + 1) 10 = .ok ((y + 1) * 10) := fun oc => mulW_ok (by omega)
    have c1 : ∀ img, ∀ f f' : Nat → Prog (Nat × Nat), (∀ k, k ≤ 10 → f k = f' k) →
        putLoop img 0 10 blackPixel f = putLoop img 0 10 blackPixel f' := by
      intro img f f' hf
      unfold putLoop
      apply forIn'_congr_mem
      intro s k hk
      rw [List.mem_range'_1] at hk
      rw [hf k (by omega)]
    simp only [if_neg (show ¬ w = 0 by omega)]
    have d1 : ∀ img, putLoop img 0 10 blackPixel (fun k => do
        let a ← mulW true 32 (← addW true 32 x 1) 10
        let b ← addW true 32 (← mulW true 32 y 10) k
        pure (a, b)) = putLoop img 0 10 blackPixel (fun k => do
        let a ← mulW false 32 (← addW false 32 x 1) 10
        let b ← addW false 32 (← mulW false 32 y 10) k
        pure (a, b)) := by
      intro img
      apply c1
      intro k hk
      simp only [b1, b2, b3, Prog.ok_bind]
      rw [addW_ok (by omega), addW_ok (by omega)]
    have d2 : ∀ img, putLoop img 0 10 blackPixel (fun k => do
        let a ← addW true 32 (← mulW true 32 x 10) k
        let b ← mulW true 32 (← addW true 32 y 1) 10
        pure (a, b)) = putLoop img 0 10 blackPixel (fun k => do
        let a ← addW false 32 (← mulW false 32 x 10) k
        let b ← mulW false 32 (← addW false 32 y 1) 10
        pure (a, b)) := by
      intro img
      apply c1
      intro k hk
      simp only [b4, b5, b6, Prog.ok_bind]
      rw [addW_ok (by omega), addW_ok (by omega)]
    simp only [d1, d2]
  · intro hn
    unfold printMaze
    simp only [hl, ne_eq, not_true_eq_false, if_false]
    by_cases h1 : 10 * w + 1 < 2 ^ 32
    · have h2 : ¬ 10 * h + 1 < 2 ^ 32 := fun h2 => hn ⟨h1, h2⟩
      rw [mulW_ok (by omega), Prog.ok_bind, addW_ok (by omega), Prog.ok_bind]
      by_cases h3 : h * 10 < 2 ^ 32
      · rw [mulW_ok h3, Prog.ok_bind, addW, if_neg (by omega)]; rfl
      · rw [mulW, if_neg h3]; rfl
    · by_cases h3 : w * 10 < 2 ^ 32
      · rw [mulW_ok h3, Prog.ok_bind, addW, if_neg (by omega)]; rfl
      · rw [mulW, if_neg h3]; rfl

theorem drawn_in {w h : Nat} {g : List MazeNode} (hl : g.length = w * h) {a b : Nat} (hd : DrawnWall w g a b) :
    a < 10 * w + 1 ∧ b < 10 * h + 1 := by
  obtain ⟨c, n, hc, hw⟩ := hd
  have hlt : c < w * h := by
    rw [← hl]; exact (List.getElem?_eq_some_iff.1 hc).1
  have hpos : 0 < w := by
    rcases Nat.eq_zero_or_pos w with h0 | h0
    · rw [h0] at hlt; simp at hlt
    · exact h0
  have hx : c % 2 ^ 32 % w < w := Nat.mod_lt _ hpos
  have hy : c % 2 ^ 32 / w < h := by
    rw [Nat.div_lt_iff_lt_mul hpos, Nat.mul_comm]
    exact Nat.lt_of_le_of_lt (Nat.mod_le _ _) hlt
  omega

end Maze
