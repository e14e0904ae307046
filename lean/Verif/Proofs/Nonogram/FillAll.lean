import Verif.Proofs.Nonogram.PrintAll

/-! Helper lemmas: the filled squares of `print_nonogram_solution` on every input, in both build modes. -/
namespace Nonogram
open Spec

theorem i32_wrap (v : Int) : i32 false v = .ok ((v + 2 ^ 31) % 2 ^ 32 - 2 ^ 31) := by
  unfold i32
  split
  · exact congrArg Prog.ok (by omega)
  · rfl

theorem far_wrap (v : Int) (s : Nat) : Rect.far false v s = .ok ((v + asI32 s - 1 + 2 ^ 31) % 2 ^ 32 - 2 ^ 31) := by
  unfold Rect.far
  rw [i32_wrap, Prog.ok_bind, i32_wrap]
  exact congrArg Prog.ok (by omega)

/-- The first painted pixel of a row of 49 from `c` on, and how many are painted. -/
def firstPixel (c : Nat) : Nat := (max 0 (signed32 c)).toNat
def pixels (side c : Nat) : Nat :=
  if side ≤ 2 ^ 31 ∧ signed32 c + 48 < 2 ^ 31 then (min (side - 1 : Int) (signed32 c + 48) - max 0 (signed32 c) + 1).toNat
  else 0

theorem pixels_iff {side c x : Nat} (hc : c < 2 ^ 32) (hs : 0 < side) :
    (firstPixel c ≤ x ∧ x < firstPixel c + pixels side c) ↔
      side ≤ 2 ^ 31 ∧ x < side ∧ signed32 c ≤ x ∧ x ≤ signed32 c + 48 ∧ signed32 c + 48 < 2 ^ 31 := by
  have h1 : -2 ^ 31 ≤ signed32 c ∧ signed32 c < 2 ^ 31 := by unfold signed32; split <;> omega
  unfold firstPixel pixels
  split <;> omega

theorem far_both {side c : Nat} (hc : c < 2 ^ 32) (h0 : 0 < side) (hs : side < 2 ^ 32) :
    ∃ l r, max 0 (asI32 c) = l ∧ min (((0 : Int) + asI32 side - 1 + 2 ^ 31) % 2 ^ 32 - 2 ^ 31)
      ((asI32 c + asI32 49 - 1 + 2 ^ 31) % 2 ^ 32 - 2 ^ 31) = r ∧
      (r < l ↔ pixels side c = 0) ∧ (¬ r < l → 0 ≤ l ∧ l < 2 ^ 31 ∧ l.toNat = firstPixel c ∧
        (((r - l + 2 ^ 31) % 2 ^ 32 - 2 ^ 31) % 2 ^ 32).toNat + 1 = pixels side c ∧ firstPixel c + pixels side c ≤ side) := by
  have h49 : asI32 49 = 49 := rfl
  have e : asI32 c = signed32 c := rfl
  have h1 : -2 ^ 31 ≤ signed32 c ∧ signed32 c < 2 ^ 31 := by unfold signed32; split <;> omega
  have hS : asI32 side = if side < 2 ^ 31 then (side : Int) else (side : Int) - 2 ^ 32 := rfl
  refine ⟨_, _, rfl, rfl, ?_, ?_⟩
  · rw [h49, e, hS]
    unfold pixels
    split <;> split <;> omega
  · rw [h49, e, hS]
    unfold pixels firstPixel
    split <;> split <;> omega

theorem drawFilledRect_wrap {i : Img} {x y : Nat} (c : Rgb) (hx : x < 2 ^ 32) (hy : y < 2 ^ 32) (hw : 0 < i.width)
    (hh : 0 < i.height) (hiw : i.width < 2 ^ 32) (hih : i.height < 2 ^ 32) :
    drawFilledRect false i ⟨asI32 x, asI32 y, 49, 49⟩ c =
      .ok (i.puts (rectPuts (firstPixel x) (firstPixel y) (pixels i.width x) (pixels i.height y) c)) := by
  obtain ⟨l, r, el, er, z1, f1⟩ := far_both hx hw hiw
  obtain ⟨t, b, et, eb, z2, f2⟩ := far_both hy hh hih
  unfold drawFilledRect
  rw [Rect.ofSize, if_pos ⟨hw, hh⟩, Prog.ok_bind]
  unfold Rect.intersect
  simp only [far_wrap, Prog.ok_bind, el, er, et, eb]
  by_cases hn : r < l ∨ b < t
  · rw [if_pos hn, Prog.pure_eq, Prog.ok_bind]
    have : rectPuts (firstPixel x) (firstPixel y) (pixels i.width x) (pixels i.height y) c = [] := by
      unfold rectPuts
      rcases hn with hn | hn
      · rw [z1.mp hn]
        simp
      · rw [z2.mp hn]
        simp
    rw [this]
    rfl
  · rw [not_or] at hn
    obtain ⟨a1, a2, a3, a4, a5⟩ := f1 hn.1
    obtain ⟨b1, b2, b3, b4, b5⟩ := f2 hn.2
    rw [if_neg (not_or.mpr hn), i32_wrap, Prog.ok_bind, i32_wrap, Prog.ok_bind, a4, b4, Prog.pure_eq, Prog.ok_bind]
    dsimp only
    have ex : (l % 2 ^ 32).toNat = firstPixel x := by omega
    have ey : (t % 2 ^ 32).toNat = firstPixel y := by omega
    rw [ex, ey]
    apply forIn'_puts
    intro j h1 h2 dy hdy
    rw [List.mem_range] at hdy
    apply forIn'_puts
    intro k h3 h4 dx hdx
    rw [List.mem_range] at hdx
    rw [addW_ok (by omega), Prog.ok_bind, addW_ok (by omega), Prog.ok_bind, Img.putPixel, if_pos ⟨by omega, by omega⟩]
    rfl

/-- The writes of one square, cut to 32 bits. -/
def squarePuts32 (w h : Nat) (e : Bool × Nat) : List Put :=
  if e.1 then
    let x := (50 * (e.2 % 2 ^ 32 % w) + margin32 w + 1) % 2 ^ 32
    let y := (50 * (e.2 % 2 ^ 32 / w) + margin32 h + 1) % 2 ^ 32
    rectPuts (firstPixel x) (firstPixel y) (pixels (side32 w) x) (pixels (side32 h) y) blackPixel
  else []

/-- The rectangle drawn for a square. -/
theorem printSquare_rect {w h : Nat} (hw : 0 < w) (i : Img) (n : Nat) :
    printSquare false w h i (true, n) =
      drawFilledRect false i ⟨asI32 ((50 * (n % 2 ^ 32 % w) + margin32 w + 1) % 2 ^ 32),
        asI32 ((50 * (n % 2 ^ 32 / w) + margin32 h + 1) % 2 ^ 32), 49, 49⟩ blackPixel := by
  unfold printSquare
  simp only [Bool.true_eq_false, if_false]
  rw [if_neg (by omega), ruleSide_wrap, ruleSide_wrap]
  simp only [mulW_wrap, Prog.ok_bind, addW_wrap]
  rw [Rect.ofSize, if_pos (by decide), Prog.ok_bind]
  generalize n % 2 ^ 32 % w = a
  generalize n % 2 ^ 32 / w = b
  have e1 : ((a * 50 % 2 ^ 32 + margin32 w) % 2 ^ 32 + 1) % 2 ^ 32 = (50 * a + margin32 w + 1) % 2 ^ 32 := by omega
  have e2 : ((b * 50 % 2 ^ 32 + margin32 h) % 2 ^ 32 + 1) % 2 ^ 32 = (50 * b + margin32 h + 1) % 2 ^ 32 := by omega
  rw [e1, e2]

theorem printSquare_wrap {w h : Nat} (hw : 0 < w) (i : Img) (hiw : i.width = side32 w) (hih : i.height = side32 h)
    (h1 : 0 < side32 w) (h2 : 0 < side32 h) (e : Bool × Nat) :
    printSquare false w h i e = .ok (i.puts (squarePuts32 w h e)) := by
  obtain ⟨b, n⟩ := e
  cases b with
  | false => rfl
  | true =>
    have b1 : side32 w < 2 ^ 32 := Nat.mod_lt _ (by decide)
    have b2 : side32 h < 2 ^ 32 := Nat.mod_lt _ (by decide)
    rw [printSquare_rect hw, drawFilledRect_wrap blackPixel (Nat.mod_lt _ (by decide)) (Nat.mod_lt _ (by decide))
      (by omega) (by omega) (by omega) (by omega), hiw, hih]
    rfl

theorem forIn'_panic {σ α : Type} {xs : List α} {body : σ → α → Prog σ} {s : σ} {P : α → Prop}
    (h : ∀ x ∈ xs, (P x → body s x = .panic) ∧ (¬ P x → body s x = .ok s)) :
    ((∃ x ∈ xs, P x) → _root_.forIn' xs s body = .panic) ∧ ((¬ ∃ x ∈ xs, P x) → _root_.forIn' xs s body = .ok s) := by
  induction xs with
  | nil => exact ⟨by simp, fun _ => rfl⟩
  | cons x xs ih =>
    have hx := h x (by simp)
    have ih := ih fun y hy => h y (by simp [hy])
    rw [forIn'_cons]
    by_cases hp : P x
    · rw [hx.1 hp]
      exact ⟨fun _ => rfl, fun hn => absurd ⟨x, by simp, hp⟩ hn⟩
    · rw [hx.2 hp, Prog.ok_bind]
      refine ⟨fun ⟨y, hy, hq⟩ => ih.1 ?_, fun hn => ih.2 fun ⟨y, hy, hq⟩ => hn ⟨y, by simp [hy], hq⟩⟩
      rcases List.mem_cons.mp hy with rfl | hy
      · exact absurd hq hp
      · exact ⟨y, hy, hq⟩

theorem far_debug {v : Int} (h : -2 ^ 31 ≤ v ∧ v < 2 ^ 31) : Rect.far true v 49 =
    if v + 49 < 2 ^ 31 then .ok (v + 48) else .panic := by
  unfold Rect.far
  have h49 : asI32 49 = 49 := rfl
  rw [h49]
  by_cases hv : v + 49 < 2 ^ 31
  · rw [i32_ok true (by omega), Prog.ok_bind, i32_ok true (by omega), if_pos hv]
    exact congrArg Prog.ok (by omega)
  · rw [if_neg hv, i32, if_neg (by omega)]
    rfl

theorem far_bounds {s : Nat} (h0 : 0 < s) (h : s < 2 ^ 32) (hne : s ≠ 2 ^ 31) :
    ∃ r : Int, Rect.far true 0 s = .ok r ∧ (2 ^ 31 ≤ s → r < 0) := by
  unfold Rect.far
  have hS : asI32 s = if s < 2 ^ 31 then (s : Int) else (s : Int) - 2 ^ 32 := rfl
  have h1 : -2 ^ 31 < asI32 s ∧ asI32 s < 2 ^ 31 := by rw [hS]; split <;> omega
  have h2 : 2 ^ 31 ≤ s → asI32 s < 0 := by intro hs; rw [hS, if_neg (by omega)]; omega
  rw [i32_ok true (by omega), Prog.ok_bind, i32_ok true (by omega)]
  exact ⟨_, rfl, by omega⟩

/-- In an image with a side of more than `2^31` pixels nothing is drawn, with overflow checks. -/
theorem drawFilledRect_debug {i : Img} {x y : Nat} (c : Rgb) (hx : x < 2 ^ 32) (hy : y < 2 ^ 32) (hw : 0 < i.width)
    (hh : 0 < i.height) (hiw : i.width < 2 ^ 32) (hih : i.height < 2 ^ 32) (nw : i.width ≠ 2 ^ 31) (nh : i.height ≠ 2 ^ 31)
    (hl : 2 ^ 31 ≤ i.width ∨ 2 ^ 31 ≤ i.height) :
    let P := (x < 2 ^ 31 ∧ 2 ^ 31 ≤ x + 49) ∨ (y < 2 ^ 31 ∧ 2 ^ 31 ≤ y + 49)
    (P → drawFilledRect true i ⟨asI32 x, asI32 y, 49, 49⟩ c = .panic) ∧
    (¬ P → drawFilledRect true i ⟨asI32 x, asI32 y, 49, 49⟩ c = .ok i) := by
  intro P
  have hX : asI32 x = if x < 2 ^ 31 then (x : Int) else (x : Int) - 2 ^ 32 := rfl
  have hY : asI32 y = if y < 2 ^ 31 then (y : Int) else (y : Int) - 2 ^ 32 := rfl
  have bx : -2 ^ 31 ≤ asI32 x ∧ asI32 x < 2 ^ 31 := by rw [hX]; split <;> omega
  have bY : -2 ^ 31 ≤ asI32 y ∧ asI32 y < 2 ^ 31 := by rw [hY]; split <;> omega
  have px : asI32 x + 49 < 2 ^ 31 ↔ ¬ (x < 2 ^ 31 ∧ 2 ^ 31 ≤ x + 49) := by rw [hX]; split <;> omega
  have py : asI32 y + 49 < 2 ^ 31 ↔ ¬ (y < 2 ^ 31 ∧ 2 ^ 31 ≤ y + 49) := by rw [hY]; split <;> omega
  obtain ⟨r, e1, n1⟩ := far_bounds hw hiw nw
  obtain ⟨b, e2, n2⟩ := far_bounds hh hih nh
  unfold drawFilledRect
  rw [Rect.ofSize, if_pos ⟨hw, hh⟩, Prog.ok_bind]
  unfold Rect.intersect
  simp only [e1, e2, Prog.ok_bind, far_debug bx, far_debug bY, px, py]
  by_cases p1 : x < 2 ^ 31 ∧ 2 ^ 31 ≤ x + 49
  · rw [if_neg (not_not.mpr p1)]
    exact ⟨fun _ => rfl, fun hn => absurd (.inl p1) hn⟩
  · rw [if_pos p1, Prog.ok_bind]
    by_cases p2 : y < 2 ^ 31 ∧ 2 ^ 31 ≤ y + 49
    · rw [if_neg (not_not.mpr p2)]
      exact ⟨fun _ => rfl, fun hn => absurd (.inr p2) hn⟩
    · rw [if_pos p2, Prog.ok_bind, if_pos (by omega)]
      exact ⟨fun hP => absurd hP (not_or.mpr ⟨p1, p2⟩), fun _ => rfl⟩

theorem printSquare_debug {w h : Nat} (hw : side w < 2 ^ 32) (hh : side h < 2 ^ 32)
    (hl : 2 ^ 31 ≤ side w ∨ 2 ^ 31 ≤ side h) (i : Img) (hiw : i.width = side w) (hih : i.height = side h) (e : Bool × Nat)
    (he : e.2 < w * h) :
    let P := e.1 = true ∧ (Inside w (e.2 % 2 ^ 32 % w) (2 ^ 31 - 1) ∨ Inside h (e.2 % 2 ^ 32 / w) (2 ^ 31 - 1))
    (P → printSquare true w h i e = .panic) ∧ (¬ P → printSquare true w h i e = .ok i) := by
  obtain ⟨b, n⟩ := e
  dsimp only at he ⊢
  cases b with
  | false => exact ⟨fun h => by simp at h, fun _ => rfl⟩
  | true =>
    have hw0 : 0 < w := Nat.pos_of_mul_pos_right (by omega : 0 < w * h)
    have hle : n % 2 ^ 32 ≤ n := Nat.mod_le _ _
    have hx : n % 2 ^ 32 % w < w := Nat.mod_lt _ hw0
    have hy : n % 2 ^ 32 / w < h := Nat.div_lt_of_lt_mul (by omega)
    have sw : side w = 50 * w + margin w := rfl
    have sh : side h = 50 * h + margin h := rfl
    have no : ∀ k, side k ≠ 2 ^ 31 := by intro k; unfold side margin; omega
    have low := le_side w
    have low' := le_side h
    unfold printSquare
    simp only [Bool.true_eq_false, if_false, true_and]
    generalize n % 2 ^ 32 % w = a at *
    generalize n % 2 ^ 32 / w = c at *
    rw [if_neg (by omega), ruleSide_ok true (by omega), ruleSide_ok true (by omega),
      mulW_ok (by omega), Prog.ok_bind, Prog.ok_bind, addW_ok (by omega), Prog.ok_bind, addW_ok (by omega), Prog.ok_bind,
      mulW_ok (by omega), Prog.ok_bind, Prog.ok_bind, addW_ok (by omega), Prog.ok_bind, addW_ok (by omega), Prog.ok_bind,
      Rect.ofSize, if_pos (by decide), Prog.ok_bind]
    obtain ⟨d1, d2⟩ := drawFilledRect_debug (i := i) (x := a * 50 + margin w + 1) (y := c * 50 + margin h + 1) blackPixel
      (by omega) (by omega) (by omega) (by omega) (by omega) (by omega) (by rw [hiw]; exact no w)
      (by rw [hih]; exact no h) (by omega)
    unfold Inside
    exact ⟨fun hP => d1 (by omega), fun hP => d2 (by omega)⟩

end Nonogram
