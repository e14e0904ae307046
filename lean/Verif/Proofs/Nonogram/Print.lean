import Verif.Model.NonogramPrint
import Verif.Spec.NonogramPrint
import Verif.Proofs.Image
import Mathlib.Tactic.Ring

/-! `print_nonogram` and `print_nonogram_solution`. -/
namespace Nonogram
open Spec

theorem le_side (n : Nat) : 50 * n + 150 ≤ side n ∧ 60 * n ≤ side n := by unfold side margin; omega

theorem ruleSide_ok (oc : Bool) {n : Nat} (h : side n < 2 ^ 32) : ruleSide oc n = .ok (margin n) := by
  have := le_side n
  unfold ruleSide
  rw [mulW_ok (by omega), Prog.ok_bind, Prog.pure_eq, margin, Nat.mul_comm]

theorem imageSide_ok (oc : Bool) {n : Nat} (h : side n < 2 ^ 32) : imageSide oc n (margin n) = .ok (side n) := by
  have := le_side n
  unfold imageSide
  have h' : n * 50 + margin n = side n := by unfold side; omega
  rw [mulW_ok (by omega), Prog.ok_bind, addW_ok (by omega), h']

theorem forIn'_foldl {σ α : Type} {xs : List α} {body : σ → α → Prog σ} {f : σ → α → σ}
    (h : ∀ s, ∀ x ∈ xs, body s x = .ok (f s x)) (s : σ) : _root_.forIn' xs s body = .ok (xs.foldl f s) := by
  induction xs generalizing s with
  | nil => rfl
  | cons x xs ih =>
    rw [forIn'_cons, h s x (by simp), Prog.ok_bind]
    exact ih (fun s y hy => h s y (by simp [hy])) _

/-- Drawing a list of texts. -/
def drawAll (text : TextFn) (i : Img) (ts : List Text) : Img :=
  ts.foldl (fun i t => text.draw i ⟨0, 0, 0⟩ t.x t.y 30 t.s) i

theorem drawAll_dims (text : TextFn) (i : Img) (ts : List Text) :
    (drawAll text i ts).width = i.width ∧ (drawAll text i ts).height = i.height := by
  induction ts generalizing i with
  | nil => exact ⟨rfl, rfl⟩
  | cons t ts ih =>
    have := ih (text.draw i ⟨0, 0, 0⟩ t.x t.y 30 t.s)
    rw [text.width, text.height] at this
    exact this

theorem foldl_drawAll (text : TextFn) {α : Type} (f : α → List Text) (xs : List α) (i : Img) :
    xs.foldl (fun i x => drawAll text i (f x)) i = drawAll text i (xs.flatMap f) := by
  induction xs generalizing i with
  | nil => rfl
  | cons x xs ih =>
    rw [List.foldl_cons, ih, List.flatMap_cons]
    simp [drawAll]

theorem printColRule_ok (oc : Bool) (text : TextFn) {n : Nat} (hn : side n < 2 ^ 32) (i : Img) (rule : List Nat) (x : Nat)
    (hx : x < n) (hr : 30 * rule.length < 2 ^ 32 + 20) :
    printColRule oc text (margin n) i (rule, x) = .ok (drawAll text i (colTexts n x rule)) := by
  have h1 : 50 * x + margin n + 15 < 2 ^ 32 := by unfold side at hn; omega
  unfold printColRule
  rw [Nat.mod_eq_of_lt (by omega), mulW_ok (by omega), Prog.ok_bind, addW_ok (by omega), Prog.ok_bind,
    addW_ok (by omega), Prog.ok_bind]
  rw [forIn'_foldl (f := fun i e => text.draw i ⟨0, 0, 0⟩ (50 * x + margin n + 15) (30 * e.2 + 10) 30 (toString e.1))]
  · rw [drawAll, colTexts, List.foldl_map]
  · rintro s ⟨v, y⟩ h
    have : y < rule.length := List.snd_lt_of_mem_zipIdx h
    simp only [printColNumber]
    rw [Nat.mod_eq_of_lt (by omega), mulW_ok (by omega), Prog.ok_bind, addW_ok (by omega), Prog.ok_bind, Prog.pure_eq]
    rw [Nat.mul_comm x, Nat.mul_comm y]; rfl

theorem printRowRule_ok (oc : Bool) (text : TextFn) {n : Nat} (hn : side n < 2 ^ 32) (i : Img) (rule : List Nat) (y : Nat)
    (hy : y < n) :
    printRowRule oc text (margin n) i (rule, y) = .ok (drawAll text i [rowText n y rule]) := by
  have h1 : 50 * y + margin n + 15 < 2 ^ 32 := by unfold side at hn; omega
  unfold printRowRule
  rw [Nat.mod_eq_of_lt (by omega), mulW_ok (by omega), Prog.ok_bind, addW_ok (by omega), Prog.ok_bind,
    addW_ok (by omega), Prog.ok_bind, Prog.pure_eq]
  simp only [drawAll, rowText, List.foldl_cons, List.foldl_nil, Nat.mul_comm y]
  rfl

/-- The offsets of the pixels of line `k`. -/
def lineOffsets (n k : Nat) : List Nat :=
  let c := 50 * k + margin n
  if k % 5 = 0 then [c, c + 1, c - 1] else [c]

theorem mem_lineOffsets {n k x : Nat} : x ∈ lineOffsets n k ↔
    x = 50 * k + margin n ∨ k % 5 = 0 ∧ (x = 50 * k + margin n + 1 ∨ x + 1 = 50 * k + margin n) := by
  have : 150 ≤ margin n := by unfold margin; omega
  unfold lineOffsets
  dsimp only
  split <;> simp <;> omega

theorem lineOffsets_lt {n k x : Nat} (hk : k < n) (h : x ∈ lineOffsets n k) : x < side n := by
  rw [mem_lineOffsets] at h
  unfold side
  omega

theorem printVertical_ok (oc : Bool) {n k : Nat} (hn : side n < 2 ^ 32) (hk : k < n) (i : Img) (hi : i.width = side n)
    (y : Nat) (hy : y < i.height) :
    printVertical oc (margin n) k i y = .ok (i.puts ((lineOffsets n k).map fun x => ⟨x, y, grayPixel⟩)) := by
  have h1 := lineOffsets_lt (x := 50 * k + margin n) hk (mem_lineOffsets.mpr (.inl rfl))
  have h0 : 150 ≤ margin n := by unfold margin; omega
  have hm : k * 50 + margin n = 50 * k + margin n := by omega
  unfold printVertical
  rw [mulW_ok (by omega), Prog.ok_bind, addW_ok (by omega), Prog.ok_bind, hm]
  have p : ∀ (j : Img), j.width = i.width → j.height = i.height → ∀ x < side n,
      j.putPixel x y grayPixel = .ok (j.set x y grayPixel) := by
    intro j h1 h2 x hx
    rw [Img.putPixel, if_pos ⟨by omega, by omega⟩]
  rw [p i rfl rfl _ h1, Prog.ok_bind]
  by_cases h5 : k % 5 = 0
  · have h2 := lineOffsets_lt (x := 50 * k + margin n + 1) hk (mem_lineOffsets.mpr (.inr ⟨h5, .inl rfl⟩))
    rw [if_pos h5, addW_ok (by omega), Prog.ok_bind, p _ (by rfl) (by rfl) _ h2, Prog.ok_bind,
      subW_ok (by omega), Prog.ok_bind, p _ (by rfl) (by rfl) _ (by omega)]
    simp [lineOffsets, h5, Img.puts]
  · rw [if_neg h5]
    simp [lineOffsets, h5, Img.puts]

theorem printHorizontal_ok (oc : Bool) {n k : Nat} (hn : side n < 2 ^ 32) (hk : k < n) (i : Img) (hi : i.height = side n)
    (x : Nat) (hx : x < i.width) :
    printHorizontal oc (margin n) k i x = .ok (i.puts ((lineOffsets n k).map fun y => ⟨x, y, grayPixel⟩)) := by
  have h1 := lineOffsets_lt (x := 50 * k + margin n) hk (mem_lineOffsets.mpr (.inl rfl))
  have h0 : 150 ≤ margin n := by unfold margin; omega
  have hm : k * 50 + margin n = 50 * k + margin n := by omega
  unfold printHorizontal
  rw [mulW_ok (by omega), Prog.ok_bind, addW_ok (by omega), Prog.ok_bind, hm]
  have p : ∀ (j : Img), j.width = i.width → j.height = i.height → ∀ y < side n,
      j.putPixel x y grayPixel = .ok (j.set x y grayPixel) := by
    intro j h1 h2 y hy
    rw [Img.putPixel, if_pos ⟨by omega, by omega⟩]
  rw [p i rfl rfl _ h1, Prog.ok_bind]
  by_cases h5 : k % 5 = 0
  · have h2 := lineOffsets_lt (x := 50 * k + margin n + 1) hk (mem_lineOffsets.mpr (.inr ⟨h5, .inl rfl⟩))
    rw [if_pos h5, addW_ok (by omega), Prog.ok_bind, p _ (by rfl) (by rfl) _ h2, Prog.ok_bind,
      subW_ok (by omega), Prog.ok_bind, p _ (by rfl) (by rfl) _ (by omega)]
    simp [lineOffsets, h5, Img.puts]
  · rw [if_neg h5]
    simp [lineOffsets, h5, Img.puts]

/-- The writes of the grid lines. -/
def vertical (w h : Nat) : List Put :=
  (List.range w).flatMap fun k => (List.range (side h)).flatMap fun y => (lineOffsets w k).map fun x => ⟨x, y, grayPixel⟩
def horizontal (w h : Nat) : List Put :=
  (List.range h).flatMap fun k => (List.range (side w)).flatMap fun x => (lineOffsets h k).map fun y => ⟨x, y, grayPixel⟩

theorem printNonogram_eq (oc : Bool) (text : TextFn) (col row : List (List Nat))
    (hp : Drawable col row) :
    printNonogram oc text col.length row.length col row =
      .ok (.ok (((page text col.length row.length (texts col row)).puts (vertical col.length row.length)).puts
        (horizontal col.length row.length))) := by
  have hw := hp.width
  have hh := hp.height
  unfold printNonogram
  simp only [ne_eq, not_true_eq_false, or_self, if_false]
  rw [ruleSide_ok oc (by omega), Prog.ok_bind, ruleSide_ok oc (by omega), Prog.ok_bind, imageSide_ok oc (by omega),
    Prog.ok_bind, imageSide_ok oc (by omega), Prog.ok_bind, Img.fromPixel, if_pos hp.size, Prog.ok_bind]
  rw [forIn'_foldl (f := fun i e => drawAll text i (colTexts col.length e.2 e.1)), Prog.ok_bind]
  rw [forIn'_foldl (f := fun i e => drawAll text i [rowText row.length e.2 e.1]), Prog.ok_bind]
  rw [foldl_drawAll text (fun e : List Nat × Nat => colTexts col.length e.2 e.1),
    foldl_drawAll text (fun e : List Nat × Nat => [rowText row.length e.2 e.1])]
  have hpage : drawAll text (drawAll text ⟨side col.length, side row.length, fun _ _ => whitePixel⟩
      (List.flatMap (fun e => colTexts col.length e.2 e.1) col.zipIdx))
      (List.flatMap (fun e => [rowText row.length e.2 e.1]) row.zipIdx) =
      page text col.length row.length (texts col row) := by
    unfold page texts
    simp only [drawAll, ← List.foldl_append]
    rw [← List.map_eq_flatMap]; rfl
  rw [hpage]
  have hd := drawAll_dims text ⟨side col.length, side row.length, fun _ _ => whitePixel⟩ (texts col row)
  change (page text col.length row.length (texts col row)).width = _ ∧
    (page text col.length row.length (texts col row)).height = _ at hd
  simp only at hd
  rw [forIn'_puts (f := fun k => (List.range (side row.length)).flatMap fun y =>
    (lineOffsets col.length k).map fun x => ⟨x, y, grayPixel⟩)]
  · rw [Prog.ok_bind]
    rw [forIn'_puts (f := fun k => (List.range (side col.length)).flatMap fun x =>
      (lineOffsets row.length k).map fun y => ⟨x, y, grayPixel⟩)]
    · rfl
    · intro i h1 h2 k hk
      rw [List.mem_range] at hk
      rw [Prog.ok_bind]
      apply forIn'_puts
      intro j h3 h4 x hx
      rw [List.mem_range] at hx
      simp only [Img.puts_width, Img.puts_height] at h1 h2
      exact printHorizontal_ok oc hh hk j (by omega) x (by omega)
  · intro i h1 h2 k hk
    rw [List.mem_range] at hk
    rw [Prog.ok_bind]
    apply forIn'_puts
    intro j h3 h4 y hy
    rw [List.mem_range] at hy
    exact printVertical_ok oc hw hk j (by omega) y (by omega)
  · rintro s ⟨rule, y⟩ h
    exact printRowRule_ok oc text hh s rule y (List.snd_lt_of_mem_zipIdx h)
  · rintro s ⟨rule, x⟩ h
    exact printColRule_ok oc text hw s rule x (List.snd_lt_of_mem_zipIdx h) (hp.rules _ (List.fst_mem_of_mem_zipIdx h))

theorem mem_vertical {w h x y : Nat} : (∃ p ∈ vertical w h, p.x = x ∧ p.y = y) ↔ OnLine w x ∧ y < side h := by
  simp only [vertical, List.mem_flatMap, List.mem_range, List.mem_map, OnLine]
  constructor
  · rintro ⟨_, ⟨k, hk, y, hy, x, hx, rfl⟩, rfl, rfl⟩
    exact ⟨⟨k, hk, mem_lineOffsets.mp hx⟩, hy⟩
  · rintro ⟨⟨k, hk, hx⟩, hy⟩
    exact ⟨_, ⟨k, hk, y, hy, x, mem_lineOffsets.mpr hx, rfl⟩, rfl, rfl⟩

theorem mem_horizontal {w h x y : Nat} : (∃ p ∈ horizontal w h, p.x = x ∧ p.y = y) ↔ OnLine h y ∧ x < side w := by
  simp only [horizontal, List.mem_flatMap, List.mem_range, List.mem_map, OnLine]
  constructor
  · rintro ⟨_, ⟨k, hk, y, hy, x, hx, rfl⟩, rfl, rfl⟩
    exact ⟨⟨k, hk, mem_lineOffsets.mp hx⟩, hy⟩
  · rintro ⟨⟨k, hk, hx⟩, hy⟩
    exact ⟨_, ⟨k, hk, x, hy, y, mem_lineOffsets.mpr hx, rfl⟩, rfl, rfl⟩

theorem vertical_gray {w h : Nat} : ∀ p ∈ vertical w h, p.c = grayPixel := by
  intro p hp
  simp only [vertical, List.mem_flatMap, List.mem_map] at hp
  obtain ⟨_, _, _, _, _, _, rfl⟩ := hp
  rfl

theorem horizontal_gray {w h : Nat} : ∀ p ∈ horizontal w h, p.c = grayPixel := by
  intro p hp
  simp only [horizontal, List.mem_flatMap, List.mem_map] at hp
  obtain ⟨_, _, _, _, _, _, rfl⟩ := hp
  rfl

/-- The image of a puzzle that can be drawn. -/
theorem printNonogram_px (oc : Bool) (text : TextFn) (col row : List (List Nat)) (hp : Drawable col row) :
    ∃ img, printNonogram oc text col.length row.length col row = .ok (.ok img) ∧
      img.width = 50 * col.length + max 150 (10 * col.length) ∧
      img.height = 50 * row.length + max 150 (10 * row.length) ∧
      ∀ x < img.width, ∀ y < img.height,
        (OnLine col.length x ∨ OnLine row.length y → img.px x y = ⟨105, 105, 105⟩) ∧
        (¬ (OnLine col.length x ∨ OnLine row.length y) →
          img.px x y = (page text col.length row.length (texts col row)).px x y) := by
  have hd := drawAll_dims text ⟨side col.length, side row.length, fun _ _ => whitePixel⟩ (texts col row)
  change (page text col.length row.length (texts col row)).width = _ ∧
    (page text col.length row.length (texts col row)).height = _ at hd
  simp only at hd
  refine ⟨_, printNonogram_eq oc text col row hp, ?_, ?_, fun x hx y hy => ?_⟩
  · rw [Img.puts_width, Img.puts_width, hd.1]; rfl
  · rw [Img.puts_height, Img.puts_height, hd.2]; rfl
  · rw [Img.puts_width, Img.puts_width, hd.1] at hx
    rw [Img.puts_height, Img.puts_height, hd.2] at hy
    have h1 := Img.puts_px_one (img := page text col.length row.length (texts col row))
      (vertical_gray (w := col.length) (h := row.length)) x y
    have h2 := Img.puts_px_one (img := (page text col.length row.length (texts col row)).puts
      (vertical col.length row.length)) (horizontal_gray (w := col.length) (h := row.length)) x y
    rw [mem_vertical] at h1
    rw [mem_horizontal] at h2
    constructor
    · intro h
      by_cases h' : OnLine row.length y
      · exact h2.1 ⟨h', hx⟩
      · rw [h2.2 (fun q => h' q.1)]
        exact h1.1 ⟨h.resolve_right h', hy⟩
    · intro h
      rw [h2.2 (fun q => h (.inr q.1)), h1.2 (fun q => h (.inl q.1))]

theorem drawable_of {col row : List (List Nat)} (hp : Printable col.length row.length)
    (hr : ∀ r ∈ col, 30 * r.length < 2 ^ 31) : Drawable col row :=
  ⟨by have := hp.width; omega, by have := hp.height; omega, hp.size, fun r h => by have := hr r h; omega⟩

/-! ### Filled squares -/

theorem asI32_small {n : Nat} (h : n < 2 ^ 31) : asI32 n = n := if_pos h

theorem i32_ok (oc : Bool) {v : Int} (h : -2 ^ 31 ≤ v ∧ v < 2 ^ 31) : i32 oc v = .ok v := if_pos h

theorem far_ok (oc : Bool) {a s : Nat} (h0 : 0 < s) (h : a + s < 2 ^ 31) : Rect.far oc a s = .ok ((a + s - 1 : Nat) : Int) := by
  unfold Rect.far
  rw [asI32_small (by omega), i32_ok oc (by omega), Prog.ok_bind, i32_ok oc (by omega)]
  congr 1; omega

/-- The pixels of a rectangle. -/
def rectPuts (x y w h : Nat) (c : Rgb) : List Put :=
  (List.range h).flatMap fun dy => (List.range w).flatMap fun dx => [⟨x + dx, y + dy, c⟩]

/-- A rectangle inside the image. -/
theorem drawFilledRect_ok (oc : Bool) {i : Img} {x y w h : Nat} (c : Rgb) (hw : 0 < w) (hh : 0 < h)
    (hx : x + w ≤ i.width) (hy : y + h ≤ i.height) (hiw : i.width < 2 ^ 31) (hih : i.height < 2 ^ 31) :
    drawFilledRect oc i ⟨x, y, w, h⟩ c = .ok (i.puts (rectPuts x y w h c)) := by
  unfold drawFilledRect
  rw [Rect.ofSize, if_pos (by omega), Prog.ok_bind]
  have hint : Rect.intersect oc ⟨0, 0, i.width, i.height⟩ ⟨x, y, w, h⟩ = .ok (some ⟨x, y, w, h⟩) := by
    unfold Rect.intersect
    have f1 := far_ok oc (a := 0) (s := i.width) (by omega) (by omega)
    have f2 := far_ok oc (a := 0) (s := i.height) (by omega) (by omega)
    have f3 := far_ok oc (a := x) (s := w) (by omega) (by omega)
    have f4 := far_ok oc (a := y) (s := h) (by omega) (by omega)
    simp only [Int.natCast_zero] at f1 f2
    simp only [f1, f2, f3, f4, Prog.ok_bind]
    have e1 : max (0 : Int) (x : Int) = x := by omega
    have e2 : max (0 : Int) (y : Int) = y := by omega
    have e3 : min ((0 + i.width - 1 : Nat) : Int) ((x + w - 1 : Nat) : Int) = ((x + w - 1 : Nat) : Int) := by omega
    have e4 : min ((0 + i.height - 1 : Nat) : Int) ((y + h - 1 : Nat) : Int) = ((y + h - 1 : Nat) : Int) := by omega
    rw [e1, e2, e3, e4, if_neg (by omega), i32_ok oc (by omega), Prog.ok_bind, i32_ok oc (by omega), Prog.ok_bind]
    have e5 : ((((x + w - 1 : Nat) : Int) - x) % 2 ^ 32).toNat + 1 = w := by omega
    have e6 : ((((y + h - 1 : Nat) : Int) - y) % 2 ^ 32).toNat + 1 = h := by omega
    rw [e5, e6, Prog.pure_eq]
  rw [hint, Prog.ok_bind]
  dsimp only
  have ex : ((x : Int) % 2 ^ 32).toNat = x := by omega
  have ey : ((y : Int) % 2 ^ 32).toNat = y := by omega
  rw [ex, ey]
  apply forIn'_puts
  intro j h1 h2 dy hdy
  rw [List.mem_range] at hdy
  apply forIn'_puts
  intro k h3 h4 dx hdx
  rw [List.mem_range] at hdx
  rw [addW_ok (by omega), Prog.ok_bind, addW_ok (by omega), Prog.ok_bind, Img.putPixel, if_pos ⟨by omega, by omega⟩]
  rfl

/-- The writes of one square. -/
def squarePuts (w h : Nat) (e : Bool × Nat) : List Put :=
  if e.1 then rectPuts (50 * (e.2 % w) + margin w + 1) (50 * (e.2 / w) + margin h + 1) 49 49 blackPixel else []

theorem printSquare_ok (oc : Bool) {w h : Nat} (hw : side w < 2 ^ 31) (hh : side h < 2 ^ 31) (i : Img)
    (hiw : i.width = side w) (hih : i.height = side h) (e : Bool × Nat) (he : e.2 < w * h) (he' : e.2 < 2 ^ 32) :
    printSquare oc w h i e = .ok (i.puts (squarePuts w h e)) := by
  obtain ⟨b, n⟩ := e
  unfold printSquare squarePuts
  dsimp only at he he' ⊢
  cases b with
  | false => rfl
  | true =>
    have hw0 : 0 < w := Nat.pos_of_mul_pos_right (by omega : 0 < w * h)
    have hx : n % w < w := Nat.mod_lt _ hw0
    have hy : n / w < h := Nat.div_lt_of_lt_mul he
    have sw : side w = 50 * w + margin w := rfl
    have sh : side h = 50 * h + margin h := rfl
    simp only [Bool.true_eq_false, if_false, if_true]
    rw [if_neg (by omega), Nat.mod_eq_of_lt he', ruleSide_ok oc (by omega), ruleSide_ok oc (by omega),
      mulW_ok (by omega), Prog.ok_bind, Prog.ok_bind, addW_ok (by omega), Prog.ok_bind, addW_ok (by omega), Prog.ok_bind,
      mulW_ok (by omega), Prog.ok_bind, Prog.ok_bind, addW_ok (by omega), Prog.ok_bind, addW_ok (by omega), Prog.ok_bind,
      Rect.ofSize, if_pos (by decide), Prog.ok_bind, asI32_small (by omega), asI32_small (by omega),
      drawFilledRect_ok oc _ (by decide) (by decide) (by omega) (by omega) (by omega) (by omega),
      Nat.mul_comm (n % w), Nat.mul_comm (n / w)]

theorem mem_rectPuts {a b w h x y : Nat} {c : Rgb} :
    (∃ p ∈ rectPuts a b w h c, p.x = x ∧ p.y = y) ↔ (a ≤ x ∧ x < a + w) ∧ b ≤ y ∧ y < b + h := by
  simp only [rectPuts, List.mem_flatMap, List.mem_range, List.mem_singleton]
  constructor
  · rintro ⟨_, ⟨dy, h1, dx, h2, rfl⟩, rfl, rfl⟩
    dsimp only
    omega
  · intro hh
    exact ⟨_, ⟨y - b, by omega, x - a, by omega, rfl⟩, by dsimp only; omega, by dsimp only; omega⟩

end Nonogram
