import Verif.Props.NonogramPrint

/-! C108: `print_nonogram_solution` with any number of squares, and its errors for all dimensions. -/
namespace Nonogram.Props
open Nonogram Nonogram.Spec

/-- Pixel `(x, y)` belongs to a square marked `true`, when square `i` is drawn at the place of square `i mod 2^32`. -/
def Marked (width height : Nat) (grid : List Bool) (x y : Nat) : Prop :=
  ∃ i, grid[i]? = some true ∧ Inside width (i % 2 ^ 32 % width) x ∧ Inside height (i % 2 ^ 32 / width) y

theorem printSquare_mod (oc : Bool) (w h : Nat) (i : Img) (e : Bool × Nat) :
    printSquare oc w h i e = printSquare oc w h i (e.1, e.2 % 2 ^ 32) := by
  simp only [printSquare, Nat.mod_mod]

/-- C108. Like C51, without a bound on the number of squares: square `i` is drawn at the place of square `i mod 2^32`. -/
theorem C108_fills (oc : Bool) (width height : Nat) (image : Img) (grid : List Bool)
    (hw : side width < 2 ^ 31) (hh : side height < 2 ^ 31)
    (hg : grid.length = width * height) (hiw : image.width = side width) (hih : image.height = side height) :
    ∃ img, printNonogramSolution oc width height image grid = .ok (.ok img) ∧
      img.width = image.width ∧ img.height = image.height ∧
      ∀ x y, (Marked width height grid x y → img.px x y = ⟨0, 0, 0⟩) ∧
        (¬ Marked width height grid x y → img.px x y = image.px x y) := by
  let sq : Bool × Nat → List Put := fun e => squarePuts width height (e.1, e.2 % 2 ^ 32)
  have hrun : printNonogramSolution oc width height image grid =
      .ok (.ok (image.puts (grid.zipIdx.flatMap sq))) := by
    unfold printNonogramSolution
    rw [ruleSide_ok oc (by omega), Prog.ok_bind, ruleSide_ok oc (by omega), Prog.ok_bind, if_neg (by simp [hg]),
      imageSide_ok oc (by omega), Prog.ok_bind, if_neg (by simp [hiw]), imageSide_ok oc (by omega), Prog.ok_bind,
      if_neg (by simp [hih])]
    rw [forIn'_puts (f := sq)]
    · rfl
    · rintro i h1 h2 e he
      have hlt : e.2 < grid.length := List.snd_lt_of_mem_zipIdx he
      have hle : e.2 % 2 ^ 32 ≤ e.2 := Nat.mod_le _ _
      rw [printSquare_mod]
      exact printSquare_ok oc hw hh i (by omega) (by omega) _ (by dsimp only; omega) (Nat.mod_lt _ (by omega))
  have hone : ∀ p ∈ grid.zipIdx.flatMap sq, p.c = blackPixel := by
    intro p hp
    obtain ⟨e, _, hp⟩ := List.mem_flatMap.mp hp
    simp only [sq, squarePuts] at hp
    split at hp
    · simp only [rectPuts, List.mem_flatMap, List.mem_singleton] at hp
      obtain ⟨_, _, _, _, rfl⟩ := hp
      rfl
    · cases hp
  have hmem : ∀ x y, (∃ p ∈ grid.zipIdx.flatMap sq, p.x = x ∧ p.y = y) ↔ Marked width height grid x y := by
    intro x y
    constructor
    · rintro ⟨p, hp, hxy⟩
      obtain ⟨⟨b, n⟩, he, hp⟩ := List.mem_flatMap.mp hp
      have hb := List.mk_mem_zipIdx_iff_getElem?.mp he
      cases b with
      | false => cases hp
      | true =>
        obtain ⟨h1, h2⟩ := mem_rectPuts.mp ⟨p, hp, hxy⟩
        dsimp only at h1 h2
        refine ⟨n, hb, ?_, ?_⟩
        · unfold Inside; omega
        · unfold Inside; omega
    · rintro ⟨n, hb, h1, h2⟩
      unfold Inside at h1 h2
      obtain ⟨p, hp, hxy⟩ := (mem_rectPuts (a := 50 * (n % 2 ^ 32 % width) + margin width + 1)
        (b := 50 * (n % 2 ^ 32 / width) + margin height + 1)
        (w := 49) (h := 49) (x := x) (y := y) (c := blackPixel)).mpr ⟨by omega, by omega⟩
      refine ⟨p, List.mem_flatMap.mpr ⟨(true, n), List.mk_mem_zipIdx_iff_getElem?.mpr hb, ?_⟩, hxy⟩
      simp only [sq, squarePuts, if_true]
      exact hp
  refine ⟨_, hrun, Img.puts_width _ _, Img.puts_height _ _, fun x y => ?_⟩
  have := Img.puts_px_one (img := image) hone x y
  rw [hmem] at this
  exact this

/-- Also for 65537x65537 squares, where the numbers of the squares do not fit into 32 bits. -/
example : side 65537 < 2 ^ 31 ∧ (List.replicate (65537 * 65537) false).length = 65537 * 65537 ∧ 2 ^ 32 < 65537 * 65537 :=
  ⟨by decide, List.length_replicate, by decide⟩

theorem marked_middle {w h : Nat} (hs : w * h ≤ 2 ^ 32) {grid : List Bool} (hg : grid.length = w * h) {i : Nat}
    (hi : i < w * h) : Marked w h grid (50 * (i % w) + margin w + 25) (50 * (i / w) + margin h + 25) ↔
      grid[i]? = some true := by
  constructor
  · rintro ⟨j, hj, h1, h2⟩
    have hjl : j < w * h := by rw [← hg]; exact (List.getElem?_eq_some_iff.1 hj).1
    rw [Nat.mod_eq_of_lt (show j < 2 ^ 32 by omega)] at h1 h2
    unfold Inside at h1 h2
    have e1 : j % w = i % w := by omega
    have e2 : j / w = i / w := by omega
    have : j = i := by rw [← Nat.div_add_mod j w, ← Nat.div_add_mod i w, e1, e2]
    rwa [this] at hj
  · intro hi'
    refine ⟨i, hi', ?_, ?_⟩ <;> rw [Nat.mod_eq_of_lt (show i < 2 ^ 32 by omega)] <;> unfold Inside <;> omega

/-- C108. On a blank image different grids give different pictures exactly if there are at most `2^32` squares. -/
theorem C108_faithful (oc : Bool) (width height : Nat) (image : Img)
    (hw : side width < 2 ^ 31) (hh : side height < 2 ^ 31)
    (hiw : image.width = side width) (hih : image.height = side height) (hb : ∀ x y, image.px x y = ⟨255, 255, 255⟩) :
    (∀ g g' img img', printNonogramSolution oc width height image g = .ok (.ok img) →
      printNonogramSolution oc width height image g' = .ok (.ok img') →
      (∀ x < image.width, ∀ y < image.height, img.px x y = img'.px x y) → g = g') ↔ width * height ≤ 2 ^ 32 := by
  constructor
  · intro hall
    by_contra hn
    have hpos : 0 < width := by
      rcases Nat.eq_zero_or_pos width with h0 | h0
      · rw [h0] at hn; simp at hn
      · exact h0
    have h1 : 1 < width * height := by omega
    let g := (List.replicate (width * height) false).set 0 true
    let g' := g.set (2 ^ 32) true
    have hl : g.length = width * height := by simp [g]
    have hl' : g'.length = width * height := by simp only [g', List.length_set, hl]
    have g0 : g[0]? = some true := by
      simp only [g]
      rw [List.getElem?_set_self (by rw [List.length_replicate]; omega)]
    have gi : ∀ i, i ≠ 0 → g[i]? ≠ some true := by
      intro i hi
      simp only [g]
      rw [List.getElem?_set_ne (by omega), List.getElem?_replicate]
      split <;> simp
    have g2 : g'[2 ^ 32]? = some true := by
      simp only [g']
      rw [List.getElem?_set_self (by omega)]
    obtain ⟨i1, e1, _, _, p1⟩ := C108_fills oc width height image g hw hh hl hiw hih
    obtain ⟨i2, e2, _, _, p2⟩ := C108_fills oc width height image g' hw hh hl' hiw hih
    have hm : ∀ x y, Marked width height g x y ↔ Marked width height g' x y := by
      intro x y
      constructor
      · rintro ⟨i, hi, h⟩
        have : i = 0 := by by_contra h0; exact gi i h0 hi
        subst this
        refine ⟨0, ?_, h⟩
        simp only [g']
        rw [List.getElem?_set_ne (by omega)]
        exact g0
      · rintro ⟨i, hi, h⟩
        by_cases h0 : i = 2 ^ 32
        · rw [h0] at h
          exact ⟨0, g0, by simpa using h⟩
        · refine ⟨i, ?_, h⟩
          simp only [g'] at hi
          rwa [List.getElem?_set_ne (by omega)] at hi
    have := hall g g' i1 i2 e1 e2 (fun x _ y _ => by
      have a := p1 x y
      have b := p2 x y
      rw [hm] at a
      by_cases hc : Marked width height g' x y
      · rw [a.1 hc, b.1 hc]
      · rw [a.2 hc, b.2 hc])
    have := gi (2 ^ 32) (by omega)
    rw [‹g = g'›, g2] at this
    exact this rfl
  · intro hs g g' img img' h1 h2 heq
    have len : ∀ {g : List Bool} {img}, printNonogramSolution oc width height image g = .ok (.ok img) →
        g.length = width * height := by
      intro g img hp
      by_contra hne
      rw [C51_invalid_dimensions oc width height image g hw hh (.inl hne)] at hp
      simp at hp
    have l1 := len h1
    have l2 := len h2
    obtain ⟨i1, e1, _, _, p1⟩ := C108_fills oc width height image g hw hh l1 hiw hih
    obtain ⟨i2, e2, _, _, p2⟩ := C108_fills oc width height image g' hw hh l2 hiw hih
    rw [h1] at e1; rw [h2] at e2
    simp only [Prog.ok.injEq, Except.ok.injEq] at e1 e2
    subst e1 e2
    have key : ∀ x < image.width, ∀ y < image.height, (Marked width height g x y ↔ Marked width height g' x y) := by
      intro x hx y hy
      have q1 := p1 x y
      have q2 := p2 x y
      have := heq x hx y hy
      constructor
      · intro m1
        by_contra m2
        rw [q1.1 m1, q2.2 m2, hb] at this
        exact absurd this (by decide)
      · intro m2
        by_contra m1
        rw [q1.2 m1, q2.1 m2, hb] at this
        exact absurd this (by decide)
    apply List.ext_getElem (l1.trans l2.symm)
    intro i hi hi'
    have hlt : i < width * height := l1 ▸ hi
    have hw0 : 0 < width := Nat.pos_of_mul_pos_right (by omega : 0 < width * height)
    have hx : i % width < width := Nat.mod_lt _ hw0
    have hy : i / width < height := Nat.div_lt_of_lt_mul hlt
    have sw : side width = 50 * width + margin width := rfl
    have sh : side height = 50 * height + margin height := rfl
    have k := key (50 * (i % width) + margin width + 25) (by omega) (50 * (i / width) + margin height + 25) (by omega)
    rw [marked_middle hs l1 hlt, marked_middle hs l2 hlt, List.getElem?_eq_getElem hi, List.getElem?_eq_getElem hi'] at k
    simp only [Option.some.injEq] at k
    exact Bool.eq_iff_iff.2 k

/-- The hypotheses of C108_faithful are met on both sides: by 5 x 5 squares and by 65537 x 65537. -/
example : side 5 < 2 ^ 31 ∧ 5 * 5 ≤ 2 ^ 32 ∧ side 65537 < 2 ^ 31 ∧ ¬ 65537 * 65537 ≤ 2 ^ 32 := by decide

/-- C108, errors with overflow checks, for all dimensions: the products of the two margins come first, then the number
of squares, then each side of the image. -/
theorem C108_errors (width height : Nat) (image : Img) (grid : List Bool) :
    let fit := 10 * width < 2 ^ 32 ∧ 10 * height < 2 ^ 32
    (¬ fit → printNonogramSolution true width height image grid = .panic) ∧
    (fit → grid.length ≠ width * height → printNonogramSolution true width height image grid = .ok (.error .InvalidDimensions)) ∧
    (fit → grid.length = width * height → ¬ side width < 2 ^ 32 → printNonogramSolution true width height image grid = .panic) ∧
    (fit → grid.length = width * height → side width < 2 ^ 32 → image.width ≠ side width →
      printNonogramSolution true width height image grid = .ok (.error .InvalidDimensions)) ∧
    (fit → grid.length = width * height → side width < 2 ^ 32 → image.width = side width → ¬ side height < 2 ^ 32 →
      printNonogramSolution true width height image grid = .panic) ∧
    (fit → grid.length = width * height → side width < 2 ^ 32 → image.width = side width → side height < 2 ^ 32 →
      image.height ≠ side height → printNonogramSolution true width height image grid = .ok (.error .InvalidDimensions)) := by
  intro fit
  have rs : ∀ n, 10 * n < 2 ^ 32 → ruleSide true n = .ok (margin n) := by
    intro n hn
    unfold ruleSide
    rw [mulW_ok (by omega), Prog.ok_bind, Nat.mul_comm]; rfl
  have rp : ∀ n, ¬ 10 * n < 2 ^ 32 → ruleSide true n = .panic := by
    intro n hn
    unfold ruleSide
    rw [mulW, if_neg (by omega)]; rfl
  have ip : ∀ n, ¬ side n < 2 ^ 32 → imageSide true n (margin n) = .panic := by
    intro n hn
    unfold side at hn
    unfold imageSide
    by_cases h1 : n * 50 < 2 ^ 32
    · rw [mulW_ok h1, Prog.ok_bind, addW, if_neg (by omega)]; rfl
    · rw [mulW, if_neg h1]; rfl
  have io : ∀ n, side n < 2 ^ 32 → imageSide true n (margin n) = .ok (side n) := by
    intro n hn
    unfold side at hn ⊢
    unfold imageSide
    rw [mulW_ok (by omega), Prog.ok_bind, addW_ok (by omega), Nat.mul_comm]
  unfold printNonogramSolution
  refine ⟨fun hf => ?_, fun hf hg => ?_, fun hf hg h1 => ?_, fun hf hg h1 h2 => ?_, fun hf hg h1 h2 h3 => ?_,
    fun hf hg h1 h2 h3 h4 => ?_⟩
  · by_cases h1 : 10 * width < 2 ^ 32
    · rw [rs _ h1, Prog.ok_bind, rp _ (fun h => hf ⟨h1, h⟩)]; rfl
    · rw [rp _ h1]; rfl
  · rw [rs _ hf.1, Prog.ok_bind, rs _ hf.2, Prog.ok_bind, if_pos hg]; rfl
  · rw [rs _ hf.1, Prog.ok_bind, rs _ hf.2, Prog.ok_bind, if_neg (by simp [hg]), ip _ h1]; rfl
  · rw [rs _ hf.1, Prog.ok_bind, rs _ hf.2, Prog.ok_bind, if_neg (by simp [hg]), io _ h1, Prog.ok_bind, if_pos h2]; rfl
  · rw [rs _ hf.1, Prog.ok_bind, rs _ hf.2, Prog.ok_bind, if_neg (by simp [hg]), io _ h1, Prog.ok_bind, if_neg (by simp [h2]),
      ip _ h3]; rfl
  · rw [rs _ hf.1, Prog.ok_bind, rs _ hf.2, Prog.ok_bind, if_neg (by simp [hg]), io _ h1, Prog.ok_bind, if_neg (by simp [h2]),
      io _ h3, Prog.ok_bind, if_pos h4]; rfl

/-- The first case of C108_errors needs no grid: with a width of 429496730 even a wrong grid panics. -/
example (image : Img) : printNonogramSolution true 429496730 1 image [] = .panic :=
  (C108_errors 429496730 1 image []).1 (by decide)

end Nonogram.Props
