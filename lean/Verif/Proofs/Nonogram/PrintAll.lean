import Verif.Proofs.Nonogram.Print

/-! Helper lemmas: `print_nonogram` on every input, in both build modes. -/
namespace Nonogram
open Spec

theorem addW_wrap (a b : Nat) : addW false 32 a b = .ok ((a + b) % 2 ^ 32) := by
  unfold addW
  split
  · rename_i h; rw [Nat.mod_eq_of_lt h]
  · rfl

theorem mulW_wrap (a b : Nat) : mulW false 32 a b = .ok ((a * b) % 2 ^ 32) := by
  unfold mulW
  split
  · rename_i h; rw [Nat.mod_eq_of_lt h]
  · rfl

theorem subW_one_wrap {a : Nat} (ha : a < 2 ^ 32) : subW false 32 a 1 = .ok (pred32 a) := by
  unfold subW pred32
  split
  · rw [if_neg (by omega)]
  · rw [if_neg (by decide), if_pos (by omega)]
    exact congrArg Prog.ok (by omega)

theorem ruleSide_wrap (n : Nat) : ruleSide false n = .ok (margin32 n) := by
  unfold ruleSide
  rw [mulW_wrap, Prog.ok_bind, Prog.pure_eq, margin32, Nat.mul_comm]

theorem imageSide_wrap (n : Nat) : imageSide false n (margin32 n) = .ok (side32 n) := by
  unfold imageSide
  rw [mulW_wrap, Prog.ok_bind, addW_wrap, side32]
  exact congrArg Prog.ok (by omega)

theorem printColRule_wrap (text : TextFn) (n : Nat) (i : Img) (rule : List Nat) (x : Nat) :
    printColRule false text (margin32 n) i (rule, x) = .ok (drawAll text i (colTexts32 n x rule)) := by
  unfold printColRule
  rw [mulW_wrap, Prog.ok_bind, addW_wrap, Prog.ok_bind, addW_wrap, Prog.ok_bind]
  rw [forIn'_foldl (f := fun i e => text.draw i ⟨0, 0, 0⟩ ((50 * x + margin32 n + 15) % 2 ^ 32) ((30 * e.2 + 10) % 2 ^ 32) 30
    (toString e.1))]
  · rw [drawAll, colTexts32, List.foldl_map]
  · rintro s ⟨v, y⟩ _
    simp only [printColNumber]
    rw [mulW_wrap, Prog.ok_bind, addW_wrap, Prog.ok_bind, Prog.pure_eq]
    have e1 : (((x % 2 ^ 32 * 50) % 2 ^ 32 + margin32 n) % 2 ^ 32 + 15) % 2 ^ 32 = (50 * x + margin32 n + 15) % 2 ^ 32 := by
      omega
    have e2 : ((y % 2 ^ 32 * 30) % 2 ^ 32 + 10) % 2 ^ 32 = (30 * y + 10) % 2 ^ 32 := by omega
    rw [e1, e2]; rfl

theorem printRowRule_wrap (text : TextFn) (n : Nat) (i : Img) (rule : List Nat) (y : Nat) :
    printRowRule false text (margin32 n) i (rule, y) = .ok (drawAll text i [rowText32 n y rule]) := by
  unfold printRowRule
  rw [mulW_wrap, Prog.ok_bind, addW_wrap, Prog.ok_bind, addW_wrap, Prog.ok_bind, Prog.pure_eq]
  have e1 : (((y % 2 ^ 32 * 50) % 2 ^ 32 + margin32 n) % 2 ^ 32 + 10) % 2 ^ 32 = (50 * y + margin32 n + 10) % 2 ^ 32 := by
    omega
  rw [e1]
  simp only [drawAll, rowText32, List.foldl_cons, List.foldl_nil]
  rfl

/-- The offsets of the pixels of line `k`. -/
def lineOffsets32 (n k : Nat) : List Nat :=
  let c := 50 * k + margin32 n
  if k % 5 = 0 then [c % 2 ^ 32, (c + 1) % 2 ^ 32, pred32 (c % 2 ^ 32)] else [c % 2 ^ 32]

theorem mem_lineOffsets32 {n k x : Nat} : x ∈ lineOffsets32 n k ↔
    x = (50 * k + margin32 n) % 2 ^ 32 ∨
    k % 5 = 0 ∧ (x = (50 * k + margin32 n + 1) % 2 ^ 32 ∨ x = pred32 ((50 * k + margin32 n) % 2 ^ 32)) := by
  unfold lineOffsets32
  dsimp only
  split
  · rename_i h
    simp only [List.mem_cons, List.not_mem_nil, or_false, h, true_and]
  · rename_i h
    simp only [List.mem_cons, List.not_mem_nil, or_false, h, false_and]

theorem puts_three (i : Img) (p q r : Put) : (i.put p >>= fun i1 => i1.put q >>= fun i2 => i2.put r) =
    _root_.forIn' [p, q, r] i Img.put := by
  simp only [forIn'_cons, forIn'_nil]
  cases i.put p with
  | ok i1 =>
    simp only [Prog.ok_bind]
    cases i1.put q with
    | ok i2 =>
      simp only [Prog.ok_bind]
      cases i2.put r <;> rfl
    | panic => rfl
    | ub => rfl
    | diverge => rfl
  | panic => rfl
  | ub => rfl
  | diverge => rfl

theorem puts_one (i : Img) (p : Put) : (i.put p >>= fun i1 => .ok i1) = _root_.forIn' [p] i Img.put := by
  simp only [forIn'_cons, forIn'_nil]

theorem lineOffsets32_map (n k : Nat) (f : Nat → Put) : (lineOffsets32 n k).map f =
    if k % 5 = 0 then [f ((50 * k + margin32 n) % 2 ^ 32), f ((50 * k + margin32 n + 1) % 2 ^ 32),
      f (pred32 ((50 * k + margin32 n) % 2 ^ 32))] else [f ((50 * k + margin32 n) % 2 ^ 32)] := by
  unfold lineOffsets32
  split <;> simp only [List.map_cons, List.map_nil]

theorem printVertical_wrap (n k : Nat) (i : Img) (y : Nat) :
    printVertical false (margin32 n) k i y =
      _root_.forIn' ((lineOffsets32 n k).map fun x => (⟨x, y, grayPixel⟩ : Put)) i Img.put := by
  rw [lineOffsets32_map]
  unfold printVertical
  have e : ((k * 50) % 2 ^ 32 + margin32 n) % 2 ^ 32 = (50 * k + margin32 n) % 2 ^ 32 := by omega
  rw [mulW_wrap, Prog.ok_bind, addW_wrap, Prog.ok_bind, e, addW_wrap, subW_one_wrap (Nat.mod_lt _ (by omega))]
  rw [Nat.mod_add_mod]
  generalize pred32 ((50 * k + margin32 n) % 2 ^ 32) = c
  generalize (50 * k + margin32 n) % 2 ^ 32 = a
  generalize (50 * k + margin32 n + 1) % 2 ^ 32 = b
  by_cases h : k % 5 = 0
  · simp only [h, if_true, Prog.ok_bind]
    exact puts_three i ⟨a, y, grayPixel⟩ ⟨b, y, grayPixel⟩ ⟨c, y, grayPixel⟩
  · simp only [h, if_false, Prog.pure_eq]
    exact puts_one i ⟨a, y, grayPixel⟩

theorem printHorizontal_wrap (n k : Nat) (i : Img) (x : Nat) :
    printHorizontal false (margin32 n) k i x =
      _root_.forIn' ((lineOffsets32 n k).map fun y => (⟨x, y, grayPixel⟩ : Put)) i Img.put := by
  rw [lineOffsets32_map]
  unfold printHorizontal
  have e : ((k * 50) % 2 ^ 32 + margin32 n) % 2 ^ 32 = (50 * k + margin32 n) % 2 ^ 32 := by omega
  rw [mulW_wrap, Prog.ok_bind, addW_wrap, Prog.ok_bind, e, addW_wrap, subW_one_wrap (Nat.mod_lt _ (by omega))]
  rw [Nat.mod_add_mod]
  generalize pred32 ((50 * k + margin32 n) % 2 ^ 32) = c
  generalize (50 * k + margin32 n) % 2 ^ 32 = a
  generalize (50 * k + margin32 n + 1) % 2 ^ 32 = b
  by_cases h : k % 5 = 0
  · simp only [h, if_true, Prog.ok_bind]
    exact puts_three i ⟨x, a, grayPixel⟩ ⟨x, b, grayPixel⟩ ⟨x, c, grayPixel⟩
  · simp only [h, if_false, Prog.pure_eq]
    exact puts_one i ⟨x, a, grayPixel⟩

/-- The writes of the grid lines. -/
def lines32 (w h : Nat) : List Put :=
  ((List.range w).flatMap fun k => (List.range (side32 h)).flatMap fun y =>
    (lineOffsets32 w k).map fun x => ⟨x, y, grayPixel⟩) ++
  (List.range h).flatMap fun k => (List.range (side32 w)).flatMap fun x =>
    (lineOffsets32 h k).map fun y => ⟨x, y, grayPixel⟩

theorem lines32_gray {w h : Nat} : ∀ p ∈ lines32 w h, p.c = grayPixel := by
  intro p hp
  simp only [lines32, List.mem_append, List.mem_flatMap, List.mem_map] at hp
  rcases hp with ⟨_, _, _, _, _, _, rfl⟩ | ⟨_, _, _, _, _, _, rfl⟩ <;> rfl

theorem mem_lines32 {w h x y : Nat} : (∃ p ∈ lines32 w h, p.x = x ∧ p.y = y) ↔
    (OnLine32 w x ∧ y < side32 h) ∨ (OnLine32 h y ∧ x < side32 w) := by
  simp only [lines32, List.mem_append, List.mem_flatMap, List.mem_range, List.mem_map, OnLine32]
  constructor
  · rintro ⟨_, ⟨k, hk, y, hy, x, hx, rfl⟩ | ⟨k, hk, y, hy, x, hx, rfl⟩, rfl, rfl⟩
    · exact .inl ⟨⟨k, hk, mem_lineOffsets32.mp hx⟩, hy⟩
    · exact .inr ⟨⟨k, hk, mem_lineOffsets32.mp hx⟩, hy⟩
  · rintro (⟨⟨k, hk, hx⟩, hy⟩ | ⟨⟨k, hk, hx⟩, hy⟩)
    · exact ⟨_, .inl ⟨k, hk, y, hy, x, mem_lineOffsets32.mpr hx, rfl⟩, rfl, rfl⟩
    · exact ⟨_, .inr ⟨k, hk, x, hy, y, mem_lineOffsets32.mpr hx, rfl⟩, rfl, rfl⟩

theorem printNonogram_wrap (text : TextFn) (col row : List (List Nat)) :
    printNonogram false text col.length row.length col row =
      if 3 * side32 col.length * side32 row.length < 2 ^ 63 then
        _root_.forIn' (lines32 col.length row.length) (page32 text col.length row.length (texts32 col row)) Img.put >>=
          fun img => .ok (.ok img)
      else .panic := by
  unfold printNonogram
  simp only [ne_eq, not_true_eq_false, or_self, if_false]
  simp only [ruleSide_wrap, imageSide_wrap, Prog.ok_bind, Img.fromPixel]
  split
  swap
  · rfl
  simp only [Prog.ok_bind]
  rw [forIn'_foldl (f := fun i e => drawAll text i (colTexts32 col.length e.2 e.1)) (fun s e _ =>
    printColRule_wrap text _ s e.1 e.2), Prog.ok_bind]
  rw [forIn'_foldl (f := fun i e => drawAll text i [rowText32 row.length e.2 e.1]) (fun s e _ =>
    printRowRule_wrap text _ s e.1 e.2), Prog.ok_bind]
  rw [foldl_drawAll text (fun e : List Nat × Nat => colTexts32 col.length e.2 e.1),
    foldl_drawAll text (fun e : List Nat × Nat => [rowText32 row.length e.2 e.1])]
  have hpage : drawAll text (drawAll text ⟨side32 col.length, side32 row.length, fun _ _ => whitePixel⟩
      (List.flatMap (fun e => colTexts32 col.length e.2 e.1) col.zipIdx))
      (List.flatMap (fun e => [rowText32 row.length e.2 e.1]) row.zipIdx) =
      page32 text col.length row.length (texts32 col row) := by
    unfold page32 texts32
    simp only [drawAll, ← List.foldl_append]
    rw [← List.map_eq_flatMap]; rfl
  rw [hpage]
  have e1 : ∀ (i : Img) (k : Nat), _root_.forIn' (List.range (side32 row.length)) i (printVertical false (margin32 col.length) k) =
      _root_.forIn' ((List.range (side32 row.length)).flatMap fun y =>
        (lineOffsets32 col.length k).map fun x => (⟨x, y, grayPixel⟩ : Put)) i Img.put := by
    intro i k
    rw [← forIn'_flatMap]
    exact forIn'_congr_mem (fun s y _ => printVertical_wrap _ _ s y) i
  have e2 : ∀ (i : Img) (k : Nat), _root_.forIn' (List.range (side32 col.length)) i (printHorizontal false (margin32 row.length) k) =
      _root_.forIn' ((List.range (side32 col.length)).flatMap fun x =>
        (lineOffsets32 row.length k).map fun y => (⟨x, y, grayPixel⟩ : Put)) i Img.put := by
    intro i k
    rw [← forIn'_flatMap]
    exact forIn'_congr_mem (fun s y _ => printHorizontal_wrap _ _ s y) i
  simp only [e1, e2, forIn'_flatMap]
  rw [lines32, forIn'_append, bind_assoc]
  rfl

/-- The outcome of a release build. -/
theorem printNonogram_release (text : TextFn) (col row : List (List Nat)) :
    let W := side32 col.length
    let H := side32 row.length
    let fits := 3 * W * H < 2 ^ 63 ∧ (0 < H → ∀ x, OnLine32 col.length x → x < W) ∧
      (0 < W → ∀ y, OnLine32 row.length y → y < H)
    (fits → ∃ img, printNonogram false text col.length row.length col row = .ok (.ok img) ∧ img.width = W ∧ img.height = H ∧
      ∀ x < W, ∀ y < H,
        (OnLine32 col.length x ∨ OnLine32 row.length y → img.px x y = ⟨105, 105, 105⟩) ∧
        (¬ (OnLine32 col.length x ∨ OnLine32 row.length y) →
          img.px x y = (page32 text col.length row.length (texts32 col row)).px x y)) ∧
    (¬ fits → printNonogram false text col.length row.length col row = .panic) := by
  intro W H fits
  have e := printNonogram_wrap text col row
  have hd := drawAll_dims text ⟨W, H, fun _ _ => whitePixel⟩ (texts32 col row)
  change (page32 text col.length row.length (texts32 col row)).width = _ ∧
    (page32 text col.length row.length (texts32 col row)).height = _ at hd
  simp only at hd
  have inside : (∀ p ∈ lines32 col.length row.length, p.x < W ∧ p.y < H) ↔
      (0 < H → ∀ x, OnLine32 col.length x → x < W) ∧ (0 < W → ∀ y, OnLine32 row.length y → y < H) := by
    constructor
    · intro hp
      constructor
      · intro h0 x hx
        obtain ⟨p, h1, rfl, h2⟩ := mem_lines32.2 (.inl ⟨hx, h0⟩)
        exact (hp p h1).1
      · intro h0 y hy
        obtain ⟨p, h1, h2, rfl⟩ := mem_lines32.2 (.inr ⟨hy, h0⟩)
        exact (hp p h1).2
    · rintro ⟨h1, h2⟩ p hp
      rcases mem_lines32.1 ⟨p, hp, rfl, rfl⟩ with ⟨h3, h4⟩ | ⟨h3, h4⟩
      · exact ⟨h1 (Nat.zero_lt_of_lt h4) _ h3, h4⟩
      · exact ⟨h4, h2 (Nat.zero_lt_of_lt h4) _ h3⟩
  constructor
  · rintro ⟨f1, f2⟩
    rw [if_pos f1, forIn'_put (by rw [hd.1, hd.2]; exact inside.2 f2)] at e
    refine ⟨_, e, by rw [Img.puts_width, hd.1], by rw [Img.puts_height, hd.2], fun x hx y hy => ?_⟩
    have hp := Img.puts_px_one (img := page32 text col.length row.length (texts32 col row))
      (lines32_gray (w := col.length) (h := row.length)) x y
    rw [mem_lines32] at hp
    constructor
    · intro h
      exact hp.1 (h.imp (fun h => ⟨h, hy⟩) (fun h => ⟨h, hx⟩))
    · intro h
      exact hp.2 (fun h' => h (h'.imp And.left And.left))
  · intro hf
    rw [e]
    split
    · rename_i f1
      rw [forIn'_put_panic]
      · rfl
      · rw [hd.1, hd.2]
        have : ¬ ∀ p ∈ lines32 col.length row.length, p.x < W ∧ p.y < H := fun hq => hf ⟨f1, inside.1 hq⟩
        simpa only [not_forall, exists_prop] using this
    · rfl

/-- A loop whose turns return or panic, one of them always panicking, panics. -/
theorem forIn'_panics {σ α : Type} {xs : List α} {body : σ → α → Prog σ}
    (h1 : ∀ s, ∀ x ∈ xs, (∃ s', body s x = .ok s') ∨ body s x = .panic) (h2 : ∃ x ∈ xs, ∀ s, body s x = .panic) (s : σ) :
    _root_.forIn' xs s body = .panic := by
  induction xs generalizing s with
  | nil => simp at h2
  | cons x xs ih =>
    rw [forIn'_cons]
    rcases h1 s x (by simp) with ⟨s', e⟩ | e
    · rw [e, Prog.ok_bind]
      refine ih (fun s y hy => h1 s y (by simp [hy])) ?_ s'
      obtain ⟨y, hy, h3⟩ := h2
      rcases List.mem_cons.1 hy with rfl | hy
      · rw [h3 s] at e; cases e
      · exact ⟨y, hy, h3⟩
    · rw [e]; rfl

/-- With overflow checks what cannot be drawn panics. -/
theorem printNonogram_debug_panic (text : TextFn) (col row : List (List Nat)) (hn : ¬ Drawable col row) :
    printNonogram true text col.length row.length col row = .panic := by
  have hr : ∀ n, ruleSide true n = if 10 * n < 2 ^ 32 then .ok (margin n) else .panic := by
    intro n
    unfold ruleSide mulW
    rw [Nat.mul_comm n]
    split <;> rfl
  have hi : ∀ n, 10 * n < 2 ^ 32 → imageSide true n (margin n) = if side n < 2 ^ 32 then .ok (side n) else .panic := by
    intro n h
    have e : n * 50 + margin n = side n := by unfold side; omega
    unfold imageSide mulW
    split
    · rw [Prog.ok_bind, addW, e]
      split <;> rfl
    · rw [if_pos rfl, if_neg (show ¬ side n < 2 ^ 32 by omega)]; rfl
  unfold printNonogram
  simp only [ne_eq, not_true_eq_false, or_self, if_false, hr]
  by_cases a1 : 10 * col.length < 2 ^ 32
  swap
  · rw [if_neg a1]; rfl
  rw [if_pos a1, Prog.ok_bind]
  by_cases a2 : 10 * row.length < 2 ^ 32
  swap
  · rw [if_neg a2]; rfl
  rw [if_pos a2, Prog.ok_bind, hi _ a1, hi _ a2]
  by_cases a3 : side col.length < 2 ^ 32
  swap
  · rw [if_neg a3]; rfl
  rw [if_pos a3, Prog.ok_bind]
  by_cases a4 : side row.length < 2 ^ 32
  swap
  · rw [if_neg a4]; rfl
  rw [if_pos a4, Prog.ok_bind, Img.fromPixel]
  by_cases a5 : 3 * side col.length * side row.length < 2 ^ 63
  swap
  · rw [if_neg a5]; rfl
  rw [if_pos a5, Prog.ok_bind]
  have a6 : ∃ r ∈ col, ¬ 30 * r.length < 2 ^ 32 + 20 := by
    by_contra hc
    exact hn ⟨a3, a4, a5, fun r hr => by
      by_contra hx
      exact hc ⟨r, hr, hx⟩⟩
  have num : ∀ (x : Nat) (i : Img) (e : Nat × Nat), (∃ i', printColNumber true text x i e = .ok i') ∨
      printColNumber true text x i e = .panic := by
    intro x i e
    unfold printColNumber mulW
    split
    · rw [Prog.ok_bind, addW]
      split
      · exact .inl ⟨_, rfl⟩
      · exact .inr rfl
    · exact .inr rfl
  have rule : ∀ (i : Img) (rule : List Nat) (x : Nat), x < col.length →
      printColRule true text (margin col.length) i (rule, x) =
        if 30 * rule.length < 2 ^ 32 + 20 then .ok (drawAll text i (colTexts col.length x rule)) else .panic := by
    intro i rule x hx
    split
    · rename_i h
      exact printColRule_ok true text a3 i rule x hx h
    · rename_i h
      unfold printColRule
      have h1 : 50 * x + margin col.length + 15 < 2 ^ 32 := by unfold side at a3; omega
      rw [Nat.mod_eq_of_lt (show x < 2 ^ 32 by omega), mulW_ok (by omega), Prog.ok_bind, addW_ok (by omega), Prog.ok_bind,
        addW_ok (by omega), Prog.ok_bind]
      refine forIn'_panics (fun s e _ => num _ s e) ?_ i
      obtain ⟨k, hk⟩ : ∃ k, k = 143165577 := ⟨_, rfl⟩
      have hl : k < rule.length := by omega
      refine ⟨(rule[k], k), List.mk_mem_zipIdx_iff_getElem?.2 (List.getElem?_eq_getElem hl), ?_⟩
      intro s
      unfold printColNumber mulW
      rw [if_neg (by simp only; omega), if_pos rfl]
      rfl
  rw [forIn'_panics]
  · rfl
  · rintro s ⟨r, x⟩ hm
    rw [rule s r x (List.snd_lt_of_mem_zipIdx hm)]
    split
    · exact .inl ⟨_, rfl⟩
    · exact .inr rfl
  · obtain ⟨r, hr, hx⟩ := a6
    obtain ⟨x, hxl, rfl⟩ := List.getElem_of_mem hr
    refine ⟨(col[x], x), List.mk_mem_zipIdx_iff_getElem?.2 (List.getElem?_eq_getElem _), ?_⟩
    intro s
    rw [rule s _ x hxl, if_neg hx]

end Nonogram
