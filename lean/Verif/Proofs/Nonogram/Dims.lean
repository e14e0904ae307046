import Verif.Proofs.Nonogram.Margin
import Verif.Proofs.Nonogram.Closed
import Verif.Props.NonogramMargin

/-! Stable grids of puzzles with given dimensions. -/
namespace Nonogram
open Spec

/-- The puzzle has a stable grid with, or without, unknown squares. -/
def HasStable (b : Bool) (col row : List (List Nat)) : Prop := ∃ F, Stable col row F ∧ decide (Square.Blank ∈ F) = b

theorem blank_top {w : Nat} {G : List Square} : Square.Blank ∈ List.replicate w .Blocked ++ G ↔ Square.Blank ∈ G := by
  rw [List.mem_append]
  exact ⟨fun h => h.resolve_left fun h => (by cases List.eq_of_mem_replicate h), .inr⟩

theorem hasStable_top {b : Bool} {col row : List (List Nat)} (hc : ∀ r ∈ col, r.head? ≠ some 0) :
    HasStable b col ([] :: row) ↔ HasStable b col row := by
  constructor
  · rintro ⟨F, hF, hb⟩
    obtain ⟨G, hl, rfl⟩ := stable_top_form hF
    exact ⟨G, (stable_top hc hl).mp hF, by rw [← hb]; exact decide_eq_decide.mpr blank_top.symm⟩
  · rintro ⟨G, hG, hb⟩
    exact ⟨_, (stable_top hc hG.1).mpr hG, by rw [← hb]; exact decide_eq_decide.mpr blank_top⟩

theorem blank_transpose {w h : Nat} {G : List Square} (hG : G.length = w * h) :
    Square.Blank ∈ transpose w h G ↔ Square.Blank ∈ G := by
  have key : ∀ {w h : Nat} {G : List Square}, G.length = w * h → Square.Blank ∈ G → Square.Blank ∈ transpose w h G := by
    intro w h G hG hm
    obtain ⟨p, hp⟩ := List.getElem?_of_mem hm
    obtain ⟨x, hx, y, hy, rfl⟩ := split_index (w := w) (h := h) (p := p) (by
      rw [← hG]; exact (List.getElem?_eq_some_iff.mp hp).1)
    have := transpose_get G hx hy
    rw [List.getD_eq_getElem?_getD, hp] at this
    exact List.mem_of_getElem? this
  refine ⟨fun h' => ?_, key hG⟩
  have := key (w := h) (h := w) (by rw [transpose_length, Nat.mul_comm]) h'
  rwa [transpose_transpose hG] at this

theorem hasStable_swap {b : Bool} {col row : List (List Nat)} (h : HasStable b col row) : HasStable b row col := by
  obtain ⟨F, hF, hb⟩ := h
  exact ⟨_, stable_transpose hF, by rw [← hb]; exact decide_eq_decide.mpr (blank_transpose hF.1)⟩

theorem hasStable_swap_iff {b : Bool} {col row : List (List Nat)} : HasStable b col row ↔ HasStable b row col :=
  ⟨hasStable_swap, hasStable_swap⟩

theorem hasStable_tops {b : Bool} {col row : List (List Nat)} (n : Nat) (hc : ∀ r ∈ col, r.head? ≠ some 0) :
    HasStable b col (List.replicate n [] ++ row) ↔ HasStable b col row := by
  induction n with
  | zero => rfl
  | succ n ih => rw [List.replicate_succ, List.cons_append, hasStable_top hc, ih]

/-- Blank lines above and to the left do not matter. -/
theorem hasStable_margins {b : Bool} {col row : List (List Nat)} (n m : Nat) (hc : ∀ r ∈ col, r.head? ≠ some 0)
    (hr : ∀ r ∈ row, r.head? ≠ some 0) :
    HasStable b (List.replicate n [] ++ col) (List.replicate m [] ++ row) ↔ HasStable b col row := by
  have hr' : ∀ r ∈ List.replicate m [] ++ row, r.head? ≠ some 0 := by
    intro r h
    rcases List.mem_append.mp h with h | h
    · rw [List.eq_of_mem_replicate h]; simp
    · exact hr r h
  rw [hasStable_swap_iff, hasStable_tops n hr', hasStable_swap_iff, hasStable_tops m hc]

theorem solvable_iff {col row : List (List Nat)} (hf : Fits col row) : (∃ b, Solves col row b) ↔ HasStable false col row := by
  constructor
  · rintro ⟨b, hb⟩
    refine ⟨_, stable_of_solves hb, decide_eq_false fun h => ?_⟩
    obtain ⟨c, _, hc⟩ := List.mem_map.mp h
    split at hc <;> cases hc
  · rintro ⟨F, hF, hb⟩
    exact ⟨filled F, (solves_iff_known hf hF.1 ((stable_iff hf hF.1).mp hF)).mpr (of_decide_eq_false hb)⟩

/-- A stable grid with unknown squares makes the answer wrong. -/
theorem stuck_answer (oc : Bool) {col row : List (List Nat)} (hf : Fits col row) (h : HasStable true col row) :
    ∃ g, solveNonogram oc col row = .ok (.ok g) ∧ ¬ Solves col row g := by
  obtain ⟨F, hF, hb⟩ := h
  have hb := of_decide_eq_true hb
  rcases propagate_least oc hf with ⟨hno, _⟩ | ⟨G, hst, hle, _, hs⟩
  · exact absurd hF (hno F)
  · refine ⟨_, hs, fun hg => ?_⟩
    have hB := (solves_iff_known hf hst.1 ((stable_iff hf hst.1).mp hst)).mp hg
    obtain ⟨hl, he⟩ := hle F hF
    obtain ⟨p, hp⟩ := List.getElem?_of_mem hb
    have hlt : p < G.length := by rw [← hl]; exact (List.getElem?_eq_some_iff.mp hp).1
    have := he p _ (List.getElem?_eq_getElem hlt) (fun hb => hB (hb ▸ List.getElem_mem hlt))
    rw [hp] at this
    exact hB (Option.some.inj this ▸ List.getElem_mem hlt)

/-- If no stable grid has unknown squares, the answer is right. -/
theorem full_answer (oc : Bool) {col row : List (List Nat)} (hf : Fits col row) (h : ¬ HasStable true col row) :
    (∀ b, Solves col row b → solveNonogram oc col row = .ok (.ok b)) ∧
    ((∀ b, ¬ Solves col row b) → solveNonogram oc col row = .ok (.error .NoSolution)) := by
  rcases propagate_least oc hf with ⟨hno, _, hs⟩ | ⟨G, hst, hle, _, hs⟩
  · exact ⟨fun b hb => absurd (stable_of_solves hb) (hno _), fun _ => hs⟩
  · have hB : Square.Blank ∉ G := fun hb => h ⟨G, hst, decide_eq_true hb⟩
    have hk := (solves_iff_known hf hst.1 ((stable_iff hf hst.1).mp hst)).mpr hB
    refine ⟨fun b hb => ?_, fun hn => absurd hk (hn _)⟩
    rw [hs, ← agrees_full (Props.agrees_of_solves hle hb) hB]

/-! ### Lines of one and two squares -/

theorem follows_one {rule : List Nat} (hr : Framed rule) {b : Bool} (h : Follows rule [b]) : b = decide (rule ≠ []) := by
  match rule, h with
  | [], ⟨g, h⟩ =>
    match g, h with
    | 1, h => simpa using h
  | [a], ⟨g, k, h⟩ =>
    have ha : a ≠ 0 := fun h0 => hr.1 (by rw [h0]; rfl)
    have hl := congrArg List.length h
    simp only [List.length_append, List.length_replicate, List.length_singleton] at hl
    obtain rfl : g = 0 := by omega
    obtain rfl : a = 1 := by omega
    simpa using (List.cons.inj h).1
  | a :: c :: r, ⟨g, ys, h, _⟩ =>
    have ha : a ≠ 0 := fun h0 => hr.1 (by rw [h0]; rfl)
    have hl := congrArg List.length h
    simp only [List.length_append, List.length_replicate, List.length_cons, List.length_nil] at hl
    omega

theorem stableLine_one {rule : List Nat} (hr : Framed rule) {q : Square} (h : StableLine [q] rule) : q ≠ .Blank := by
  rintro rfl
  refine h.2 0 rfl fun xs ys hx hy => ?_
  match xs, ys, hx.1.1, hy.1.1 with
  | [a], [b], _, _ =>
    rw [follows_one hr hx.2, follows_one hr hy.2]
    exact ⟨rfl, rfl⟩

/-- The rules of two squares. -/
theorem follows_two {rule : List Nat} (hr : Framed rule) {a b : Bool} (h : Follows rule [a, b]) :
    (rule = [] ∧ a = false ∧ b = false) ∨ (rule = [1] ∧ b = !a) ∨ (rule = [2] ∧ a = true ∧ b = true) := by
  match rule, h with
  | [], ⟨g, h⟩ =>
    match g, h with
    | 2, h => simpa using h
  | [n], ⟨g, k, h⟩ =>
    have ha : n ≠ 0 := fun h0 => hr.1 (by rw [h0]; rfl)
    have hl := congrArg List.length h
    simp only [List.length_append, List.length_replicate, List.length_cons, List.length_nil] at hl
    obtain ⟨rfl, rfl, rfl⟩ | ⟨rfl, rfl, rfl⟩ | ⟨rfl, rfl, rfl⟩ : (g = 0 ∧ n = 1 ∧ k = 1) ∨ (g = 1 ∧ n = 1 ∧ k = 0) ∨
      (g = 0 ∧ n = 2 ∧ k = 0) := by omega
    all_goals simp at h; simp [h]
  | n :: c :: r, ⟨g, ys, h, hy⟩ =>
    have ha : n ≠ 0 := fun h0 => hr.1 (by rw [h0]; rfl)
    have hl := congrArg List.length h
    simp only [List.length_append, List.length_replicate, List.length_cons, List.length_nil] at hl
    have hy0 : ys = [] := List.length_eq_zero_iff.mp (by omega)
    subst hy0
    have hrun := follows_length hy
    exfalso
    match c, r, hr, hrun with
    | 0, [], hr, _ => exact hr.2 rfl
    | c + 1, [], _, hrun => simp [minLength] at hrun
    | c, d :: r, _, hrun => rw [minLength_cons₂] at hrun; simp at hrun

theorem stableLine_two {rule : List Nat} (hr : Framed rule) {p q : Square} (h : StableLine [p, q] rule) :
    (p ≠ .Blank ∧ q ≠ .Blank) ∨ (p = .Blank ∧ q = .Blank ∧ rule = [1]) := by
  by_cases hu : ∀ xs ys, Completes [p, q] rule xs → Completes [p, q] rule ys → xs = ys
  · have hs : ∀ i, Settled [p, q] rule i := fun i xs ys hx hy => by rw [hu xs ys hx hy]; exact ⟨rfl, rfl⟩
    exact .inl ⟨fun hp => h.2 0 (by rw [hp]; rfl) (hs 0), fun hq => h.2 1 (by rw [hq]; rfl) (hs 1)⟩
  · right
    simp only [not_forall] at hu
    obtain ⟨xs, ys, hx, hy, hne⟩ := hu
    match xs, ys, hx.1.1, hy.1.1 with
    | [a, b], [c, d], _, _ =>
      have hpx := agrees_cons.mp hx.1
      have hpy := agrees_cons.mp hy.1
      have hqx := (agrees_cons.mp hpx.2).1
      have hqy := (agrees_cons.mp hpy.2).1
      have hpx := hpx.1
      have hpy := hpy.1
      unfold Compat at hpx hpy hqx hqy
      rcases follows_two hr hx.2 with ⟨rfl, rfl, rfl⟩ | ⟨rfl, rfl⟩ | ⟨rfl, rfl, rfl⟩ <;>
        rcases follows_two hr hy.2 with ⟨h1, rfl, rfl⟩ | ⟨h1, rfl⟩ | ⟨h1, rfl, rfl⟩ <;>
        first
        | (exact absurd h1 (by decide))
        | (exact absurd rfl hne)
        | skip
      cases p <;> cases q <;> cases a <;> cases c <;> simp_all

end Nonogram
