import Verif.Proofs.Nonogram.Overlap
import Verif.Proofs.Nonogram.Mirror
import Verif.Proofs.Nonogram.Forced

/-! Blank lines at the border of a puzzle. -/
namespace Nonogram
open Spec

theorem follows_cons_false_iff {rule : List Nat} {xs : List Bool} (hr : rule.head? ≠ some 0) :
    Follows rule (false :: xs) ↔ Follows rule xs := by
  refine ⟨fun h => ?_, follows_cons_false⟩
  match rule, h with
  | [], ⟨g, h⟩ =>
    cases g with
    | zero => cases h
    | succ g => exact ⟨g, (List.cons.inj h).2⟩
  | [a], ⟨g, k, h⟩ =>
    cases g with
    | zero =>
      cases a with
      | zero => exact absurd rfl hr
      | succ a => cases h
    | succ g => exact ⟨g, k, (List.cons.inj h).2⟩
  | a :: b :: r, ⟨g, ys, h, hy⟩ =>
    cases g with
    | zero =>
      cases a with
      | zero => exact absurd rfl hr
      | succ a => cases h
    | succ g => exact ⟨g, ys, (List.cons.inj h).2, hy⟩

theorem completes_blocked {line : List Square} {rule : List Nat} {xs : List Bool} (hr : rule.head? ≠ some 0) :
    Completes (.Blocked :: line) rule xs ↔ ∃ ys, xs = false :: ys ∧ Completes line rule ys := by
  constructor
  · rintro ⟨ha, hf⟩
    match xs with
    | [] => cases ha.1
    | b :: ys =>
      obtain ⟨hb, ha'⟩ := agrees_cons.mp ha
      obtain rfl := hb.2 rfl
      exact ⟨ys, rfl, ha', (follows_cons_false_iff hr).mp hf⟩
  · rintro ⟨ys, rfl, ha, hf⟩
    exact ⟨agrees_cons.mpr ⟨⟨fun h => (by cases h), fun _ => rfl⟩, ha⟩, (follows_cons_false_iff hr).mpr hf⟩

theorem settled_blocked {line : List Square} {rule : List Nat} {i : Nat} (hr : rule.head? ≠ some 0) (hi : i < line.length) :
    Settled (.Blocked :: line) rule (i + 1) ↔ Settled line rule i := by
  rw [settled_iff hi, settled_iff (by simpa using hi)]
  have hb : ∀ ys : List Bool, blk (false :: ys) (i + 1) = blk ys i := fun ys => by
    have := blk_pad (g := 1) (k := i) (ys := ys)
    rwa [Nat.add_comm 1 i] at this
  constructor
  · intro h xs ys hx hy
    have := h (false :: xs) (false :: ys) ((completes_blocked hr).mpr ⟨_, rfl, hx⟩) ((completes_blocked hr).mpr ⟨_, rfl, hy⟩)
    rwa [hb, hb] at this
  · intro h xs ys hx hy
    obtain ⟨xs, rfl, hx'⟩ := (completes_blocked hr).mp hx
    obtain ⟨ys, rfl, hy'⟩ := (completes_blocked hr).mp hy
    rw [hb, hb]
    exact h xs ys hx' hy'

theorem stableLine_blocked {line : List Square} {rule : List Nat} (hr : rule.head? ≠ some 0) :
    StableLine (.Blocked :: line) rule ↔ StableLine line rule := by
  constructor
  · rintro ⟨⟨xs, hx⟩, hn⟩
    obtain ⟨ys, _, hy⟩ := (completes_blocked hr).mp hx
    exact ⟨⟨ys, hy⟩, fun i hi hs =>
      hn (i + 1) hi ((settled_blocked hr (List.getElem?_eq_some_iff.mp hi).1).mpr hs)⟩
  · rintro ⟨⟨ys, hy⟩, hn⟩
    refine ⟨⟨_, (completes_blocked hr).mpr ⟨ys, rfl, hy⟩⟩, fun i hi hs => ?_⟩
    cases i with
    | zero => cases hi
    | succ i =>
      have hi : line[i]? = some .Blank := hi
      exact hn i hi ((settled_blocked hr (List.getElem?_eq_some_iff.mp hi).1).mp hs)

theorem completes_nil {line : List Square} {xs : List Bool} (h : Completes line [] xs) :
    xs = List.replicate line.length false := by
  obtain ⟨⟨hl, _⟩, g, rfl⟩ := h
  rw [List.length_replicate] at hl
  rw [hl]

theorem stableLine_nil {line : List Square} : StableLine line [] ↔ line = List.replicate line.length .Blocked := by
  constructor
  · rintro ⟨⟨xs, hx⟩, hn⟩
    refine List.eq_replicate_iff.mpr ⟨rfl, fun q hq => ?_⟩
    obtain ⟨i, hi⟩ := List.getElem?_of_mem hq
    have hlt := (List.getElem?_eq_some_iff.mp hi).1
    cases q with
    | Blocked => rfl
    | Blank =>
      refine absurd (fun xs ys hx hy => ?_) (hn i hi)
      rw [completes_nil hx, completes_nil hy]
      exact ⟨rfl, rfl⟩
    | Filled =>
      have := (hx.1.2 i _ false hi (by rw [completes_nil hx]; simp [hlt])).1 rfl
      cases this
  · intro h
    refine ⟨⟨List.replicate line.length false, ⟨by simp, ?_⟩, _, rfl⟩, fun i hi => ?_⟩
    · intro i q b hq hb
      rw [h] at hq
      have h1 := List.eq_of_mem_replicate (List.mem_of_getElem? hq)
      have h2 := List.eq_of_mem_replicate (List.mem_of_getElem? hb)
      subst h1 h2
      exact ⟨fun h => (by cases h), fun _ => rfl⟩
    · rw [h] at hi
      cases List.eq_of_mem_replicate (List.mem_of_getElem? hi)

variable {w h : Nat}

theorem columnSq_top {G : List Square} {x : Nat} (hx : x < w) :
    columnSq w (h + 1) (List.replicate w .Blocked ++ G) x = .Blocked :: columnSq w h G x := by
  unfold columnSq
  rw [List.range_succ_eq_map, List.map_cons, List.map_map]
  congr 1
  · simp [List.getD_eq_getElem?_getD, List.getElem?_append_left, hx]
  · apply List.map_congr_left
    intro y _
    simp only [Function.comp, List.getD_eq_getElem?_getD]
    rw [List.getElem?_append_right (by rw [List.length_replicate, Nat.mul_succ]; omega), List.length_replicate, Nat.mul_succ,
      show w * y + w + x - w = w * y + x by omega]

theorem rowSq_top {G : List Square} {y : Nat} :
    rowSq w (List.replicate w .Blocked ++ G) (y + 1) = rowSq w G y := by
  unfold rowSq
  apply List.map_congr_left
  intro x _
  simp only [List.getD_eq_getElem?_getD]
  rw [List.getElem?_append_right (by rw [List.length_replicate, Nat.mul_succ]; omega), List.length_replicate, Nat.mul_succ,
    show w * y + w + x - w = w * y + x by omega]

theorem rowSq_zero {F : List Square} (hF : w ≤ F.length) : rowSq w F 0 = F.take w := by
  apply List.ext_getElem?
  intro i
  simp only [rowSq, List.getElem?_map, List.getElem?_take]
  by_cases hi : i < w
  · rw [List.getElem?_range hi, if_pos hi, List.getElem?_eq_getElem (by omega)]
    simp [List.getD_eq_getElem?_getD, List.getElem?_eq_getElem (show i < F.length by omega)]
  · rw [List.getElem?_eq_none (by simpa using hi), if_neg hi]
    rfl

theorem stable_top {col row : List (List Nat)} {G : List Square} (hc : ∀ r ∈ col, r.head? ≠ some 0)
    (hG : G.length = col.length * row.length) :
    Stable col ([] :: row) (List.replicate col.length .Blocked ++ G) ↔ Stable col row G := by
  constructor
  · rintro ⟨_, h1, h2⟩
    refine ⟨hG, fun x r hx => ?_, fun y r hy => ?_⟩
    · have hlt := (List.getElem?_eq_some_iff.mp hx).1
      have := h1 x r hx
      rw [List.length_cons, columnSq_top hlt] at this
      exact (stableLine_blocked (hc r (List.mem_of_getElem? hx))).mp this
    · have := h2 (y + 1) r hy
      rwa [rowSq_top] at this
  · rintro ⟨_, h1, h2⟩
    refine ⟨?_, fun x r hx => ?_, fun y r hy => ?_⟩
    · rw [List.length_append, List.length_replicate, hG, List.length_cons, Nat.mul_succ, Nat.add_comm]
    · have hlt := (List.getElem?_eq_some_iff.mp hx).1
      rw [List.length_cons, columnSq_top hlt]
      exact (stableLine_blocked (hc r (List.mem_of_getElem? hx))).mpr (h1 x r hx)
    · cases y with
      | zero =>
        obtain rfl : [] = r := Option.some.inj hy
        rw [rowSq_zero (by simp), stableLine_nil]
        simp
      | succ y =>
        rw [rowSq_top]
        exact h2 y r hy

theorem stable_top_form {col row : List (List Nat)} {F : List Square} (h : Stable col ([] :: row) F) :
    ∃ G, G.length = col.length * row.length ∧ F = List.replicate col.length .Blocked ++ G := by
  have hl := h.1
  rw [List.length_cons, Nat.mul_succ] at hl
  have := h.2.2 0 [] rfl
  rw [rowSq_zero (by omega), stableLine_nil, List.length_take, Nat.min_eq_left (by omega)] at this
  exact ⟨F.drop col.length, by rw [List.length_drop]; omega, by rw [← this, List.take_append_drop]⟩

end Nonogram
