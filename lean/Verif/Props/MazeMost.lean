import Verif.Proofs.Maze.OddsBound
import Verif.Props.MazeOdds

/-!
Property theorems about the most likely mazes, and how few mazes there can be (C124).
-/
namespace Maze.Props
open Maze Maze.Spec

variable {w h : Nat}

theorem power_step {X Y t k : Nat} (e : X * 3 ^ t = Y * 4 ^ t) (hk : t ≤ k) :
    X * 3 ^ k ≤ Y * 4 ^ k ∧ (0 < Y → t < k → X * 3 ^ k < Y * 4 ^ k) := by
  obtain ⟨j, rfl⟩ := Nat.exists_eq_add_of_le hk
  have e' : X * 3 ^ (t + j) = Y * 4 ^ t * 3 ^ j := by rw [Nat.pow_add, ← Nat.mul_assoc, e]
  have e'' : Y * 4 ^ (t + j) = Y * 4 ^ t * 4 ^ j := by rw [Nat.pow_add, Nat.mul_assoc]
  rw [e', e'']
  refine ⟨Nat.mul_le_mul_left _ (four_three j).1, fun hY hj => ?_⟩
  exact Nat.mul_lt_mul_of_pos_left ((four_three j).2 (by omega)) (Nat.mul_pos hY (Nat.pow_pos (by decide)))

/-- A maze with as many passages beyond which three neighbours lie as a maze of three columns can have. -/
theorem exists_middle (oc : Bool) (hh : 1 ≤ h) (hn : 3 * h * 24 < 2 ^ 63) :
    ∃ g, Makes oc 3 h g ∧ triples 3 h g = (3 - 2) * (h - 2) := by
  obtain ⟨rnd, g, hr, hadj⟩ := recursiveBacktrack_carves oc (show 0 < 3 by decide) hh hn middle h rfl
    (fun i hi => middle_nbr hi) (fun i i' hi _ => middle_inj hi)
  obtain ⟨hC, hD⟩ := (C71_range oc (by decide) hh hn g).mp ⟨rnd, hr⟩
  have h1 := triples_le (g := g) (show 0 < 3 by decide) hC.tree
  have h2 := middle_triples hh hC.tree hD hadj
  exact ⟨g, ⟨rnd, hr⟩, by omega⟩

/-! ### C124: the most likely mazes -/

/-- C124. No maze is made for more than a fraction of `(4/3)^((w - 2) * (h - 2)) / 2^((w - 1) * (h - 1))` of the draws,
and some maze is made for exactly that fraction if and only if there are at most three rows or at most three columns. -/
theorem C124_most (oc : Bool) (hw : 1 ≤ w) (hh : 1 ≤ h) (hn : w * h * 24 < 2 ^ 63) {N : Nat} (hN : 12 ∣ N)
    (hN0 : 0 < N) :
    (∀ g, Nat.card {d : Fin (4 * (w * h)) → Fin N // recursiveBacktrack oc (drawSeq d) w h = .ok g} *
      2 ^ ((w - 1) * (h - 1)) * 3 ^ ((w - 2) * (h - 2)) ≤ N ^ (4 * (w * h)) * 4 ^ ((w - 2) * (h - 2))) ∧
    ((∃ g, Nat.card {d : Fin (4 * (w * h)) → Fin N // recursiveBacktrack oc (drawSeq d) w h = .ok g} *
      2 ^ ((w - 1) * (h - 1)) * 3 ^ ((w - 2) * (h - 2)) = N ^ (4 * (w * h)) * 4 ^ ((w - 2) * (h - 2))) ↔
        w ≤ 3 ∨ h ≤ 3) := by
  have hpos : 0 < N ^ (4 * (w * h)) := Nat.pow_pos hN0
  have made : ∀ g, (∃ rnd, recursiveBacktrack oc rnd w h = .ok g) ∨
      Nat.card {d : Fin (4 * (w * h)) → Fin N // recursiveBacktrack oc (drawSeq d) w h = .ok g} = 0 := by
    intro g
    by_cases H : ∃ rnd, recursiveBacktrack oc rnd w h = .ok g
    · exact .inl H
    · right
      rw [Nat.card_eq_zero]
      exact .inl ⟨fun d => H ⟨_, d.2⟩⟩
  refine ⟨fun g => ?_, ?_, ?_⟩
  · rcases made g with hg | hg
    · obtain ⟨hC, hD⟩ := (C71_range oc hw hh hn g).mp hg
      exact (power_step (C121_powers oc hw hh hn hN hC hD) (triples_le hw hC.tree)).1
    · rw [hg, Nat.zero_mul, Nat.zero_mul]
      exact Nat.zero_le _
  · rintro ⟨g, he⟩
    by_contra hno
    rcases made g with hg | hg
    · obtain ⟨hC, hD⟩ := (C71_range oc hw hh hn g).mp hg
      have := (power_step (C121_powers oc hw hh hn hN hC hD) (triples_le hw hC.tree)).2 hpos
        (triples_lt (by omega) (by omega) hC.tree hD)
      omega
    · rw [hg, Nat.zero_mul, Nat.zero_mul] at he
      exact absurd he.symm (Nat.ne_of_gt (Nat.mul_pos hpos (Nat.pow_pos (by decide))))
  · intro hs
    have ok : ∀ g, Makes oc w h g → triples w h g = (w - 2) * (h - 2) →
        ∃ g, Nat.card {d : Fin (4 * (w * h)) → Fin N // recursiveBacktrack oc (drawSeq d) w h = .ok g} *
          2 ^ ((w - 1) * (h - 1)) * 3 ^ ((w - 2) * (h - 2)) = N ^ (4 * (w * h)) * 4 ^ ((w - 2) * (h - 2)) := by
      intro g hg ht
      obtain ⟨hC, hD⟩ := (C71_range oc hw hh hn g).mp hg
      have := C121_powers oc hw hh hn hN hC hD
      rw [ht] at this
      exact ⟨g, this⟩
    by_cases thin : w ≤ 2 ∨ h ≤ 2
    · refine ok _ ((C71_range oc hw hh hn _).mpr
        ⟨snake_ham.closed (w := w) (h := h) hw hh, snake_ham.depthFirst (w := w) (h := h) hw hh⟩) ?_
      rw [snake_triples hw hh]
      rcases thin with e | e
      · rw [show w - 2 = 0 by omega, Nat.zero_mul]
      · rw [show h - 2 = 0 by omega, Nat.mul_zero]
    · rcases hs with e | e
      · obtain rfl : w = 3 := by omega
        obtain ⟨g, hg, ht⟩ := exists_middle oc hh hn
        exact ok g hg ht
      · obtain rfl : h = 3 := by omega
        have hn' : 3 * w * 24 < 2 ^ 63 := by omega
        obtain ⟨g, hg, ht⟩ := exists_middle oc hw hn'
        obtain ⟨hC, hD⟩ := (C71_range oc (by decide) hw hn' g).mp hg
        have e1 := C121_powers oc (by decide) hw hn' hN hC hD
        rw [C79_transpose oc (by decide) hw hn' hN g hC.len, ht] at e1
        refine ⟨trGrid 3 w g, ?_⟩
        simpa only [Nat.mul_comm 3 w, Nat.mul_comm (3 - 1) (w - 1), Nat.mul_comm (3 - 2) (w - 2)] using e1

/-- In a maze of 3 x 3 cells one maze is made for one in twelve of the draws, and none for more. -/
example : (∃ g, Nat.card {d : Fin 36 → Fin 12 // recursiveBacktrack true (drawSeq d) 3 3 = .ok g} * 12 = 12 ^ 36) ∧
    ∀ g, Nat.card {d : Fin 36 → Fin 12 // recursiveBacktrack true (drawSeq d) 3 3 = .ok g} * 12 ≤ 12 ^ 36 := by
  obtain ⟨h1, h2⟩ := C124_most (w := 3) (h := 3) true (by omega) (by omega) (by omega) (N := 12) (by decide) (by decide)
  obtain ⟨g, hg⟩ := h2.mpr (by omega)
  refine ⟨⟨g, ?_⟩, fun g => ?_⟩
  · simp only [Nat.reduceMul, Nat.reduceSub, Nat.reducePow] at hg ⊢
    omega
  · have := h1 g
    simp only [Nat.reduceMul, Nat.reduceSub, Nat.reducePow] at this ⊢
    omega

/-- C124, how few mazes: at least `2^((w - 1) * (h - 1)) * (3/4)^((w - 2) * (h - 2))` different mazes can be returned,
and exactly that many if and only if there are at most two rows or at most two columns. -/
theorem C124_count (oc : Bool) (hw : 1 ≤ w) (hh : 1 ≤ h) (hn : w * h * 24 < 2 ^ 63) :
    2 ^ ((w - 1) * (h - 1)) * 3 ^ ((w - 2) * (h - 2)) ≤
      Nat.card {g // ∃ rnd, recursiveBacktrack oc rnd w h = .ok g} * 4 ^ ((w - 2) * (h - 2)) ∧
    (2 ^ ((w - 1) * (h - 1)) * 3 ^ ((w - 2) * (h - 2)) =
      Nat.card {g // ∃ rnd, recursiveBacktrack oc rnd w h = .ok g} * 4 ^ ((w - 2) * (h - 2)) ↔ w ≤ 2 ∨ h ≤ 2) := by
  obtain ⟨I, hs⟩ := made_sum oc hw hh hn
  have hq : 0 < 24 ^ (w * h) := Nat.pow_pos (by decide)
  have hcard : Nat.card {g // ∃ rnd, recursiveBacktrack oc rnd w h = .ok g} = (Finset.univ : Finset {g // Makes oc w h g}).card :=
    @Nat.card_eq_fintype_card {g // Makes oc w h g} I
  have share : ∀ g : {g // Makes oc w h g}, _ := fun g =>
    power_step (made_powers hw hh hn ((C71_range oc hw hh hn g.1).mp g.2).1 ((C71_range oc hw hh hn g.1).mp g.2).2)
      (triples_le hw ((C71_range oc hw hh hn g.1).mp g.2).1.tree)
  have hs' : ∑ g : {g // Makes oc w h g}, Nat.card {f : Orders w h // MadeBy w h f.at g.1} * 2 ^ ((w - 1) * (h - 1)) *
      3 ^ ((w - 2) * (h - 2)) = 24 ^ (w * h) * (2 ^ ((w - 1) * (h - 1)) * 3 ^ ((w - 2) * (h - 2))) := by
    rw [← Finset.sum_mul, ← Finset.sum_mul, hs, Nat.mul_assoc]
  have hconst : ∑ _g : {g // Makes oc w h g}, 24 ^ (w * h) * 4 ^ ((w - 2) * (h - 2)) =
      24 ^ (w * h) * (Nat.card {g // ∃ rnd, recursiveBacktrack oc rnd w h = .ok g} * 4 ^ ((w - 2) * (h - 2))) := by
    rw [Finset.sum_const, smul_eq_mul, hcard, Nat.mul_left_comm]
  refine ⟨?_, ?_, ?_⟩
  · refine Nat.le_of_mul_le_mul_left ?_ hq
    rw [← hconst, ← hs']
    exact Finset.sum_le_sum fun g _ => (share g).1
  · intro he
    by_contra hno
    have sC := snake_ham.closed (w := w) (h := h) hw hh
    have sD := snake_ham.depthFirst (w := w) (h := h) hw hh
    have hk : 0 < (w - 2) * (h - 2) := Nat.mul_pos (by omega) (by omega)
    have : ∑ g : {g // Makes oc w h g}, Nat.card {f : Orders w h // MadeBy w h f.at g.1} * 2 ^ ((w - 1) * (h - 1)) *
      3 ^ ((w - 2) * (h - 2)) < ∑ _g : {g // Makes oc w h g}, 24 ^ (w * h) * 4 ^ ((w - 2) * (h - 2)) := by
      refine Finset.sum_lt_sum (fun g _ => (share g).1) ⟨⟨_, (C71_range oc hw hh hn _).mpr ⟨sC, sD⟩⟩, Finset.mem_univ _, ?_⟩
      refine (share ⟨_, (C71_range oc hw hh hn _).mpr ⟨sC, sD⟩⟩).2 hq ?_
      rw [snake_triples hw hh]
      exact hk
    rw [hconst, hs', he] at this
    exact Nat.lt_irrefl _ this
  · intro hthin
    rw [(C122_count oc hw hh hn).2.mpr hthin]
    have : (w - 2) * (h - 2) = 0 := by
      rcases hthin with e | e
      · rw [show w - 2 = 0 by omega, Nat.zero_mul]
      · rw [show h - 2 = 0 by omega, Nat.mul_zero]
    rw [this]
    rfl

/-- Of 3 x 3 cells there are between 13 and 15 mazes. -/
example : 13 ≤ Nat.card {g // ∃ rnd, recursiveBacktrack true rnd 3 3 = .ok g} := by
  obtain ⟨h1, h2⟩ := C124_count (w := 3) (h := 3) true (by omega) (by omega) (by omega)
  have h3 : ¬ _ := fun e => absurd (h2.mp e) (by omega)
  simp only [Nat.reduceMul, Nat.reduceSub, Nat.reducePow] at h1 h3
  omega

/-- The mazes of 20 x 10 cells. -/
example : 2 ^ (19 * 9) * 3 ^ (18 * 8) ≤ Nat.card {g // ∃ rnd, recursiveBacktrack false rnd 20 10 = .ok g} * 4 ^ (18 * 8) :=
  (C124_count (w := 20) (h := 10) false (by omega) (by omega) (by omega)).1

end Maze.Props
