import Verif.Proofs.Maze.Transpose
import Verif.Props.MazeShape

/-!
Property theorems about how often mazes are made (C30, C78, C79).

Draws are counted: `Fin m → Fin N` are the sequences of `m` draws below `N`. `choose_random` takes a draw modulo the
number of candidates, which is 1, 2, 3 or 4 in `visit_next`, so with `12 ∣ N` every candidate has equally many draws.
-/
namespace Maze.Props
open Maze Maze.Spec

variable {w h : Nat}

/-! ### C30: the choice is fair -/

/-- C30, fairness. If the number of draws is a multiple of the number of candidates, every candidate is chosen for
equally many draws. -/
theorem C30_uniform {α : Type} (v : List α) (hv : v.Nodup) {N : Nat} (hN : v.length ∣ N) {a : α} (ha : a ∈ v) :
    Nat.card {d : Fin N // ∃ rest, chooseRandom d.1 v = .ok (some a, rest)} * v.length = N := by
  obtain ⟨i, hi, rfl⟩ := List.getElem_of_mem ha
  have hne : v ≠ [] := by rintro rfl; simp at hi
  rw [← card_mod hN hi]
  have key : ∀ d : Fin N, (∃ rest, chooseRandom d.1 v = .ok (some v[i], rest)) ↔ d.1 % v.length = i := by
    intro d
    obtain ⟨h1, v', e, _⟩ := chooseRandom_spec d.1 hne
    rw [e]
    simp only [Prog.ok.injEq, Prod.mk.injEq, Option.some.injEq, exists_and_left, exists_eq', and_true]
    exact List.Nodup.getElem_inj_iff hv
  rw [card_mod hN hi, Nat.card_congr (Equiv.subtypeEquivRight key), card_mod hN hi]

example : Nat.card {d : Fin 12 // ∃ rest, chooseRandom d.1 [MazeDirection.Up, .Left, .Down] = .ok (some .Left, rest)} = 4 := by
  have := C30_uniform [MazeDirection.Up, .Left, .Down] (by decide) (N := 12) (by decide) (a := .Left) (by decide)
  simp only [List.length_cons, List.length_nil] at this
  omega

/-! ### C78: the mazes of the textbook algorithm, equally often -/

/-- C78, first part. For every order of the directions in every cell the recursive search makes exactly one maze. -/
theorem C78_search (hw : 1 ≤ w) (hh : 1 ≤ h) (hn : w * h * 24 < 2 ^ 63) (f : Orders w h) :
    ∃ g, MadeBy w h f.at g ∧ ∀ g', MadeBy w h f.at g' → g' = g := by
  obtain ⟨φ, h1, h2⟩ := orders_uniform true hw hh hn (N := 12) (by decide)
  have hpos : 0 < Nat.card {d // φ d = f} := by
    rcases Nat.eq_zero_or_pos (Nat.card {d // φ d = f}) with h0 | h0
    · have := h2 f
      rw [h0, Nat.zero_mul] at this
      exact absurd this.symm (Nat.ne_of_gt (Nat.pow_pos (by decide)))
    · exact h0
  obtain ⟨⟨d, hd⟩⟩ : Nonempty {d // φ d = f} := (Nat.card_pos_iff.mp hpos).1
  obtain ⟨g, _, h3⟩ := h1 d
  rw [hd] at h3
  exact ⟨g, h3, fun g' h4 => h4.det h3⟩

example (f : Orders 30 20) : ∃ g, MadeBy 30 20 f.at g :=
  (C78_search (w := 30) (h := 20) (by omega) (by omega) (by omega) f).imp fun _ h => h.1

/-- C78. Every sequence of draws gives every cell an order of the four directions such that the result is the maze
made by the recursive search with these orders, and all orders come equally often. -/
theorem C78_orders (oc : Bool) (hw : 1 ≤ w) (hh : 1 ≤ h) (hn : w * h * 24 < 2 ^ 63) {N : Nat} (hN : 12 ∣ N) :
    ∃ φ : (Fin (4 * (w * h)) → Fin N) → Orders w h,
      (∀ d, ∃ g, recursiveBacktrack oc (drawSeq d) w h = .ok g ∧ MadeBy w h (φ d).at g) ∧
      ∀ f, Nat.card {d // φ d = f} * 24 ^ (w * h) = N ^ (4 * (w * h)) :=
  orders_uniform oc hw hh hn hN

example : ∃ φ : (Fin (4 * (3 * 2)) → Fin 24) → Orders 3 2, ∀ f, Nat.card {d // φ d = f} * 24 ^ (3 * 2) = 24 ^ (4 * (3 * 2)) := by
  obtain ⟨φ, _, h⟩ := C78_orders (w := 3) (h := 2) true (by omega) (by omega) (by omega) (N := 24) (by decide)
  exact ⟨φ, h⟩

/-- Mazes with a given property, counted over draws and over orders. -/
theorem count_draws (oc : Bool) (hw : 1 ≤ w) (hh : 1 ≤ h) (hn : w * h * 24 < 2 ^ 63) {N : Nat} (hN : 12 ∣ N)
    (P : List MazeNode → Prop) :
    Nat.card {d : Fin (4 * (w * h)) → Fin N // ∃ g, recursiveBacktrack oc (drawSeq d) w h = .ok g ∧ P g} *
        24 ^ (w * h) =
      N ^ (4 * (w * h)) * Nat.card {f : Orders w h // ∃ g, MadeBy w h f.at g ∧ P g} := by
  classical
  obtain ⟨φ, h1, h2⟩ := orders_uniform oc hw hh hn hN
  have : Fintype (Orders w h) := Fintype.ofFinite _
  have key : ∀ d, (∃ g, recursiveBacktrack oc (drawSeq d) w h = .ok g ∧ P g) ↔
      ∃ g, MadeBy w h (φ d).at g ∧ P g := by
    intro d
    obtain ⟨g, hg, hm⟩ := h1 d
    constructor
    · rintro ⟨g', h3, h4⟩
      rw [hg] at h3
      obtain rfl := Prog.ok.inj h3
      exact ⟨g, hm, h4⟩
    · rintro ⟨g', h3, h4⟩
      obtain rfl := h3.det hm
      exact ⟨g', hg, h4⟩
  rw [Nat.card_congr (Equiv.subtypeEquivRight key)]
  rw [Nat.card_eq_fintype_card, Fintype.card_subtype, Nat.card_eq_fintype_card, Fintype.card_subtype]
  rw [Finset.card_eq_sum_card_fiberwise (f := φ) (t := Finset.univ.filter fun f : Orders w h =>
    ∃ g, MadeBy w h f.at g ∧ P g) (by intro d hd; simpa using hd)]
  rw [Finset.sum_mul, Finset.sum_congr rfl (g := fun _ => N ^ (4 * (w * h)))]
  · rw [Finset.sum_const, smul_eq_mul, Nat.mul_comm]
  · intro f hf
    rw [← h2 f, Nat.card_eq_fintype_card, Fintype.card_subtype]
    congr 2
    ext d
    simp only [Finset.mem_filter, Finset.mem_univ, true_and]
    constructor
    · exact fun hd => hd.2
    · intro hd
      rw [Finset.mem_filter] at hf
      exact ⟨by rw [hd]; exact hf.2, hd⟩

/-- C78, as a law: the share of the draws for which a maze is made is the share of the families of orders for which
the recursive search makes it. -/
theorem C78_law (oc : Bool) (hw : 1 ≤ w) (hh : 1 ≤ h) (hn : w * h * 24 < 2 ^ 63) {N : Nat} (hN : 12 ∣ N)
    (g : List MazeNode) :
    Nat.card {d : Fin (4 * (w * h)) → Fin N // recursiveBacktrack oc (drawSeq d) w h = .ok g} * 24 ^ (w * h) =
      N ^ (4 * (w * h)) * Nat.card {f : Orders w h // MadeBy w h f.at g} := by
  have := count_draws oc hw hh hn hN (· = g)
  simpa using this

example (g : List MazeNode) : Nat.card {d : Fin 400 → Fin 12 // recursiveBacktrack true (drawSeq d) 10 10 = .ok g} *
    24 ^ 100 = 12 ^ 400 * Nat.card {f : Orders 10 10 // MadeBy 10 10 f.at g} :=
  C78_law (w := 10) (h := 10) true (by omega) (by omega) (by omega) (by decide) g

/-! ### The entrance -/

theorem openSide_mono {g : List MazeNode} {c x : Nat} {d : MazeDirection} :
    (rightOpen g x = true → rightOpen (openSide w g c d) x = true) ∧
    (downOpen g x = true → downOpen (openSide w g c d) x = true) := by
  have key : ∀ (i : Nat) (f : MazeNode → MazeNode), (∀ n : MazeNode, (n.right = false → (f n).right = false) ∧
      (n.down = false → (f n).down = false)) →
      (rightOpen g x = true → rightOpen (g.modify i f) x = true) ∧
      (downOpen g x = true → downOpen (g.modify i f) x = true) := by
    intro i f hf
    unfold rightOpen downOpen
    rw [List.getElem?_modify]
    cases g[x]? with
    | none => simp
    | some n =>
      by_cases hx : i = x
      · simpa [hx] using hf n
      · simp [hx]
  cases d <;> exact key _ _ fun n => ⟨fun _ => by simp_all, fun _ => by simp_all⟩

theorem Explores.mono {ord c ds s t} (H : Explores w h ord c ds s t) (x : Nat) :
    (rightOpen s.2 x = true → rightOpen t.2 x = true) ∧ (downOpen s.2 x = true → downOpen t.2 x = true) := by
  induction H with
  | nil => exact ⟨id, id⟩
  | skip _ _ ih => exact ih
  | enter _ _ _ _ ih1 ih2 =>
    exact ⟨fun hx => ih2.1 (ih1.1 (openSide_mono.1 hx)), fun hx => ih2.2 (ih1.2 (openSide_mono.2 hx))⟩

/-- The first direction out of cell 0 that leads to a cell. -/
theorem explores_first {ord : Nat → List MazeDirection} {t} (hw : 2 ≤ w) (hh : 2 ≤ h) :
    ∀ (ds : List MazeDirection), Explores w h ord 0 ds ([0], List.replicate (w * h) MazeNode.new) t →
      ∀ d, ds.find? (fun d => d = .Right ∨ d = .Down) = some d →
        (d = .Right → rightOpen t.2 0 = true) ∧ (d = .Down → downOpen t.2 0 = true) := by
  have hwh : w * 2 ≤ w * h := Nat.mul_le_mul_left _ hh
  have h0 : 0 < w * h := by omega
  intro ds
  induction ds with
  | nil => intro _ d hd; cases hd
  | cons d ds ih =>
    intro H d' hd'
    rw [List.find?_cons] at hd'
    cases H with
    | skip hb ht =>
      cases d
      · exact absurd (hb 1 (by simp [nbr, Nat.zero_mod]; omega)) (by simp)
      · exact absurd (hb (0 + w) (by simp [nbr]; omega)) (by simp; omega)
      · exact ih ht d' (by simpa using hd')
      · exact ih ht d' (by simpa using hd')
    | enter hb hn h1 ht =>
      have hget : ∀ n : MazeNode, ((List.replicate (w * h) n)[0]? = some n) := by
        intro n; rw [List.getElem?_replicate, if_pos h0]
      cases d
      · obtain rfl : MazeDirection.Right = d' := by simpa using hd'
        refine ⟨fun _ => (Explores.mono ht 0).1 ((Explores.mono h1 0).1 ?_), nofun⟩
        simp [openSide, rightOpen, List.getElem?_modify, h0]
      · obtain rfl : MazeDirection.Down = d' := by simpa using hd'
        refine ⟨nofun, fun _ => (Explores.mono ht 0).2 ((Explores.mono h1 0).2 ?_)⟩
        simp [openSide, downOpen, List.getElem?_modify, h0]
      · simp [nbr] at hb
      · simp [nbr] at hb; omega

/-- Right and down exchanged. -/
def swapDir : MazeDirection → MazeDirection
  | .Right => .Down
  | .Down => .Right
  | .Left => .Left
  | .Up => .Up

theorem swapDir_perm {l : List MazeDirection} (hl : l.Perm directions) : (l.map swapDir).Perm directions :=
  (hl.map swapDir).trans (by decide)

theorem swapDir_swapDir (l : List MazeDirection) : (l.map swapDir).map swapDir = l := by
  rw [List.map_map]
  have : swapDir ∘ swapDir = id := by funext d; cases d <;> rfl
  rw [this, List.map_id]

theorem find_swap (l : List MazeDirection) :
    (l.map swapDir).find? (fun d => d = .Right ∨ d = .Down) =
      (l.find? (fun d => d = .Right ∨ d = .Down)).map swapDir := by
  induction l with
  | nil => rfl
  | cons d l ih => cases d <;> simp_all [swapDir]

/-- C78, at the entrance: for at least two rows and two columns, exactly half of the draws open the right side of
cell 0, and the other half its bottom. -/
theorem C78_entrance (oc : Bool) (hw : 2 ≤ w) (hh : 2 ≤ h) (hn : w * h * 24 < 2 ^ 63) {N : Nat} (hN : 12 ∣ N) :
    2 * Nat.card {d : Fin (4 * (w * h)) → Fin N //
        ∃ g, recursiveBacktrack oc (drawSeq d) w h = .ok g ∧ rightOpen g 0 = true} = N ^ (4 * (w * h)) ∧
    2 * Nat.card {d : Fin (4 * (w * h)) → Fin N //
        ∃ g, recursiveBacktrack oc (drawSeq d) w h = .ok g ∧ downOpen g 0 = true} = N ^ (4 * (w * h)) := by
  classical
  have hwh : w * 2 ≤ w * h := Nat.mul_le_mul_left _ hh
  have h0 : 0 < w * h := by omega
  obtain ⟨φ, p1, p2⟩ := orders_uniform oc (show 0 < w by omega) (show 0 < h by omega) hn (N := 12) (by decide)
  -- the first usable direction decides
  have first : ∀ f : Orders w h, ∃ d, (d = .Right ∨ d = .Down) ∧
      (f ⟨0, h0⟩).1.find? (fun d => d = .Right ∨ d = .Down) = some d := by
    intro f
    have hm : MazeDirection.Right ∈ (f ⟨0, h0⟩).1 := (f ⟨0, h0⟩).2.mem_iff.mpr (by decide)
    cases hf : (f ⟨0, h0⟩).1.find? (fun d => d = .Right ∨ d = .Down) with
    | none =>
      rw [List.find?_eq_none] at hf
      exact absurd (by simp) (hf _ hm)
    | some d => exact ⟨d, by simpa using List.find?_some hf, rfl⟩
  have notBoth : ∀ (f : Orders w h) g, MadeBy w h f.at g → ¬ (rightOpen g 0 = true ∧ downOpen g 0 = true) := by
    intro f g hg
    have hpos : 0 < Nat.card {d // φ d = f} := by
      rcases Nat.eq_zero_or_pos (Nat.card {d // φ d = f}) with hz | hz
      · have := p2 f
        rw [hz, Nat.zero_mul] at this
        exact absurd this.symm (Nat.ne_of_gt (Nat.pow_pos (by decide)))
      · exact hz
    obtain ⟨⟨d, hd⟩⟩ : Nonempty {d // φ d = f} := (Nat.card_pos_iff.mp hpos).1
    obtain ⟨g', hr, hm⟩ := p1 d
    rw [hd] at hm
    obtain rfl := hg.det hm
    obtain ⟨hC, hD⟩ := (C71_range oc (by omega) (by omega) hn g).mp ⟨_, hr⟩
    exact DepthFirst.entrance hC.tree.isAcyclic hD hw hh
  have iff : ∀ f : Orders w h,
      ((∃ g, MadeBy w h f.at g ∧ rightOpen g 0 = true) ↔
        (f ⟨0, h0⟩).1.find? (fun d => d = .Right ∨ d = .Down) = some .Right) ∧
      ((∃ g, MadeBy w h f.at g ∧ downOpen g 0 = true) ↔
        (f ⟨0, h0⟩).1.find? (fun d => d = .Right ∨ d = .Down) = some .Down) := by
    intro f
    obtain ⟨g, hg, hu⟩ := C78_search (show 1 ≤ w by omega) (show 1 ≤ h by omega) hn f
    obtain ⟨d, hd, hfd⟩ := first f
    have hnb := notBoth f g hg
    obtain ⟨V, hV⟩ := hg
    have hfirst := explores_first hw hh _ hV d (by simpa [Orders.at, h0] using hfd)
    rw [hfd]
    have hM : MadeBy w h f.at g := ⟨V, hV⟩
    simp only at hfirst
    rcases hd with rfl | rfl
    · have hr := hfirst.1 rfl
      refine ⟨⟨fun _ => rfl, fun _ => ⟨g, hM, hr⟩⟩, ⟨?_, fun h => by cases h⟩⟩
      rintro ⟨g', h1, h2⟩
      obtain rfl := hu g' h1
      exact absurd ⟨hr, h2⟩ hnb
    · have hr := hfirst.2 rfl
      refine ⟨⟨?_, fun h => by cases h⟩, ⟨fun _ => rfl, fun _ => ⟨g, hM, hr⟩⟩⟩
      rintro ⟨g', h1, h2⟩
      obtain rfl := hu g' h1
      exact absurd ⟨h2, hr⟩ hnb
  -- exchanging right and down in cell 0
  let sw : Orders w h → Orders w h := fun f =>
    Function.update f ⟨0, h0⟩ ⟨(f ⟨0, h0⟩).1.map swapDir, swapDir_perm (f ⟨0, h0⟩).2⟩
  have sw0 : ∀ f, ((sw f) ⟨0, h0⟩).1 = (f ⟨0, h0⟩).1.map swapDir := by intro f; simp [sw]
  have swsw : ∀ f, sw (sw f) = f := by
    intro f
    funext c
    by_cases hc : c = ⟨0, h0⟩
    · subst hc
      refine Subtype.ext ?_
      rw [sw0, sw0, swapDir_swapDir]
    · simp [sw, Function.update_of_ne hc]
  have hcard : Nat.card {f : Orders w h // ∃ g, MadeBy w h f.at g ∧ rightOpen g 0 = true} =
      Nat.card {f : Orders w h // ∃ g, MadeBy w h f.at g ∧ downOpen g 0 = true} := by
    refine Nat.card_congr ⟨fun f => ⟨sw f.1, ?_⟩, fun f => ⟨sw f.1, ?_⟩, ?_, ?_⟩
    · rw [(iff _).2, sw0, find_swap, (iff f.1).1.mp f.2]; rfl
    · rw [(iff _).1, sw0, find_swap, (iff f.1).2.mp f.2]; rfl
    · exact fun f => Subtype.ext (swsw f.1)
    · exact fun f => Subtype.ext (swsw f.1)
  have htot : Nat.card {f : Orders w h // ∃ g, MadeBy w h f.at g ∧ rightOpen g 0 = true} +
      Nat.card {f : Orders w h // ∃ g, MadeBy w h f.at g ∧ downOpen g 0 = true} = 24 ^ (w * h) := by
    rw [← Nat.card_sum]
    have hO : Nat.card (Orders w h) = 24 ^ (w * h) := by
      rw [Nat.card_fun, orders_card]; simp
    rw [← hO]
    refine Nat.card_congr (Equiv.ofBijective (Sum.elim (fun f => f.1) (fun f => f.1)) ⟨?_, ?_⟩)
    · rintro (⟨a, ha⟩ | ⟨a, ha⟩) (⟨b, hb⟩ | ⟨b, hb⟩) hab <;> simp only [Sum.elim_inl, Sum.elim_inr] at hab <;> subst hab
      · rfl
      · have := ((iff a).1.mp ha).symm.trans ((iff a).2.mp hb); cases this
      · have := ((iff a).1.mp hb).symm.trans ((iff a).2.mp ha); cases this
      · rfl
    · intro f
      obtain ⟨d, hd, hfd⟩ := first f
      rcases hd with rfl | rfl
      · exact ⟨.inl ⟨f, (iff f).1.mpr hfd⟩, rfl⟩
      · exact ⟨.inr ⟨f, (iff f).2.mpr hfd⟩, rfl⟩
  have hp : 0 < 24 ^ (w * h) := Nat.pow_pos (by decide)
  constructor
  · refine Nat.eq_of_mul_eq_mul_right hp ?_
    rw [Nat.mul_assoc, count_draws oc (by omega) (by omega) hn hN (fun g => rightOpen g 0 = true), ← htot, ← hcard]
    ring
  · refine Nat.eq_of_mul_eq_mul_right hp ?_
    rw [Nat.mul_assoc, count_draws oc (by omega) (by omega) hn hN (fun g => downOpen g 0 = true), ← htot, hcard]
    ring

example : 2 * Nat.card {d : Fin 24 → Fin 12 //
    ∃ g, recursiveBacktrack true (drawSeq d) 3 2 = .ok g ∧ rightOpen g 0 = true} = 12 ^ 24 :=
  (C78_entrance (w := 3) (h := 2) true (by omega) (by omega) (by omega) (by decide)).1

/-! ### C79: rows and columns are treated alike -/

/-- C79. A maze of `w` columns and `h` rows and the maze of `h` columns and `w` rows obtained by exchanging rows and
columns are made for equally many draws. -/
theorem C79_transpose (oc : Bool) (hw : 1 ≤ w) (hh : 1 ≤ h) (hn : w * h * 24 < 2 ^ 63) {N : Nat} (hN : 12 ∣ N)
    (g : List MazeNode) (hg : g.length = w * h) :
    Nat.card {d : Fin (4 * (w * h)) → Fin N // recursiveBacktrack oc (drawSeq d) w h = .ok g} =
      Nat.card {d : Fin (4 * (h * w)) → Fin N // recursiveBacktrack oc (drawSeq d) h w = .ok (trGrid w h g)} := by
  have hpos : 0 < w * h := Nat.mul_pos hw hh
  have hpos' : 0 < h * w := Nat.mul_pos hh hw
  have e1 := C78_law oc hw hh hn hN g
  have e2 := C78_law oc hh hw (by rwa [Nat.mul_comm h w]) hN (trGrid w h g)
  have e3 : Nat.card {f : Orders w h // MadeBy w h f.at g} =
      Nat.card {f : Orders h w // MadeBy h w f.at (trGrid w h g)} := by
    refine Nat.card_congr ⟨fun f => ⟨trOrders f.1, ?_⟩, fun f => ⟨trOrders f.1, ?_⟩, ?_, ?_⟩
    · exact (f.2.tr (fun x hx => trOrders_at f.1 hx) hpos).1
    · have := (f.2.tr (fun x hx => trOrders_at f.1 hx) hpos').1
      rwa [trGrid_trGrid hg] at this
    · exact fun f => Subtype.ext (trOrders_trOrders f.1)
    · exact fun f => Subtype.ext (trOrders_trOrders f.1)
  rw [e3] at e1
  have hp : 0 < 24 ^ (w * h) := Nat.pow_pos (by decide)
  refine Nat.eq_of_mul_eq_mul_right hp ?_
  rw [e1]
  rw [show h * w = w * h from Nat.mul_comm ..] at e2 ⊢
  exact e2.symm

/-- The two mazes of 2 x 2 cells that start to the right and downwards. -/
example : trGrid 2 2 round = [⟨true, false⟩, ⟨true, false⟩, ⟨false, true⟩, ⟨true, true⟩] := by decide
example : Nat.card {d : Fin 16 → Fin 12 // recursiveBacktrack true (drawSeq d) 2 2 = .ok round} =
    Nat.card {d : Fin 16 → Fin 12 // recursiveBacktrack true (drawSeq d) 2 2 = .ok (trGrid 2 2 round)} :=
  C79_transpose (w := 2) (h := 2) true (by omega) (by omega) (by omega) (by decide) _ rfl

end Maze.Props
