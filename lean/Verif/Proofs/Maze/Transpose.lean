import Verif.Proofs.Maze.Shuffle

/-! Helper lemmas: the random depth-first search seen with rows and columns exchanged. -/
namespace Maze
open Spec

variable {w h : Nat}

theorem trCell_lt {c : Nat} (hc : c < w * h) : trCell w h c < h * w := by
  unfold trCell
  have hw : 0 < w := by rcases Nat.eq_zero_or_pos w with e | e; (rw [e] at hc; omega); exact e
  have h1 := Nat.mod_lt c hw
  have h2 : c / w < h := Nat.div_lt_of_lt_mul hc
  calc h * (c % w) + c / w < h * (c % w) + h := by omega
    _ = h * (c % w + 1) := by rw [Nat.mul_succ]
    _ ≤ h * w := Nat.mul_le_mul_left _ h1

theorem trCell_mod {c : Nat} (hc : c < w * h) : trCell w h c % h = c / w := by
  have h2 : c / w < h := Nat.div_lt_of_lt_mul hc
  rw [trCell, Nat.mul_add_mod, Nat.mod_eq_of_lt h2]

theorem trCell_div {c : Nat} (hc : c < w * h) : trCell w h c / h = c % w := by
  have h2 : c / w < h := Nat.div_lt_of_lt_mul hc
  rw [trCell, Nat.mul_add_div (show 0 < h from Nat.lt_of_le_of_lt (Nat.zero_le _) h2), Nat.div_eq_of_lt h2, Nat.add_zero]

theorem trCell_trCell {c : Nat} (hc : c < w * h) : trCell h w (trCell w h c) = c := by
  rw [trCell, trCell_mod hc, trCell_div hc]
  exact Nat.div_add_mod c w

theorem trCell_inj {a b : Nat} (ha : a < w * h) (hb : b < w * h) (H : trCell w h a = trCell w h b) : a = b := by
  rw [← trCell_trCell ha, ← trCell_trCell hb, H]

theorem trDir_trDir (d : MazeDirection) : trDir (trDir d) = d := by cases d <;> rfl

theorem trNode_trNode (n : MazeNode) : trNode (trNode n) = n := rfl

theorem nbr_lt {c b : Nat} {d : MazeDirection} (hc : c < w * h) (hb : nbr w h c d = some b) : b < w * h := by
  cases d <;> simp only [nbr] at hb <;> split at hb <;> simp at hb <;> subst hb
  · exact succ_lt_of_mod hc (by assumption)
  · assumption
  · omega
  · omega

theorem div_of_row {a x y : Nat} (hx : x < w) (ha : a = w * y + x) : a / w = y ∧ a % w = x := by
  subst ha
  rw [Nat.mul_add_div (by omega), Nat.div_eq_of_lt hx, Nat.mul_add_mod, Nat.mod_eq_of_lt hx]
  exact ⟨rfl, rfl⟩

/-- Neighbours seen with rows and columns exchanged. -/
theorem nbr_tr {c : Nat} (hc : c < w * h) (d : MazeDirection) :
    nbr h w (trCell w h c) (trDir d) = (nbr w h c d).map (trCell w h) := by
  have hw : 0 < w := by rcases Nat.eq_zero_or_pos w with e | e; (rw [e] at hc; omega); exact e
  have hx := Nat.mod_lt c hw
  have hy : c / w < h := Nat.div_lt_of_lt_mul hc
  have hdm := Nat.div_add_mod c w
  have hm := trCell_mod hc
  have hd := trCell_div hc
  have htl := trCell_lt hc
  cases d
  · -- right becomes down
    simp only [nbr, trDir]
    have e1 : trCell w h c + h < h * w ↔ c % w + 1 < w := by
      have : trCell w h c + h = h * (c % w + 1) + c / w := by rw [trCell, Nat.mul_succ]; omega
      rw [this]
      constructor
      · intro hlt
        by_contra hcon
        have : h * w ≤ h * (c % w + 1) := Nat.mul_le_mul_left _ (by omega)
        omega
      · intro hlt
        have : h * (c % w + 1 + 1) ≤ h * w := Nat.mul_le_mul_left _ (by omega)
        rw [Nat.mul_succ] at this
        omega
    by_cases hlt : c % w + 1 < w
    · rw [if_pos (e1.mpr hlt), if_pos hlt]
      obtain ⟨a1, a2⟩ := div_of_row (w := w) (a := c + 1) (y := c / w) hlt (by omega)
      simp only [Option.map_some, Option.some.injEq]
      rw [trCell, trCell, a1, a2, Nat.mul_succ]; omega
    · rw [if_neg (fun x => hlt (e1.mp x)), if_neg hlt]; rfl
  · -- down becomes right
    simp only [nbr, trDir]
    have e1 : c + w < w * h ↔ c / w + 1 < h := by
      have : c + w = w * (c / w + 1) + c % w := by rw [Nat.mul_succ]; omega
      rw [this]
      constructor
      · intro hlt
        by_contra hcon
        have : w * h ≤ w * (c / w + 1) := Nat.mul_le_mul_left _ (by omega)
        omega
      · intro hlt
        have : w * (c / w + 1 + 1) ≤ w * h := Nat.mul_le_mul_left _ (by omega)
        rw [Nat.mul_succ] at this
        omega
    rw [hm]
    by_cases hlt : c / w + 1 < h
    · rw [if_pos hlt, if_pos (e1.mpr hlt)]
      obtain ⟨a1, a2⟩ := div_of_row (w := w) (a := c + w) (y := c / w + 1) hx (by rw [Nat.mul_succ]; omega)
      simp only [Option.map_some, Option.some.injEq]
      rw [trCell, trCell, a1, a2]; omega
    · rw [if_neg hlt, if_neg (fun x => hlt (e1.mp x))]; rfl
  · -- left becomes up
    simp only [nbr, trDir]
    by_cases hlt : 0 < c % w
    · obtain ⟨x, hx'⟩ : ∃ x, c % w = x + 1 := ⟨c % w - 1, by omega⟩
      have e1 : h ≤ trCell w h c := by rw [trCell, hx', Nat.mul_succ]; omega
      rw [if_pos e1, if_pos hlt]
      obtain ⟨a1, a2⟩ := div_of_row (w := w) (a := c - 1) (x := x) (y := c / w) (by omega) (by omega)
      simp only [Option.map_some, Option.some.injEq]
      rw [trCell, trCell, a1, a2, hx', Nat.mul_succ]; omega
    · have e1 : ¬ h ≤ trCell w h c := by
        rw [trCell, show c % w = 0 by omega]; simp; omega
      rw [if_neg e1, if_neg hlt]; rfl
  · -- up becomes left
    simp only [nbr, trDir]
    rw [hm]
    by_cases hlt : 0 < c / w
    · obtain ⟨y, hy'⟩ : ∃ y, c / w = y + 1 := ⟨c / w - 1, by omega⟩
      have e1 : w ≤ c := by rw [hy', Nat.mul_succ] at hdm; omega
      rw [if_pos hlt, if_pos e1]
      obtain ⟨a1, a2⟩ := div_of_row (w := w) (a := c - w) (x := c % w) (y := y) hx (by
        rw [hy', Nat.mul_succ] at hdm; omega)
      simp only [Option.map_some, Option.some.injEq]
      rw [trCell, trCell, a1, a2, hy']; omega
    · have e1 : ¬ w ≤ c := by
        intro hle
        have := Nat.div_pos hle hw
        omega
      rw [if_neg hlt, if_neg e1]; rfl

theorem trGrid_length (g : List MazeNode) : (trGrid w h g).length = h * w := by simp [trGrid]

theorem trGrid_get {g : List MazeNode} (hg : g.length = w * h) {c : Nat} (hc : c < w * h) :
    (trGrid w h g)[trCell w h c]? = (g[c]?).map trNode := by
  have h1 := trCell_lt hc
  have hc' : c < g.length := hg ▸ hc
  simp [trGrid, h1, trCell_trCell hc, List.getElem?_eq_getElem hc']

theorem trGrid_trGrid {g : List MazeNode} (hg : g.length = w * h) : trGrid h w (trGrid w h g) = g := by
  refine List.ext_getElem? fun c => ?_
  by_cases hc : c < w * h
  · have h1 := trGrid_get (w := h) (h := w) (trGrid_length g) (trCell_lt hc)
    rw [trCell_trCell hc, trGrid_get hg hc] at h1
    rw [h1, Option.map_map]
    cases g[c]? <;> rfl
  · rw [List.getElem?_eq_none (by rw [trGrid_length]; omega), List.getElem?_eq_none (by omega)]

theorem openSide_length (g : List MazeNode) (c : Nat) (d : MazeDirection) : (openSide w g c d).length = g.length := by
  cases d <;> simp [openSide]

theorem modify_tr {g : List MazeNode} (hg : g.length = w * h) {c : Nat} (hc : c < w * h) (f f' : MazeNode → MazeNode)
    (hf : ∀ n, trNode (f n) = f' (trNode n)) :
    trGrid w h (g.modify c f) = (trGrid w h g).modify (trCell w h c) f' := by
  refine List.ext_getElem? fun x => ?_
  by_cases hx : x < h * w
  · have hy := trCell_lt hx
    have e := trGrid_get (g := g.modify c f) (by simpa using hg) hy
    have e' := trGrid_get (g := g) hg hy
    rw [trCell_trCell hx] at e e'
    rw [e, List.getElem?_modify, List.getElem?_modify, e']
    by_cases hcx : c = trCell h w x
    · subst hcx
      rw [trCell_trCell hx]
      cases g[trCell h w x]? <;> simp [hf]
    · have : trCell w h c ≠ x := by
        rintro rfl
        exact hcx (trCell_trCell hc).symm
      cases g[trCell h w x]? <;> simp [hcx, this]
  · rw [List.getElem?_eq_none (by rw [trGrid_length]; omega),
      List.getElem?_eq_none (by rw [List.length_modify, trGrid_length]; omega)]

theorem openSide_tr {g : List MazeNode} (hg : g.length = w * h) {c b : Nat} (hc : c < w * h) {d : MazeDirection}
    (hb : nbr w h c d = some b) : trGrid w h (openSide w g c d) = openSide h (trGrid w h g) (trCell w h c) (trDir d) := by
  have hbl := nbr_lt hc hb
  have ht := nbr_tr hc d
  rw [hb] at ht
  cases d
  · exact modify_tr hg hc _ _ fun n => rfl
  · exact modify_tr hg hc _ _ fun n => rfl
  · have e1 : b = c - 1 := by simp only [nbr] at hb; split at hb <;> simp at hb; exact hb.symm
    have e2 : trCell w h b = trCell w h c - h := by
      simp only [nbr, trDir] at ht; split at ht <;> simp at ht; exact ht.symm
    simp only [openSide, trDir, ← e1, ← e2]
    exact modify_tr hg hbl _ _ fun n => rfl
  · have e1 : b = c - w := by simp only [nbr] at hb; split at hb <;> simp at hb; exact hb.symm
    have e2 : trCell w h b = trCell w h c - 1 := by
      simp only [nbr, trDir] at ht; split at ht <;> simp at ht; exact ht.symm
    simp only [openSide, trDir, ← e1, ← e2]
    exact modify_tr hg hbl _ _ fun n => rfl

theorem Spec.Explores.tr {ord ord' : Nat → List MazeDirection} {c ds s t} (H : Explores w h ord c ds s t)
    (ho : ∀ x, x < w * h → ord' (trCell w h x) = (ord x).map trDir) (hc : c < w * h) (hg : s.2.length = w * h)
    (hV : ∀ x ∈ s.1, x < w * h) :
    Explores h w ord' (trCell w h c) (ds.map trDir) (s.1.map (trCell w h), trGrid w h s.2)
      (t.1.map (trCell w h), trGrid w h t.2) ∧ t.2.length = w * h ∧ ∀ x ∈ t.1, x < w * h := by
  induction H with
  | nil => exact ⟨.nil _ _, hg, hV⟩
  | @skip c d ds s t hb ht ih =>
    obtain ⟨h1, h2, h3⟩ := ih hc hg hV
    refine ⟨.skip ?_ h1, h2, h3⟩
    intro b hb'
    rw [nbr_tr hc] at hb'
    obtain ⟨a, ha, rfl⟩ := Option.map_eq_some_iff.mp hb'
    exact List.mem_map_of_mem (hb a ha)
  | @enter c d ds b s s1 t hb hn h1 ht ih1 ih2 =>
    have hbl := nbr_lt hc hb
    obtain ⟨a1, a2, a3⟩ := ih1 hbl (by simpa [openSide_length] using hg) (by
      intro x hx
      rcases List.mem_cons.mp hx with rfl | hx
      · exact hbl
      · exact hV x hx)
    obtain ⟨b1, b2, b3⟩ := ih2 hc a2 a3
    refine ⟨.enter (b := trCell w h b) ?_ ?_ ?_ b1, b2, b3⟩
    · rw [nbr_tr hc, hb]; rfl
    · intro hx
      obtain ⟨a, ha, he⟩ := List.mem_map.mp hx
      exact hn (trCell_inj (hV a ha) hbl he ▸ ha)
    · rw [ho b hbl]
      simp only [List.map_cons, openSide_tr hg hc hb] at a1
      exact a1

theorem trGrid_new : trGrid w h (List.replicate (w * h) MazeNode.new) = List.replicate (h * w) MazeNode.new := by
  refine List.ext_getElem (by simp [trGrid]) fun i h1 h2 => ?_
  have hi : i < h * w := by simpa using h2
  have := trCell_lt hi
  simp only [trGrid, List.getElem_map, List.getElem_range, List.getElem_replicate]
  rw [List.getElem?_replicate, if_pos this]
  rfl

theorem Spec.MadeBy.tr {ord ord' : Nat → List MazeDirection} {g : List MazeNode} (H : MadeBy w h ord g)
    (ho : ∀ x, x < w * h → ord' (trCell w h x) = (ord x).map trDir) (hpos : 0 < w * h) :
    MadeBy h w ord' (trGrid w h g) ∧ g.length = w * h := by
  obtain ⟨V, hV⟩ := H
  obtain ⟨h1, h2, _⟩ := hV.tr ho hpos (by simp) (by simpa using hpos)
  have h0 : trCell w h 0 = 0 := by simp [trCell]
  have hord := ho 0 hpos
  rw [h0] at hord
  rw [h0, ← hord, trGrid_new] at h1
  simp only [List.map_cons, List.map_nil, h0] at h1
  exact ⟨⟨_, h1⟩, h2⟩

theorem trDir_perm {l : List MazeDirection} (hl : l.Perm directions) : (l.map trDir).Perm directions :=
  (hl.map trDir).trans (by decide)

/-- The orders of the transposed maze. -/
def trOrders (f : Orders w h) : Orders h w := fun c =>
  ⟨(f ⟨trCell h w c, trCell_lt c.2⟩).1.map trDir, trDir_perm (f _).2⟩

theorem trOrders_at (f : Orders w h) {x : Nat} (hx : x < w * h) :
    (trOrders f).at (trCell w h x) = (f.at x).map trDir := by
  simp only [Orders.at, trCell_lt hx, hx, dif_pos, trOrders]
  congr 3
  exact Fin.ext (trCell_trCell hx)

theorem trOrders_trOrders (f : Orders w h) : trOrders (trOrders f) = f := by
  funext c
  refine Subtype.ext ?_
  simp only [trOrders, List.map_map]
  have : trDir ∘ trDir = id := funext trDir_trDir
  rw [this, List.map_id]
  congr 2
  exact Fin.ext (trCell_trCell c.2)

end Maze
