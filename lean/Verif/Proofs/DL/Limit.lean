import Verif.Model.DancingLimit
import Verif.Spec.Capacity
import Verif.Proofs.DL.NewAll

/-! Helper lemmas: `DancingMatrix::new` with large row numbers. -/
namespace DancingLinks
namespace Limit

/-- Every address below `n` but null is a live node. -/
def Live (h : Heap) (n : Nat) : Prop := ∀ p, 1 ≤ p → p < n → ∃ nd, h.mem p = .live nd

/-- What writing to memory keeps. -/
def Keeps (h h' : Heap) : Prop := h'.next = h.next ∧ ∀ p, (∃ nd, h.mem p = .live nd) → ∃ nd, h'.mem p = .live nd

theorem Keeps.refl (h : Heap) : Keeps h h := ⟨rfl, fun _ h => h⟩
theorem Keeps.trans {a b c : Heap} (h : Keeps a b) (h' : Keeps b c) : Keeps a c :=
  ⟨h'.1.trans h.1, fun p hp => h'.2 p (h.2 p hp)⟩

theorem keeps_write {h h' : Heap} {p : Nat} {n : Node} (e : h.write p n = .ok h') : Keeps h h' := by
  unfold Heap.write at e
  split at e
  all_goals first
    | (cases e; done)
    | obtain rfl := Prog.ok.inj e
      refine ⟨rfl, fun q hq => ?_⟩
      by_cases hqp : q = p
      · exact ⟨n, by simp [Heap.put, hqp]⟩
      · simpa [Heap.put, hqp] using hq

theorem write_live {h h' : Heap} {p : Nat} {n : Node} (e : h.write p n = .ok h') : ∃ nd, h'.mem p = .live nd := by
  unfold Heap.write at e
  split at e
  all_goals first
    | (cases e; done)
    | obtain rfl := Prog.ok.inj e
      exact ⟨n, by simp [Heap.put]⟩

theorem bind_ok {α β : Type} {x : Prog α} {f : α → Prog β} {b : β} (e : x >>= f = .ok b) : ∃ a, x = .ok a ∧ f a = .ok b := by
  cases x with
  | ok a => exact ⟨a, rfl, e⟩
  | panic => cases e
  | ub => cases e
  | diverge => cases e

theorem keeps_set {h h' : Heap} {p : Nat} {f : Node → Node} (e : (h.read p >>= fun n => h.write p (f n)) = .ok h') : Keeps h h' := by
  obtain ⟨n, _, e⟩ := bind_ok e
  exact keeps_write e

theorem keeps_alloc (h : Heap) (p : Nat) (hp : p ≠ h.next) : h.alloc.2.mem p = h.mem p := by simp [Heap.alloc, hp]

theorem live_step {h h1 h2 : Heap} {n : Nat} (hl : Live h h.next) (hm : ∀ p, p ≠ h.next → h1.mem p = h.mem p)
    (hn : h1.next = h.next + 1) (hk : Keeps h1 h2) (hp : ∃ nd, h2.mem h.next = .live nd) (e : n = h2.next) : Live h2 n := by
  subst e
  intro p h1' h2'
  rw [hk.1, hn] at h2'
  by_cases hpn : p = h.next
  · rw [hpn]; exact hp
  · exact hk.2 p (by rw [hm p hpn]; exact hl p h1' (by omega))

theorem new_live {h h' : Heap} {hd rp cp row p : Nat} (hl : Live h h.next) (e : Node.new h hd rp cp row = .ok (p, h')) :
    Live h' h'.next ∧ h'.next = h.next + 1 := by
  unfold Node.new at e
  simp only at e
  have tail : ∀ {n : Node} {k : Heap}, Keeps h.alloc.2 k → (k.write h.alloc.1 n >>= fun k' => pure (h.alloc.1, k')) = .ok (p, h') →
      Live h' h'.next ∧ h'.next = h.next + 1 := by
    intro n k hk e
    obtain ⟨h3, e3, e⟩ := bind_ok e
    obtain ⟨_, rfl⟩ := Prod.mk.inj (Prog.ok.inj e)
    have k' := hk.trans (keeps_write e3)
    exact ⟨live_step hl (keeps_alloc h) rfl k' (write_live e3) rfl, k'.1⟩
  split at e
  · obtain ⟨_, _, e⟩ := bind_ok e
    obtain ⟨_, _, e⟩ := bind_ok e
    obtain ⟨a, ea, e⟩ := bind_ok e
    obtain ⟨b, eb, e⟩ := bind_ok e
    obtain ⟨⟨_, _⟩, e', e⟩ := bind_ok e
    obtain ⟨_, rfl⟩ := Prod.mk.inj (Prog.ok.inj e')
    have k1 : Keeps h.alloc.2 b := (keeps_set ea).trans (keeps_set eb)
    simp only at e
    split at e
    · obtain ⟨_, _, e⟩ := bind_ok e
      obtain ⟨_, _, e⟩ := bind_ok e
      obtain ⟨c, ec, e⟩ := bind_ok e
      obtain ⟨d, ed, e⟩ := bind_ok e
      obtain ⟨⟨_, _⟩, e', e⟩ := bind_ok e
      obtain ⟨_, rfl⟩ := Prod.mk.inj (Prog.ok.inj e')
      exact tail ((k1.trans (keeps_set ec)).trans (keeps_set ed)) e
    · obtain ⟨⟨_, _⟩, e', e⟩ := bind_ok e
      obtain ⟨_, rfl⟩ := Prod.mk.inj (Prog.ok.inj e')
      exact tail k1 e
  · obtain ⟨⟨_, _⟩, e', e⟩ := bind_ok e
    obtain ⟨_, rfl⟩ := Prod.mk.inj (Prog.ok.inj e')
    simp only at e
    split at e
    · obtain ⟨_, _, e⟩ := bind_ok e
      obtain ⟨_, _, e⟩ := bind_ok e
      obtain ⟨c, ec, e⟩ := bind_ok e
      obtain ⟨d, ed, e⟩ := bind_ok e
      obtain ⟨⟨_, _⟩, e', e⟩ := bind_ok e
      obtain ⟨_, rfl⟩ := Prod.mk.inj (Prog.ok.inj e')
      exact tail ((keeps_set ec).trans (keeps_set ed)) e
    · obtain ⟨⟨_, _⟩, e', e⟩ := bind_ok e
      obtain ⟨_, rfl⟩ := Prod.mk.inj (Prog.ok.inj e')
      exact tail (.refl _) e

theorem newHeader_live {h h' : Heap} {pv n p : Nat} (hl : Live h h.next) (e : Node.newHeader h pv n = .ok (p, h')) :
    Live h' h'.next ∧ h'.next = h.next + 1 := by
  unfold Node.newHeader at e
  simp only at e
  have tail : ∀ {n : Node} {k : Heap}, Keeps h.alloc.2 k → (k.write h.alloc.1 n >>= fun k' => pure (h.alloc.1, k')) = .ok (p, h') →
      Live h' h'.next ∧ h'.next = h.next + 1 := by
    intro n k hk e
    obtain ⟨h3, e3, e⟩ := bind_ok e
    obtain ⟨_, rfl⟩ := Prod.mk.inj (Prog.ok.inj e)
    have k' := hk.trans (keeps_write e3)
    exact ⟨live_step hl (keeps_alloc h) rfl k' (write_live e3) rfl, k'.1⟩
  split at e
  · obtain ⟨_, _, e⟩ := bind_ok e
    obtain ⟨_, _, e⟩ := bind_ok e
    obtain ⟨a, ea, e⟩ := bind_ok e
    obtain ⟨b, eb, e⟩ := bind_ok e
    obtain ⟨⟨_, _⟩, e', e⟩ := bind_ok e
    obtain ⟨_, rfl⟩ := Prod.mk.inj (Prog.ok.inj e')
    exact tail ((keeps_set ea).trans (keeps_set eb)) e
  · obtain ⟨⟨_, _⟩, e', e⟩ := bind_ok e
    obtain ⟨_, rfl⟩ := Prod.mk.inj (Prog.ok.inj e')
    exact tail (.refl _) e

/-- The bytes of a `usize` on the targets Rust has. -/
def Word (ws : Nat) : Prop := ws = 2 ∨ ws = 4 ∨ ws = 8

/-- The vector is within its capacity, which is within the limit. -/
def Fine (ws : Nat) (v : RowVec) : Prop := v.items.length ≤ v.cap ∧ v.cap * ws < 2 ^ (8 * ws - 1)

/-- The vector after growing, if all goes well. -/
def grown (rows : List Nat) (index : Nat) : List Nat :=
  if index ≥ rows.length then rows ++ List.replicate (index + 1 - rows.length) 0 else rows

/-- Arithmetic for each of the three sizes. -/
local macro "word" h:ident : tactic => `(tactic| (rcases $h:ident with h | h | h <;> subst h <;> simp only [Nat.reduceMul, Nat.reduceSub] at * <;> omega))

theorem capacity_le (c i : Nat) : c ≤ Capacity.grow c i ∧ i + 1 ≤ Capacity.grow c i := by
  unfold Capacity.grow; split <;> omega

theorem capacity_foldl (l : List Nat) (c : Nat) : c ≤ l.foldl Capacity.grow c ∧ ∀ i ∈ l, i + 1 ≤ l.foldl Capacity.grow c := by
  induction l generalizing c with
  | nil => simp
  | cons a l ih =>
    obtain ⟨h1, h2⟩ := ih (Capacity.grow c a)
    have h3 := capacity_le c a
    refine ⟨Nat.le_trans h3.1 h1, ?_⟩
    intro i hi
    rcases List.mem_cons.mp hi with rfl | hi
    · exact Nat.le_trans h3.2 h1
    · exact h2 i hi

theorem capacity_small {ws : Nat} (hws : Word ws) (l : List Nat) {c : Nat} (hc : c * ws < 2 ^ (8 * ws - 1))
    (hl : ∀ i ∈ l, i * (2 * ws) < 2 ^ (8 * ws - 1)) : l.foldl Capacity.grow c * ws < 2 ^ (8 * ws - 1) := by
  induction l generalizing c with
  | nil => exact hc
  | cons a l ih =>
    refine ih ?_ fun i hi => hl i (by simp [hi])
    have ha := hl a (by simp)
    unfold Capacity.grow
    split
    · exact hc
    · word hws

theorem grow_cases {ws : Nat} (hws : Word ws) (oc : Bool) {v : RowVec} (hv : Fine ws v) {index : Nat} (hi : index < 2 ^ (8 * ws)) :
    (v.grow ws oc index = none ∨ ∃ v', v.grow ws oc index = some v' ∧ v'.items[index]? = none) ∧ 2 ^ (8 * ws - 1) ≤ Capacity.grow v.cap index * ws ∨
    ∃ v', v.grow ws oc index = some v' ∧ v'.items = grown v.items index ∧ Fine ws v' ∧ v'.cap = Capacity.grow v.cap index := by
  obtain ⟨h1, h2⟩ := hv
  unfold RowVec.grow
  by_cases hlen : index ≥ v.items.length
  · rw [if_pos hlen]
    by_cases hw : index + 1 < 2 ^ (8 * ws)
    · rw [if_pos hw, RowVec.resize, if_neg (by word hws)]
      have hg : grown v.items index = v.items ++ List.replicate (index + 1 - v.items.length) 0 := by rw [grown, if_pos hlen]
      by_cases hc : index + 1 ≤ v.cap
      · rw [if_pos hc]
        refine .inr ⟨_, rfl, hg.symm, ⟨?_, h2⟩, by simp [Capacity.grow, hc]⟩
        simp; omega
      · rw [if_neg hc]
        by_cases hm : max (max (2 * v.cap) (index + 1)) 4 * ws < 2 ^ (8 * ws - 1)
        · rw [if_pos hm]
          refine .inr ⟨_, rfl, hg.symm, ⟨?_, hm⟩, by rw [Capacity.grow, if_neg hc]⟩
          simp; omega
        · rw [if_neg hm]
          exact .inl ⟨.inl rfl, by rw [Capacity.grow, if_neg hc]; omega⟩
    · rw [if_neg hw]
      refine .inl ⟨?_, by have := (capacity_le v.cap index).2; word hws⟩
      cases oc with
      | true => exact .inl rfl
      | false =>
        right
        rw [if_neg (by decide), show (index + 1) % 2 ^ (8 * ws) = 0 by word hws, RowVec.resize, if_pos (by word hws)]
        exact ⟨_, rfl, by simp⟩
  · rw [if_neg hlen]
    refine .inr ⟨v, rfl, by rw [grown, if_neg hlen], ⟨h1, h2⟩, by rw [Capacity.grow, if_pos (by omega)]⟩

/-- One cell: unwinding, or what the main model does. -/
theorem cell_cases {ws : Nat} (hws : Word ws) (oc : Bool) {hd : Nat} {h : Heap} {v : RowVec} {c index : Nat} (hl : Live h h.next) (hv : Fine ws v)
    (hi : index < 2 ^ (8 * ws)) {s : Heap × List Nat × Nat} (e : newCell hd (h, v.items, c) index = .ok s) :
    newCellL ws oc hd (h, v, c) index = .ok (.error h) ∧ 2 ^ (8 * ws - 1) ≤ Capacity.grow v.cap index * ws ∨
    ∃ v', newCellL ws oc hd (h, v, c) index = .ok (.ok (s.1, v', s.2.2)) ∧ v'.items = s.2.1 ∧ Fine ws v' ∧ Live s.1 s.1.next ∧
      s.1.next = h.next + 1 ∧ v'.cap = Capacity.grow v.cap index := by
  unfold newCellL
  rcases grow_cases hws oc hv hi with ⟨h1 | ⟨v', h1, h2⟩, hb⟩ | ⟨v', h1, h2, h3, h4⟩
  · exact .inl ⟨by simp only [h1], hb⟩
  · exact .inl ⟨by simp only [h1, h2], hb⟩
  · right
    unfold newCell at e
    simp only at e
    change (getP (grown v.items index) index >>= _) = _ at e
    obtain ⟨rp, e1, e⟩ := bind_ok e
    obtain ⟨⟨p, h'⟩, e2, e⟩ := bind_ok e
    obtain ⟨rows, e3, e⟩ := bind_ok e
    obtain rfl := Prog.ok.inj e
    have hget : v'.items[index]? = some rp := by
      rw [h2]
      unfold getP at e1
      split at e1
      · rename_i a ha; rw [ha, Prog.ok.inj e1]
      · cases e1
    have hset : setP v'.items index p = .ok rows := by
      rw [h2]; exact e3
    have hlen : rows.length = v'.items.length := by
      unfold setP at hset
      split at hset
      · rw [← Prog.ok.inj hset]; simp
      · cases hset
    obtain ⟨hl', hn⟩ := new_live hl e2
    refine ⟨{ v' with items := rows }, ?_, rfl, ⟨by simp only [hlen]; exact h3.1, h3.2⟩, hl', hn, h4⟩
    simp only [h1, hget, e2, Prog.ok_bind, hset]
    rfl

theorem cells_cases {ws : Nat} (hws : Word ws) (oc : Bool) {hd : Nat} (l : List Nat) (hi : ∀ i ∈ l, i < 2 ^ (8 * ws)) {h : Heap} {v : RowVec} {c : Nat}
    (hl : Live h h.next) (hv : Fine ws v) {s : Heap × List Nat × Nat} (e : forIn' l (h, v.items, c) (newCell hd) = .ok s) :
    (∃ h', forUnwind l (h, v, c) (newCellL ws oc hd) = .ok (.error h') ∧ Live h' h'.next ∧ h.next ≤ h'.next ∧ 2 ^ (8 * ws - 1) ≤ l.foldl Capacity.grow v.cap * ws) ∨
    ∃ v', forUnwind l (h, v, c) (newCellL ws oc hd) = .ok (.ok (s.1, v', s.2.2)) ∧ v'.items = s.2.1 ∧ Fine ws v' ∧
      Live s.1 s.1.next ∧ s.1.next = h.next + l.length ∧ v'.cap = l.foldl Capacity.grow v.cap := by
  induction l generalizing h v c with
  | nil =>
    obtain rfl := Prog.ok.inj e
    exact .inr ⟨v, rfl, rfl, hv, hl, rfl, by simp⟩
  | cons i l ih =>
    rw [forIn'_cons] at e
    obtain ⟨⟨h1, rows1, c1⟩, e1, e⟩ := bind_ok e
    rcases cell_cases hws oc hl hv (hi i (by simp)) e1 with ⟨he, hb⟩ | ⟨v', he, h2, h3, h4, h5, h6⟩
    · exact .inl ⟨h, by rw [forUnwind, he]; rfl, hl, Nat.le_refl _,
        Nat.le_trans hb (Nat.mul_le_mul_right ws (capacity_foldl l (Capacity.grow v.cap i)).1)⟩
    · simp only at he h2 h4 h5
      subst h2
      have hx : forUnwind (i :: l) (h, v, c) (newCellL ws oc hd) = forUnwind l (h1, v', c1) (newCellL ws oc hd) := by
        rw [forUnwind, he]; rfl
      rw [hx]
      rcases ih (fun j hj => hi j (by simp [hj])) h4 h3 e with ⟨h', a1, a2, a3, a4⟩ | ⟨w, a1, a2, a3, a4, a5, a6⟩
      · exact .inl ⟨h', a1, a2, by omega, by rw [List.foldl_cons, ← h6]; exact a4⟩
      · exact .inr ⟨w, a1, a2, a3, a4, by rw [List.length_cons]; omega, by rw [List.foldl_cons, ← h6]; exact a6⟩

theorem column_cases {ws : Nat} (hws : Word ws) (oc : Bool) (l : List Nat) (hi : ∀ i ∈ l, i < 2 ^ (8 * ws)) {h : Heap} {v : RowVec} {c : Nat}
    (hl : Live h h.next) (hv : Fine ws v) {s : Heap × List Nat × Nat} (e : newColumn (h, v.items, c) l = .ok s) :
    (∃ h', newColumnL ws oc (h, v, c) l = .ok (.error h') ∧ Live h' h'.next ∧ h.next < h'.next ∧ 2 ^ (8 * ws - 1) ≤ l.foldl Capacity.grow v.cap * ws) ∨
    ∃ v', newColumnL ws oc (h, v, c) l = .ok (.ok (s.1, v', s.2.2)) ∧ v'.items = s.2.1 ∧ Fine ws v' ∧
      Live s.1 s.1.next ∧ s.1.next = h.next + 1 + l.length ∧ v'.cap = l.foldl Capacity.grow v.cap := by
  unfold newColumn at e
  simp only at e
  obtain ⟨⟨p, h1⟩, e1, e⟩ := bind_ok e
  obtain ⟨⟨h2, rows2, c2⟩, e2, e⟩ := bind_ok e
  obtain rfl := Prog.ok.inj e
  obtain ⟨hl1, hn1⟩ := newHeader_live hl e1
  unfold newColumnL
  simp only [e1, Prog.ok_bind]
  rcases cells_cases hws oc l hi hl1 hv e2 with ⟨h', a1, a2, a3, a4⟩ | ⟨w, a1, a2, a3, a4, a5, a6⟩
  · exact .inl ⟨h', by rw [a1]; rfl, a2, by omega, a4⟩
  · simp only at a1 a2 a4 a5
    exact .inr ⟨w, by rw [a1]; rfl, a2, a3, a4, by show h2.next = _; omega, a6⟩

theorem columns_cases {ws : Nat} (hws : Word ws) (oc : Bool) (cs : List (List Nat)) (hi : ∀ l ∈ cs, ∀ i ∈ l, i < 2 ^ (8 * ws)) {h : Heap} {v : RowVec} {c : Nat}
    (hl : Live h h.next) (hv : Fine ws v) {s : Heap × List Nat × Nat} (e : forIn' cs (h, v.items, c) newColumn = .ok s) :
    (∃ h', forUnwind cs (h, v, c) (newColumnL ws oc) = .ok (.error h') ∧ Live h' h'.next ∧ h.next < h'.next ∧
      2 ^ (8 * ws - 1) ≤ cs.flatten.foldl Capacity.grow v.cap * ws) ∨
    ∃ v', forUnwind cs (h, v, c) (newColumnL ws oc) = .ok (.ok (s.1, v', s.2.2)) ∧ v'.items = s.2.1 ∧ Fine ws v' ∧
      Live s.1 s.1.next ∧ s.1.next = h.next + cs.length + cs.flatten.length ∧ v'.cap = cs.flatten.foldl Capacity.grow v.cap := by
  induction cs generalizing h v c with
  | nil =>
    obtain rfl := Prog.ok.inj e
    exact .inr ⟨v, rfl, rfl, hv, hl, rfl, by simp⟩
  | cons l cs ih =>
    rw [forIn'_cons] at e
    obtain ⟨⟨h1, rows1, c1⟩, e1, e⟩ := bind_ok e
    rcases column_cases hws oc l (hi l (by simp)) hl hv e1 with ⟨h', a1, a2, a3, a4⟩ | ⟨v', he, h2, h3, h4, h5, h6⟩
    · exact .inl ⟨h', by rw [forUnwind, a1]; rfl, a2, a3,
        Nat.le_trans a4 (Nat.mul_le_mul_right ws (by rw [List.flatten_cons, List.foldl_append]; exact (capacity_foldl _ _).1))⟩
    · simp only at he h2 h4 h5
      subst h2
      have hx : forUnwind (l :: cs) (h, v, c) (newColumnL ws oc) = forUnwind cs (h1, v', c1) (newColumnL ws oc) := by
        rw [forUnwind, he]; rfl
      rw [hx]
      rcases ih (fun j hj => hi j (by simp [hj])) h4 h3 e with ⟨h', a1, a2, a3, a4⟩ | ⟨w, a1, a2, a3, a4, a5, a6⟩
      · exact .inl ⟨h', a1, a2, by omega, by rw [List.flatten_cons, List.foldl_append, ← h6]; exact a4⟩
      · refine .inr ⟨w, a1, a2, a3, a4, ?_, by rw [List.flatten_cons, List.foldl_append, ← h6]; exact a6⟩
        rw [List.length_cons, List.flatten_cons, List.length_append]
        omega

/-- `new`: unwinding with all nodes still allocated, or what the main model does. -/
theorem new_cases {ws : Nat} (hws : Word ws) (oc : Bool) (cs : List (List Nat)) (hi : ∀ l ∈ cs, ∀ i ∈ l, i < 2 ^ (8 * ws)) :
    (∃ h, Matrix.newL ws oc Heap.empty cs = .ok (.error h) ∧ Live h h.next ∧ 2 < h.next ∧ 2 ^ (8 * ws - 1) ≤ Capacity.after cs.flatten * ws) ∨
    ∃ r, Matrix.new Heap.empty cs = .ok r ∧ Matrix.newL ws oc Heap.empty cs = .ok (.ok r) ∧
      Capacity.after cs.flatten * ws < 2 ^ (8 * ws - 1) := by
  obtain ⟨m, h, e, _⟩ := new_all cs
  have e' := e
  unfold Matrix.new at e
  simp only at e
  obtain ⟨⟨root, h1⟩, e1, e⟩ := bind_ok e
  obtain ⟨⟨h2, rows, c⟩, e2, e⟩ := bind_ok e
  obtain ⟨rfl, rfl⟩ := Prod.mk.inj (Prog.ok.inj e)
  obtain ⟨hl1, hn1⟩ := newHeader_live (h := Heap.empty) (fun p hp hp' => by simp [Heap.empty] at hp'; omega) e1
  have hn : h1.next = 2 := hn1
  rcases columns_cases hws oc cs hi (v := ⟨[], 0⟩) hl1 ⟨by simp, by simpa using Nat.two_pow_pos _⟩ e2 with ⟨h', a1, a2, a3, a4⟩ | ⟨w, a1, a2, a3, _, _, a6⟩
  · refine .inl ⟨h', ?_, a2, by omega, a4⟩
    unfold Matrix.newL
    simp only [e1, Prog.ok_bind, a1]
    rfl
  · refine .inr ⟨_, e', ?_, by have := a3.2; rw [a6] at this; exact this⟩
    unfold Matrix.newL
    simp only at a1 a2
    simp only [e1, Prog.ok_bind, a1, a2]
    rfl

theorem forUnwind_append {σ α : Type} (xs ys : List α) (s s' : σ) (body : σ → α → Prog (Except Heap σ))
    (e : forUnwind xs s body = .ok (.ok s')) : forUnwind (xs ++ ys) s body = forUnwind ys s' body := by
  induction xs generalizing s with
  | nil => cases e; rfl
  | cons x xs ih =>
    rw [forUnwind] at e
    obtain ⟨r, e1, e⟩ := bind_ok e
    cases r with
    | error h => cases e
    | ok s1 =>
      simp only at e
      rw [List.cons_append, forUnwind, e1]
      exact ih s1 e

/-- `new` where the vector first grows too large for the row number `i`, in the column after `pre` and after the cells `p`. -/
theorem new_leak {ws : Nat} (hws : Word ws) (oc : Bool) (pre : List (List Nat)) (p : List Nat) (i : Nat) (q : List Nat) (post : List (List Nat))
    (hu : ∀ l ∈ pre, ∀ j ∈ l, j < 2 ^ (8 * ws)) (hu' : ∀ j ∈ p, j < 2 ^ (8 * ws)) (hi' : i < 2 ^ (8 * ws))
    (hp : Capacity.after (pre.flatten ++ p) * ws < 2 ^ (8 * ws - 1))
    (hi : 2 ^ (8 * ws - 1) ≤ Capacity.after (pre.flatten ++ p ++ [i]) * ws) :
    ∃ h, Matrix.newL ws oc Heap.empty (pre ++ (p ++ i :: q) :: post) = .ok (.error h) ∧ Live h h.next ∧
      h.next = 3 + pre.length + pre.flatten.length + p.length := by
  obtain ⟨m, h, e, _⟩ := new_all (pre ++ (p ++ i :: q) :: post)
  unfold Matrix.new at e
  simp only at e
  obtain ⟨⟨root, h1⟩, e1, e⟩ := bind_ok e
  obtain ⟨_, e2, -⟩ := bind_ok e
  obtain ⟨hl1, hn1⟩ := newHeader_live (h := Heap.empty) (fun p hp hp' => by simp [Heap.empty] at hp'; omega) e1
  have hn : h1.next = 2 := hn1
  rw [forIn'_append] at e2
  obtain ⟨⟨h2, rows2, c2⟩, e2, e3⟩ := bind_ok e2
  rw [forIn'_cons] at e3
  obtain ⟨_, e3, -⟩ := bind_ok e3
  rcases columns_cases hws oc pre hu (v := ⟨[], 0⟩) hl1 ⟨by simp, by simpa using Nat.two_pow_pos _⟩ e2 with
    ⟨_, _, _, _, a⟩ | ⟨w, a1, a2, a3, a4, a5, a6⟩
  · rw [Capacity.after, List.foldl_append] at hp
    have := Nat.mul_le_mul_right ws (capacity_foldl p (pre.flatten.foldl Capacity.grow 0)).1
    simp only at a
    omega
  simp only at a1 a2 a4 a5
  subst a2
  unfold newColumn at e3
  simp only at e3
  obtain ⟨⟨hd, h3⟩, e4, e3⟩ := bind_ok e3
  obtain ⟨_, e5, -⟩ := bind_ok e3
  obtain ⟨hl3, hn3⟩ := newHeader_live a4 e4
  rw [forIn'_append] at e5
  obtain ⟨⟨h4, rows4, c4⟩, e5, e6⟩ := bind_ok e5
  rw [forIn'_cons] at e6
  obtain ⟨_, e6, -⟩ := bind_ok e6
  rcases cells_cases hws oc p hu' hl3 a3 e5 with ⟨_, _, _, _, a⟩ | ⟨x, b1, b2, b3, b4, b5, b6⟩
  · rw [Capacity.after, List.foldl_append] at hp
    rw [a6] at a
    simp only at a
    omega
  simp only at b1 b2 b4 b5
  subst b2
  rcases cell_cases hws oc b4 b3 hi' e6 with ⟨d1, _⟩ | ⟨y, _, _, d2, _, _, d⟩
  · refine ⟨h4, ?_, b4, by omega⟩
    unfold Matrix.newL
    simp only [e1, Prog.ok_bind]
    rw [forUnwind_append _ _ _ _ _ a1, forUnwind]
    unfold newColumnL
    simp only [e4, Prog.ok_bind]
    rw [forUnwind_append _ _ _ _ _ b1, forUnwind, d1]
    rfl
  · rw [Capacity.after, List.foldl_append, List.foldl_append] at hi
    rw [b6, a6] at d
    have := d2.2
    rw [d] at this
    simp only [List.foldl_cons, List.foldl_nil] at hi this
    omega

end Limit
end DancingLinks
