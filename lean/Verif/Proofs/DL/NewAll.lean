import Verif.Model.DancingLinks

/-! `DancingMatrix::new` is memory-safe for every list of constraints, repetitions included. -/
namespace DancingLinks

/-- All cells below `k` are live; their horizontal links are at most `a`, their vertical ones at most `b`. -/
def Linked (h : Heap) (k a b : Nat) : Prop :=
  ∀ p, 1 ≤ p → p < k → ∃ n, h.mem p = .live n ∧ (1 ≤ n.left ∧ n.left ≤ a) ∧ (1 ≤ n.right ∧ n.right ≤ a) ∧
    (1 ≤ n.up ∧ n.up ≤ b) ∧ (1 ≤ n.down ∧ n.down ≤ b)

theorem Linked.mono {h : Heap} {k a b a' b' : Nat} (H : Linked h k a b) (ha : a ≤ a') (hb : b ≤ b') :
    Linked h k a' b' := by
  intro p h1 h2
  obtain ⟨n, e, l, r, u, d⟩ := H p h1 h2
  exact ⟨n, e, by omega, by omega, by omega, by omega⟩

theorem Linked.put {h : Heap} {k a b p : Nat} {n : Node} (H : Linked h k a b)
    (hn : (1 ≤ n.left ∧ n.left ≤ a) ∧ (1 ≤ n.right ∧ n.right ≤ a) ∧
      (1 ≤ n.up ∧ n.up ≤ b) ∧ (1 ≤ n.down ∧ n.down ≤ b)) : Linked (h.put p (.live n)) k a b := by
  intro q h1 h2
  by_cases hq : q = p
  · exact ⟨n, by simp [Heap.put, hq], hn⟩
  · obtain ⟨n', e, r⟩ := H q h1 h2
    exact ⟨n', by simp [Heap.put, hq, e], r⟩

/-- What the four assignments to links leave: the bounds, the cell being made, the allocator. -/
def Stays (h : Heap) (k a b : Nat) (h' : Heap) : Prop := Linked h' k a b ∧ h'.mem k = h.mem k ∧ h'.next = h.next

variable {h : Heap} {k a b p v : Nat}

theorem read_linked (H : Linked h k a b) (hp : 1 ≤ p) (hk : p < k) :
    ∃ n, h.read p = .ok n ∧ (1 ≤ n.left ∧ n.left ≤ a) ∧ (1 ≤ n.right ∧ n.right ≤ a) ∧
      (1 ≤ n.up ∧ n.up ≤ b) ∧ (1 ≤ n.down ∧ n.down ≤ b) := by
  obtain ⟨n, e, r⟩ := H p hp hk
  exact ⟨n, by simp [Heap.read, e], r⟩

theorem write_linked (H : Linked h k a b) (hp : 1 ≤ p) (hk : p < k) {n : Node}
    (hn : (1 ≤ n.left ∧ n.left ≤ a) ∧ (1 ≤ n.right ∧ n.right ≤ a) ∧
      (1 ≤ n.up ∧ n.up ≤ b) ∧ (1 ≤ n.down ∧ n.down ≤ b)) : ∃ h', h.write p n = .ok h' ∧ Stays h k a b h' := by
  obtain ⟨n', e, _⟩ := H p hp hk
  exact ⟨h.put p (.live n), by simp [Heap.write, e], H.put hn, by simp [Heap.put, show ¬ k = p by omega], rfl⟩

theorem setLeft_linked (H : Linked h k a b) (hp : 1 ≤ p) (hk : p < k) (hv : 1 ≤ v ∧ v ≤ a) :
    ∃ h', h.setLeft p v = .ok h' ∧ Stays h k a b h' := by
  obtain ⟨n, e, l, r, u, d⟩ := read_linked H hp hk
  simp only [Heap.setLeft, e, Prog.ok_bind]
  exact write_linked H hp hk ⟨hv, r, u, d⟩

theorem setRight_linked (H : Linked h k a b) (hp : 1 ≤ p) (hk : p < k) (hv : 1 ≤ v ∧ v ≤ a) :
    ∃ h', h.setRight p v = .ok h' ∧ Stays h k a b h' := by
  obtain ⟨n, e, l, r, u, d⟩ := read_linked H hp hk
  simp only [Heap.setRight, e, Prog.ok_bind]
  exact write_linked H hp hk ⟨l, hv, u, d⟩

theorem setUp_linked (H : Linked h k a b) (hp : 1 ≤ p) (hk : p < k) (hv : 1 ≤ v ∧ v ≤ b) :
    ∃ h', h.setUp p v = .ok h' ∧ Stays h k a b h' := by
  obtain ⟨n, e, l, r, u, d⟩ := read_linked H hp hk
  simp only [Heap.setUp, e, Prog.ok_bind]
  exact write_linked H hp hk ⟨l, r, hv, d⟩

theorem setDown_linked (H : Linked h k a b) (hp : 1 ≤ p) (hk : p < k) (hv : 1 ≤ v ∧ v ≤ b) :
    ∃ h', h.setDown p v = .ok h' ∧ Stays h k a b h' := by
  obtain ⟨n, e, l, r, u, d⟩ := read_linked H hp hk
  simp only [Heap.setDown, e, Prog.ok_bind]
  exact write_linked H hp hk ⟨l, r, u, hv⟩

/-- Every allocated cell is live and its links lead to allocated cells. -/
def Whole (h : Heap) : Prop := 1 ≤ h.next ∧ Linked h h.next (h.next - 1) (h.next - 1)

theorem finish_whole (H : Linked h k k k) (hu : h.mem k = .uninit) (hnext : h.next = k + 1) {n : Node}
    (hn : (1 ≤ n.left ∧ n.left ≤ k) ∧ (1 ≤ n.right ∧ n.right ≤ k) ∧
      (1 ≤ n.up ∧ n.up ≤ k) ∧ (1 ≤ n.down ∧ n.down ≤ k)) :
    ∃ h', h.write k n = .ok h' ∧ Whole h' ∧ h'.next = k + 1 := by
  refine ⟨h.put k (.live n), by simp [Heap.write, hu], ⟨by simp [Heap.put, hnext], ?_⟩, hnext⟩
  have hput : (h.put k (.live n)).next = k + 1 := hnext
  rw [hput, Nat.add_sub_cancel]
  intro q h1 h2
  by_cases hq : q = k
  · exact ⟨n, by simp [Heap.put, hq], hn⟩
  · exact H.put hn q h1 (by omega)

theorem alloc_linked (H : Whole h) : h.alloc.1 = h.next ∧ h.alloc.2.next = h.next + 1 ∧
    h.alloc.2.mem h.next = .uninit ∧ Linked h.alloc.2 h.next (h.next - 1) (h.next - 1) := by
  refine ⟨rfl, rfl, by simp [Heap.alloc], ?_⟩
  intro q h1 h2
  obtain ⟨n, e, r⟩ := H.2 q h1 h2
  exact ⟨n, by simp [Heap.alloc, show ¬ q = h.next by omega, e], r⟩

theorem row_part {g : Heap} {rp : Nat} (H : Linked g k a b) (hk : 1 ≤ k) (ha : a < k) (h0 : rp ≠ 0) (hr : rp < k) :
    ∃ n g1 g2, g.read rp = .ok n ∧ g.setLeft n.right k = .ok g1 ∧ g1.setRight rp k = .ok g2 ∧
      Stays g k k b g2 ∧ 1 ≤ n.right ∧ n.right ≤ k := by
  obtain ⟨n, e, l, r, u, d⟩ := read_linked H (p := rp) (by omega) hr
  obtain ⟨g1, e1, s1, s2, s3⟩ := setLeft_linked (H.mono (a' := k) (by omega) (Nat.le_refl _)) (p := n.right)
    (v := k) (by omega) (by omega) ⟨hk, Nat.le_refl _⟩
  obtain ⟨g2, e2, t1, t2, t3⟩ := setRight_linked s1 (p := rp) (v := k) (by omega) hr ⟨hk, Nat.le_refl _⟩
  exact ⟨n, g1, g2, e, e1, e2, ⟨t1, t2.trans s2, t3.trans s3⟩, by omega, by omega⟩

theorem col_part {g : Heap} {cp : Nat} (H : Linked g k a b) (hk : 1 ≤ k) (hb : b < k) (h0 : cp ≠ 0) (hr : cp < k) :
    ∃ n g1 g2, g.read cp = .ok n ∧ g.setUp n.down k = .ok g1 ∧ g1.setDown cp k = .ok g2 ∧
      Stays g k a k g2 ∧ 1 ≤ n.down ∧ n.down ≤ k := by
  obtain ⟨n, e, l, r, u, d⟩ := read_linked H (p := cp) (by omega) hr
  obtain ⟨g1, e1, s1, s2, s3⟩ := setUp_linked (H.mono (b' := k) (Nat.le_refl _) (by omega)) (p := n.down)
    (v := k) (by omega) (by omega) ⟨hk, Nat.le_refl _⟩
  obtain ⟨g2, e2, t1, t2, t3⟩ := setDown_linked s1 (p := cp) (v := k) (by omega) hr ⟨hk, Nat.le_refl _⟩
  exact ⟨n, g1, g2, e, e1, e2, ⟨t1, t2.trans s2, t3.trans s3⟩, by omega, by omega⟩

theorem node_new_whole (H : Whole h) {hd rp cp row : Nat} (hr : rp < h.next) (hc : cp < h.next) :
    ∃ h', Node.new h hd rp cp row = .ok (h.next, h') ∧ Whole h' ∧ h'.next = h.next + 1 := by
  obtain ⟨_, a1, a2, a3⟩ := alloc_linked H
  have hk := H.1
  unfold Node.new
  simp only [show h.alloc.1 = h.next from rfl]
  generalize h.alloc.2 = g at a1 a2 a3
  generalize h.next = k at *
  by_cases h0 : rp = 0
  · by_cases h1 : cp = 0
    · obtain ⟨g3, e3, d1, d2⟩ := finish_whole (n := ⟨hd, k, k, k, k, row⟩) (a3.mono (by omega) (by omega)) a2 a1
        ⟨⟨hk, Nat.le_refl _⟩, ⟨hk, Nat.le_refl _⟩, ⟨hk, Nat.le_refl _⟩, ⟨hk, Nat.le_refl _⟩⟩
      simp only [ne_eq, h0, h1, not_true_eq_false, if_false, Prog.pure_eq, Prog.ok_bind, e3]
      exact ⟨g3, rfl, d1, d2⟩
    · obtain ⟨n, g1, g2, e, e1, e2, ⟨s1, s2, s3⟩, v⟩ := col_part a3 hk (by omega) h1 hc
      obtain ⟨g3, e3, d1, d2⟩ := finish_whole (n := ⟨hd, k, k, cp, n.down, row⟩) (s1.mono (by omega) (by omega))
        (s2.trans a2) (s3.trans a1) ⟨⟨hk, Nat.le_refl _⟩, ⟨hk, Nat.le_refl _⟩, by simp only; omega, v⟩
      simp only [ne_eq, h0, h1, not_true_eq_false, not_false_eq_true, if_false, if_true, Prog.pure_eq, Prog.ok_bind,
        e, e1, e2, e3]
      exact ⟨g3, rfl, d1, d2⟩
  · obtain ⟨n, g1, g2, e, e1, e2, ⟨s1, s2, s3⟩, v⟩ := row_part a3 hk (by omega) h0 hr
    by_cases h1 : cp = 0
    · obtain ⟨g3, e3, d1, d2⟩ := finish_whole (n := ⟨hd, rp, n.right, k, k, row⟩) (s1.mono (by omega) (by omega))
        (s2.trans a2) (s3.trans a1) ⟨by simp only; omega, v, ⟨hk, Nat.le_refl _⟩, ⟨hk, Nat.le_refl _⟩⟩
      simp only [ne_eq, h0, h1, not_true_eq_false, not_false_eq_true, if_false, if_true, Prog.pure_eq, Prog.ok_bind,
        e, e1, e2, e3]
      exact ⟨g3, rfl, d1, d2⟩
    · obtain ⟨n', g1', g2', e', e1', e2', ⟨s1', s2', s3'⟩, v'⟩ := col_part s1 hk (by omega) h1 hc
      obtain ⟨g3, e3, d1, d2⟩ := finish_whole (n := ⟨hd, rp, n.right, cp, n'.down, row⟩) s1'
        (s2'.trans (s2.trans a2)) (s3'.trans (s3.trans a1)) ⟨by simp only; omega, v, by simp only; omega, v'⟩
      simp only [ne_eq, h0, h1, not_false_eq_true, if_true, Prog.pure_eq, Prog.ok_bind, e, e1, e2, e', e1', e2', e3]
      exact ⟨g3, rfl, d1, d2⟩

theorem newHeader_whole (H : Whole h) {pv num : Nat} (hr : pv < h.next) :
    ∃ h', Node.newHeader h pv num = .ok (h.next, h') ∧ Whole h' ∧ h'.next = h.next + 1 := by
  obtain ⟨_, a1, a2, a3⟩ := alloc_linked H
  have hk := H.1
  unfold Node.newHeader
  simp only [show h.alloc.1 = h.next from rfl]
  generalize h.alloc.2 = g at a1 a2 a3
  generalize h.next = k at *
  by_cases h0 : pv = 0
  · obtain ⟨g3, e3, d1, d2⟩ := finish_whole (n := ⟨0, k, k, k, k, num⟩) (a3.mono (by omega) (by omega)) a2 a1
      ⟨⟨hk, Nat.le_refl _⟩, ⟨hk, Nat.le_refl _⟩, ⟨hk, Nat.le_refl _⟩, ⟨hk, Nat.le_refl _⟩⟩
    simp only [ne_eq, h0, not_true_eq_false, if_false, Prog.pure_eq, Prog.ok_bind, e3]
    exact ⟨g3, rfl, d1, d2⟩
  · obtain ⟨n, g1, g2, e, e1, e2, ⟨s1, s2, s3⟩, v⟩ := row_part a3 hk (by omega) h0 hr
    obtain ⟨g3, e3, d1, d2⟩ := finish_whole (n := ⟨0, pv, n.right, k, k, num⟩) (s1.mono (by omega) (by omega))
      (s2.trans a2) (s3.trans a1) ⟨by simp only; omega, v, ⟨hk, Nat.le_refl _⟩, ⟨hk, Nat.le_refl _⟩⟩
    simp only [ne_eq, h0, not_false_eq_true, if_true, Prog.pure_eq, Prog.ok_bind, e, e1, e2, e3]
    exact ⟨g3, rfl, d1, d2⟩

/-- The loop state inside `new`: an intact heap, pointers below the next address. -/
def Fine (s : Heap × List Nat × Nat) : Prop :=
  Whole s.1 ∧ (∀ p ∈ s.2.1, p < s.1.next) ∧ s.2.2 < s.1.next

theorem newCell_fine {hd : Nat} {s : Heap × List Nat × Nat} (hs : Fine s) (index : Nat) :
    ∃ s', newCell hd s index = .ok s' ∧ Fine s' ∧ s'.1.next = s.1.next + 1 := by
  obtain ⟨h, rows, cc⟩ := s
  obtain ⟨h1, h2, h3⟩ := hs
  simp only at h1 h2 h3
  have hpos := h1.1
  generalize hrows : (if index ≥ rows.length then rows ++ List.replicate (index + 1 - rows.length) 0 else rows) = R
  have hR : index < R.length ∧ ∀ p ∈ R, p < h.next := by
    subst hrows
    split
    · refine ⟨by simp; omega, ?_⟩
      intro p hp
      rw [List.mem_append] at hp
      rcases hp with hp | hp
      · exact h2 p hp
      · rw [List.eq_of_mem_replicate hp]; omega
    · exact ⟨by omega, h2⟩
  obtain ⟨h', e, g1, g2⟩ := node_new_whole h1 (hd := hd) (row := index) (hR.2 R[index] (List.getElem_mem hR.1)) h3
  refine ⟨(h', R.set index h.next, h.next), ?_, ⟨g1, ?_, by simp only; omega⟩, g2⟩
  · simp only [newCell, hrows, getP_ok hR.1, setP_ok hR.1, Prog.ok_bind, e]
    rfl
  · intro p hp
    simp only at hp ⊢
    rcases List.mem_or_eq_of_mem_set hp with hp | rfl
    · have := hR.2 p hp; omega
    · omega

theorem newCells_fine {hd : Nat} (col : List Nat) {s : Heap × List Nat × Nat} (hs : Fine s) :
    ∃ s', forIn' col s (newCell hd) = .ok s' ∧ Fine s' ∧ s'.1.next = s.1.next + col.length := by
  induction col generalizing s with
  | nil => exact ⟨s, rfl, hs, rfl⟩
  | cons i col ih =>
    obtain ⟨s1, e1, f1, n1⟩ := newCell_fine hs (hd := hd) i
    obtain ⟨s2, e2, f2, n2⟩ := ih f1
    refine ⟨s2, by rw [forIn'_cons, e1, Prog.ok_bind, e2], f2, ?_⟩
    rw [n2, n1, List.length_cons]; omega

theorem newColumn_fine {s : Heap × List Nat × Nat} (hs : Fine s) (col : List Nat) :
    ∃ s', newColumn s col = .ok s' ∧ Fine s' ∧ s'.1.next = s.1.next + 1 + col.length := by
  obtain ⟨h, rows, curr⟩ := s
  obtain ⟨h1, h2, h3⟩ := hs
  simp only at h1 h2 h3
  obtain ⟨h', e, g1, g2⟩ := newHeader_whole h1 (num := col.length) h3
  obtain ⟨⟨h'', rows', cc⟩, e2, ⟨f1, f2, f3⟩, n2⟩ := newCells_fine (hd := h.next) col (s := (h', rows, h.next))
    ⟨g1, fun p hp => by have := h2 p hp; simp only; omega, by simp only; omega⟩
  simp only at f1 f2 f3 n2
  refine ⟨(h'', rows', h.next), ?_, ⟨f1, f2, by simp only; omega⟩, by simp only; omega⟩
  simp only [newColumn, e, Prog.ok_bind, e2]
  rfl

/-- `new` returns for every list of constraints, with one live cell per entry, one per constraint and the root. -/
theorem new_all (M : List (List Nat)) : ∃ m h, Matrix.new Heap.empty M = .ok (m, h) ∧ Whole h ∧
    h.next = 2 + M.length + M.flatten.length ∧ m.root = 1 ∧ ∀ p ∈ m.rows, p < h.next := by
  have h0 : Whole Heap.empty := ⟨by simp [Heap.empty], fun p h1 h2 => by simp [Heap.empty] at h2; omega⟩
  obtain ⟨h, e, g1, g2⟩ := newHeader_whole h0 (pv := 0) (num := 0) (by simp [Heap.empty])
  have hnext : h.next = 2 := g2
  suffices ∀ (M : List (List Nat)) (s : Heap × List Nat × Nat), Fine s → ∃ s', forIn' M s newColumn = .ok s' ∧
      Fine s' ∧ s'.1.next = s.1.next + M.length + M.flatten.length by
    obtain ⟨⟨h', rows, c⟩, e', ⟨f1, f2, f3⟩, n⟩ := this M (h, [], Heap.empty.next)
      ⟨g1, by simp, by simp only; rw [hnext]; simp [Heap.empty]⟩
    refine ⟨⟨1, rows, []⟩, h', ?_, f1, by simp only at n; omega, rfl, f2⟩
    simp only [Matrix.new, e, Prog.ok_bind, e']
    rfl
  intro M
  induction M with
  | nil => exact fun s hs => ⟨s, rfl, hs, rfl⟩
  | cons col M ih =>
    intro s hs
    obtain ⟨s1, e1, f1, n1⟩ := newColumn_fine hs col
    obtain ⟨s2, e2, f2, n2⟩ := ih s1 f1
    refine ⟨s2, by rw [forIn'_cons, e1, Prog.ok_bind, e2], f2, ?_⟩
    rw [n2, n1, List.flatten_cons, List.length_cons, List.length_append]; omega

end DancingLinks
