import Verif.Model.DancingLinks
import Mathlib.Data.List.Chain
import Mathlib.Data.List.Nodup
import Mathlib.Tactic.Common

/-! Heap lemmas and circular doubly linked lists for the dancing-links proofs. -/
namespace DancingLinks

@[ext] theorem Heap.ext' {a b : Heap} (h1 : ∀ p, a.mem p = b.mem p) (h2 : a.next = b.next) : a = b := by
  cases a; cases b; simp only [Heap.mk.injEq] at *; exact ⟨funext h1, h2⟩

theorem Node.ext' {a b : Node} (h1 : a.header = b.header) (h2 : a.left = b.left) (h3 : a.right = b.right)
    (h4 : a.up = b.up) (h5 : a.down = b.down) (h6 : a.row = b.row) : a = b := by
  cases a; cases b; simp_all

/-- Contents of a cell, with a default for cells that are not live. -/
def Heap.node (h : Heap) (p : Nat) : Node :=
  match h.mem p with
  | .live n => n
  | _ => default

def Heap.Live (h : Heap) (p : Nat) : Prop := ∃ n, h.mem p = .live n

/-- Pure update of a node. -/
def Heap.mod (h : Heap) (p : Nat) (f : Node → Node) : Heap := h.put p (.live (f (h.node p)))

theorem Heap.Live.mem {h : Heap} {p : Nat} (hl : h.Live p) : h.mem p = .live (h.node p) := by
  obtain ⟨n, hn⟩ := hl; simp [Heap.node, hn]

theorem node_congr {h h' : Heap} {p : Nat} (e : h'.mem p = h.mem p) : h'.node p = h.node p := by
  simp [Heap.node, e]

theorem live_congr {h h' : Heap} {p : Nat} (e : h'.mem p = h.mem p) : h'.Live p ↔ h.Live p := by
  simp [Heap.Live, e]

theorem read_ok {h : Heap} {p : Nat} (hl : h.Live p) : h.read p = .ok (h.node p) := by
  simp [Heap.read, hl.mem]

theorem write_ok {h : Heap} {p : Nat} (hl : h.Live p) (n : Node) :
    h.write p n = .ok (h.put p (.live n)) := by
  simp [Heap.write, hl.mem]

theorem dealloc_ok {h : Heap} {p : Nat} (hl : h.Live p) : h.dealloc p = .ok (h.put p .freed) := by
  simp [Heap.dealloc, hl.mem]

theorem setLeft_ok {h : Heap} {p : Nat} (hl : h.Live p) (v : Nat) :
    h.setLeft p v = .ok (h.mod p fun n => { n with left := v }) := by
  simp [Heap.setLeft, read_ok hl, write_ok hl, Heap.mod]
theorem setRight_ok {h : Heap} {p : Nat} (hl : h.Live p) (v : Nat) :
    h.setRight p v = .ok (h.mod p fun n => { n with right := v }) := by
  simp [Heap.setRight, read_ok hl, write_ok hl, Heap.mod]
theorem setUp_ok {h : Heap} {p : Nat} (hl : h.Live p) (v : Nat) :
    h.setUp p v = .ok (h.mod p fun n => { n with up := v }) := by
  simp [Heap.setUp, read_ok hl, write_ok hl, Heap.mod]
theorem setDown_ok {h : Heap} {p : Nat} (hl : h.Live p) (v : Nat) :
    h.setDown p v = .ok (h.mod p fun n => { n with down := v }) := by
  simp [Heap.setDown, read_ok hl, write_ok hl, Heap.mod]
theorem setRow_ok {h : Heap} {p : Nat} (hl : h.Live p) (v : Nat) :
    h.setRow p v = .ok (h.mod p fun n => { n with row := v }) := by
  simp [Heap.setRow, read_ok hl, write_ok hl, Heap.mod]

@[simp] theorem put_mem (h : Heap) (p : Nat) (c : Cell) (q : Nat) :
    (h.put p c).mem q = if q = p then c else h.mem q := rfl
@[simp] theorem put_next (h : Heap) (p : Nat) (c : Cell) : (h.put p c).next = h.next := rfl

@[simp] theorem mod_next (h : Heap) (p : Nat) (f) : (h.mod p f).next = h.next := rfl
theorem mod_mem (h : Heap) (p : Nat) (f) (q : Nat) :
    (h.mod p f).mem q = if q = p then .live (f (h.node p)) else h.mem q := rfl
theorem mod_node (h : Heap) (p : Nat) (f) (q : Nat) :
    (h.mod p f).node q = if q = p then f (h.node p) else h.node q := by
  by_cases e : q = p <;> simp [Heap.node, mod_mem, e]
theorem mod_live {h : Heap} {p : Nat} (f) {q : Nat} (hl : h.Live q) : (h.mod p f).Live q := by
  by_cases e : q = p
  · exact ⟨_, by rw [mod_mem, if_pos e]⟩
  · obtain ⟨n, hn⟩ := hl; exact ⟨n, by rw [mod_mem, if_neg e, hn]⟩

/-! ### Rings -/

/-- `b` is the successor of `a` and `a` the predecessor of `b`. -/
def Lk (nx pv : Nat → Nat) (a b : Nat) : Prop := nx a = b ∧ pv b = a

/-- `p :: l` is a circular doubly linked list. -/
def Ring (nx pv : Nat → Nat) (p : Nat) (l : List Nat) : Prop := (p :: (l ++ [p])).IsChain (Lk nx pv)

theorem chain_congr {R R' : Nat → Nat → Prop} {l : List Nat}
    (hR : ∀ a b, a ∈ l.dropLast → b ∈ l.tail → R a b → R' a b) (h : l.IsChain R) : l.IsChain R' := by
  rw [List.isChain_iff_forall_rel_of_append_cons_cons] at h ⊢
  intro a b l₁ l₂ e
  refine hR a b ?_ ?_ (h e)
  · subst e; simp [List.dropLast_append_of_ne_nil]
  · subst e; cases l₁ <;> simp

theorem Ring.congr {nx pv nx' pv' : Nat → Nat} {p : Nat} {l : List Nat} (h : Ring nx pv p l)
    (h1 : ∀ a ∈ p :: l, nx' a = nx a) (h2 : ∀ a ∈ p :: l, pv' a = pv a) : Ring nx' pv' p l := by
  refine chain_congr ?_ h
  intro a b ha hb ⟨e1, e2⟩
  have ha' : a ∈ p :: l := by
    rw [← List.cons_append, List.dropLast_concat] at ha; exact ha
  have hb' : b ∈ p :: l := by simp at hb ⊢; tauto
  exact ⟨by rw [h1 a ha', e1], by rw [h2 b hb', e2]⟩

theorem Ring.reverse {nx pv : Nat → Nat} {p : Nat} {l : List Nat} (h : Ring nx pv p l) :
    Ring pv nx p l.reverse := by
  have : (p :: (l.reverse ++ [p])) = (p :: (l ++ [p])).reverse := by simp
  unfold Ring
  rw [this, List.isChain_reverse]
  exact h.imp fun a b h => ⟨h.2, h.1⟩

/-- Neighbours of a member of a ring. -/
theorem Ring.nbrs {nx pv : Nat → Nat} {p x : Nat} {l1 l2 : List Nat} (h : Ring nx pv p (l1 ++ x :: l2)) :
    pv x = (p :: l1).getLast (by simp) ∧ nx x = (l2 ++ [p]).head (by simp) ∧
    nx (pv x) = x ∧ pv (nx x) = x := by
  unfold Ring at h
  have e : p :: (l1 ++ x :: l2 ++ [p]) = (p :: l1) ++ x :: (l2 ++ [p]) := by simp
  rw [e, List.isChain_append] at h
  obtain ⟨_, h2, h3⟩ := h
  have a1 := h3 _ (List.getLast?_eq_some_getLast (by simp)) x (by simp)
  have a2 : Lk nx pv x ((l2 ++ [p]).head (by simp)) := by
    cases l2 with
    | nil => simp at h2 ⊢; exact h2
    | cons y l2 => simp at h2 ⊢; exact h2.1
  refine ⟨a1.2, a2.1, ?_, ?_⟩
  · rw [a1.2]; exact a1.1
  · rw [a2.1]; exact a2.2

theorem Ring.pv_mem {nx pv : Nat → Nat} {p x : Nat} {l : List Nat} (h : Ring nx pv p l) (hx : x ∈ l)
    (hn : (p :: l).Nodup) :
    pv x ∈ p :: l.erase x ∧ nx x ∈ p :: l.erase x ∧ pv x ≠ x ∧ nx x ≠ x ∧ nx (pv x) = x ∧ pv (nx x) = x := by
  obtain ⟨l1, l2, rfl⟩ := List.append_of_mem hx
  obtain ⟨a, b, c, d⟩ := h.nbrs
  have hn' : x ∉ l1 ∧ x ∉ l2 ∧ x ≠ p := by
    simp [List.nodup_append] at hn; grind
  have he : (l1 ++ x :: l2).erase x = l1 ++ l2 := by
    rw [List.erase_append_right _ hn'.1]; simp
  have m1 : pv x ∈ p :: l1 := by rw [a]; exact List.getLast_mem _
  have m2 : nx x ∈ l2 ++ [p] := by rw [b]; exact List.head_mem _
  rw [he]
  refine ⟨?_, ?_, ?_, ?_, c, d⟩
  · grind
  · grind
  · intro e; rw [e] at m1; grind
  · intro e; rw [e] at m2; grind

theorem dropLast_ne_getLast {l : List Nat} (hn : l.Nodup) (h : l ≠ []) {a : Nat} (ha : a ∈ l.dropLast) :
    a ≠ l.getLast h := by
  rw [← List.dropLast_append_getLast h, List.nodup_append] at hn
  exact hn.2.2 a ha _ (by simp)

theorem head_ne_tail {l : List Nat} (hn : l.Nodup) (h : l ≠ []) {a : Nat} (ha : a ∈ l.tail) :
    a ≠ l.head h := by
  cases l with
  | nil => simp at h
  | cons b t => simp at *; rintro rfl; exact hn.1 ha

/-- Removing a member of a ring by redirecting its two neighbours. -/
theorem Ring.unlink {nx pv nx' pv' : Nat → Nat} {p x : Nat} {l : List Nat} (h : Ring nx pv p l)
    (hx : x ∈ l) (hn : (p :: l).Nodup)
    (h1 : ∀ a ∈ p :: l, nx' a = if a = pv x then nx x else nx a)
    (h2 : ∀ a ∈ p :: l, pv' a = if a = nx x then pv x else pv a) : Ring nx' pv' p (l.erase x) := by
  obtain ⟨l1, l2, rfl⟩ := List.append_of_mem hx
  obtain ⟨a, b, _, _⟩ := h.nbrs
  have hn' : x ∉ l1 ∧ x ∉ l2 ∧ x ≠ p := by
    simp [List.nodup_append] at hn; grind
  have he : (l1 ++ x :: l2).erase x = l1 ++ l2 := by
    rw [List.erase_append_right _ hn'.1]; simp
  rw [he]
  have e : p :: (l1 ++ x :: l2 ++ [p]) = (p :: l1) ++ x :: (l2 ++ [p]) := by simp
  have e' : p :: (l1 ++ l2 ++ [p]) = (p :: l1) ++ (l2 ++ [p]) := by simp
  unfold Ring at h ⊢
  rw [e, List.isChain_append] at h
  rw [e', List.isChain_append]
  obtain ⟨c1, c2, _⟩ := h
  have c3 : (l2 ++ [p]).IsChain (Lk nx pv) := by
    have := c2.tail; simpa using this
  have nd1 : (p :: l1).Nodup := by
    simp [List.nodup_append] at hn ⊢; grind
  have nd2 : (l2 ++ [p]).Nodup := by
    simp [List.nodup_append] at hn ⊢; grind
  have dis : ∀ z ∈ l1, z ∉ l2 := by
    intro z hz; simp [List.nodup_append] at hn; grind
  refine ⟨chain_congr ?_ c1, chain_congr ?_ c3, ?_⟩
  · intro u v hu hv ⟨k1, k2⟩
    have hu1 : u ≠ pv x := by rw [a]; exact dropLast_ne_getLast nd1 _ hu
    have hv1 : v ∈ l1 := by simpa using hv
    have hv2 : v ≠ nx x := by
      rw [b]; intro e; have := List.head_mem (l := l2 ++ [p]) (by simp)
      rw [← e] at this
      simp at this nd1
      rcases this with h | h
      · exact dis v hv1 h
      · exact nd1.1 (h ▸ hv1)
    have hu2 : u ∈ p :: l1 := (List.dropLast_sublist _).subset hu
    constructor
    · rw [h1 u (by grind), if_neg hu1, k1]
    · rw [h2 v (by grind), if_neg hv2, k2]
  · intro u v hu hv ⟨k1, k2⟩
    have hu1 : u ∈ l2 := by simpa using hu
    have hv1 : v ≠ nx x := by rw [b]; exact head_ne_tail nd2 _ hv
    have hu2 : u ≠ pv x := by
      rw [a]; intro e; have := List.getLast_mem (l := p :: l1) (by simp)
      rw [← e] at this
      simp only [List.mem_cons] at this
      rcases this with h | h
      · subst h; simp [List.nodup_append] at nd2; grind
      · exact dis u h hu1
    have hv2 : v ∈ l2 ++ [p] := List.mem_of_mem_tail hv
    constructor
    · rw [h1 u (by grind), if_neg hu2, k1]
    · rw [h2 v (by grind), if_neg hv1, k2]
  · intro u hu v hv
    rw [List.getLast?_eq_some_getLast (by simp)] at hu
    rw [List.head?_eq_some_head (by simp)] at hv
    simp only [Option.mem_def, Option.some.injEq] at hu hv
    rw [← a] at hu; rw [← b] at hv
    have hu2 : u ∈ p :: l1 := by rw [← hu, a]; exact List.getLast_mem _
    have hv2 : v ∈ l2 ++ [p] := by rw [← hv, b]; exact List.head_mem _
    constructor
    · rw [h1 u (by grind), if_pos hu.symm, hv]
    · rw [h2 v (by grind), if_pos hv.symm, hu]

/-- Inserting a new last element into a ring (between the last element and the start). -/
theorem Ring.insert {nx pv nx' pv' : Nat → Nat} {p x : Nat} {l : List Nat} (h : Ring nx pv p l)
    (hn : (p :: l).Nodup)
    (hx1 : nx' x = p) (hx2 : pv' x = (p :: l).getLast (by simp))
    (h1 : ∀ a ∈ p :: l, nx' a = if a = (p :: l).getLast (by simp) then x else nx a)
    (h2 : ∀ a ∈ p :: l, pv' a = if a = p then x else pv a) : Ring nx' pv' p (l ++ [x]) := by
  unfold Ring at h ⊢
  have e : p :: (l ++ [x] ++ [p]) = (p :: l) ++ [x, p] := by simp
  rw [e, List.isChain_append]
  rw [← List.cons_append, List.isChain_append] at h
  refine ⟨chain_congr ?_ h.1, ?_, ?_⟩
  · intro u v hu hv ⟨k1, k2⟩
    have hu1 := dropLast_ne_getLast hn (by simp) hu
    have hv1 : v ∈ l := by simpa using hv
    have hv2 : v ≠ p := by rintro rfl; simp at hn; exact hn.1 hv1
    constructor
    · rw [h1 u ((List.dropLast_sublist _).subset hu), if_neg hu1, k1]
    · rw [h2 v (by grind), if_neg hv2, k2]
  · simp; exact ⟨hx1, by rw [h2 p (by simp)]; simp⟩
  · intro u hu v hv
    rw [List.getLast?_eq_some_getLast (by simp)] at hu
    simp at hv hu; subst hv
    constructor
    · rw [h1 u (by rw [← hu]; exact List.getLast_mem _)]; simp [hu]
    · rw [hx2, hu]

/-- Rotation. -/
theorem Ring.rotate {nx pv : Nat → Nat} {p q : Nat} {l1 l2 : List Nat} (h : Ring nx pv p (l1 ++ q :: l2)) :
    Ring nx pv q (l2 ++ p :: l1) := by
  unfold Ring at h ⊢
  have e : p :: (l1 ++ q :: l2 ++ [p]) = (p :: l1) ++ q :: (l2 ++ [p]) := by simp
  have e' : q :: (l2 ++ p :: l1 ++ [q]) = (q :: l2) ++ p :: (l1 ++ [q]) := by simp
  rw [e, List.isChain_split] at h
  rw [e', List.isChain_split]
  exact ⟨by simpa using h.2, by simpa using h.1⟩

/-! ### Iteration -/

theorem get_dir {h : Heap} {p : Nat} (d : Dir) (hl : h.Live p) {it : Iter} (e : it.current = p) (hp : p ≠ 0) :
    it.next d h = .ok (some p, { it with
      current := if (h.node p).get d = it.original then 0 else (h.node p).get d }) := by
  subst e
  simp [Iter.next, hp, read_ok hl]

/-- Position of the iterator over `l` started at `o` (and `o` already consumed). -/
def iterAt (o : Nat) (l : List Nat) : Iter := { original := o, current := l.headD 0 }

theorem next_nil (d : Dir) (h : Heap) (o : Nat) : (iterAt o []).next d h = .ok (none, iterAt o []) := rfl

theorem next_cons {d : Dir} {h : Heap} {o x : Nat} {l : List Nat} (hl : h.Live x) (hx : x ≠ 0)
    (hd : (h.node x).get d = (l ++ [o]).head (by simp)) (ho : o ∉ l) :
    (iterAt o (x :: l)).next d h = .ok (some x, iterAt o l) := by
  rw [get_dir d hl (p := x) rfl hx]
  cases l with
  | nil => simp at hd; simp [hd, iterAt]
  | cons y l => simp at hd ho; simp [hd, iterAt, Ne.symm ho.1]

/-- Invariant rule for a loop over the items `l` of a ring traversal. -/
theorem forIter_spec {σ : Type} (hp : σ → Heap) (d : Dir) (o : Nat) (l : List Nat) (body : σ → Nat → Prog σ)
    (I : List Nat → σ → Prop) (h0 : 0 ∉ l) (ho : o ∉ l.tail)
    (step : ∀ pre x post s, l = pre ++ x :: post → I pre s →
      (hp s).Live x ∧ ((hp s).node x).get d = (post ++ [o]).head (by simp) ∧
      ∃ s', body s x = .ok s' ∧ I (pre ++ [x]) s')
    (s : σ) (hs : I [] s) : ∃ s', forIter hp d (iterAt o l) s body = .ok s' ∧ I l s' := by
  suffices h : ∀ post pre s, l = pre ++ post → I pre s →
      ∃ s', forIter hp d (iterAt o post) s body = .ok s' ∧ I (pre ++ post) s' from by
    simpa using h l [] s rfl hs
  intro post
  induction post with
  | nil =>
    intro pre s _ hI
    refine ⟨s, ?_, by simpa using hI⟩
    rw [forIter, next_nil]; rfl
  | cons x post ih =>
    intro pre s hl hI
    obtain ⟨a, b, s', c, e⟩ := step pre x post s hl hI
    obtain ⟨s'', f, g⟩ := ih (pre ++ [x]) s' (by simp [hl]) e
    refine ⟨s'', ?_, by simpa using g⟩
    have hx : x ≠ 0 := by rintro rfl; apply h0; rw [hl]; simp
    have hop : o ∉ post := by
      intro h; apply ho; rw [hl]; cases pre <;> simp [h]
    rw [forIter, next_cons a hx b hop]
    simp only [Prog.ok_bind, c, f]

/-- `skip(1)`. -/
theorem iterSkip1_ok {d : Dir} {h : Heap} {p : Nat} {l : List Nat} (hl : h.Live p) (h0 : p ≠ 0)
    (hp : p ∉ l) (hd : (h.node p).get d = (l ++ [p]).head (by simp)) :
    iterSkip1 d h p = .ok (iterAt p l) := by
  unfold iterSkip1
  rw [get_dir d hl rfl h0]
  cases l with
  | nil => simp at hd; simp [iter, iterAt, hd]
  | cons y l => simp at hd hp; simp [iter, iterAt, hd, Ne.symm hp.1]

theorem iter_eq (p : Nat) (l : List Nat) : iter p = iterAt p (p :: l) := rfl

/-- Field read by an iterator in direction `d`. -/
def Heap.fld (h : Heap) (d : Dir) (p : Nat) : Nat := (h.node p).get d

def Dir.opp : Dir → Dir
  | .left => .right | .right => .left | .up => .down | .down => .up

@[simp] theorem fld_left (h p) : Heap.fld h .left p = (h.node p).left := rfl
@[simp] theorem fld_right (h p) : Heap.fld h .right p = (h.node p).right := rfl
@[simp] theorem fld_up (h p) : Heap.fld h .up p = (h.node p).up := rfl
@[simp] theorem fld_down (h p) : Heap.fld h .down p = (h.node p).down := rfl

/-- Ring in direction `d` in heap `h`. -/
def HRing (h : Heap) (d : Dir) (p : Nat) (l : List Nat) : Prop := Ring (h.fld d) (h.fld d.opp) p l

theorem HRing.congr {h h' : Heap} {d : Dir} {p : Nat} {l : List Nat} (hr : HRing h d p l)
    (h1 : ∀ a ∈ p :: l, h'.fld d a = h.fld d a) (h2 : ∀ a ∈ p :: l, h'.fld d.opp a = h.fld d.opp a) :
    HRing h' d p l := Ring.congr hr h1 h2

theorem HRing.congr_mem {h h' : Heap} {d : Dir} {p : Nat} {l : List Nat} (hr : HRing h d p l)
    (h1 : ∀ a ∈ p :: l, h'.mem a = h.mem a) : HRing h' d p l :=
  hr.congr (fun a ha => by simp [Heap.fld, node_congr (h1 a ha)])
    (fun a ha => by simp [Heap.fld, node_congr (h1 a ha)])

theorem HRing.reverse {h : Heap} {d : Dir} {p : Nat} {l : List Nat} (hr : HRing h d p l) :
    HRing h d.opp p l.reverse := by
  have := Ring.reverse hr
  unfold HRing
  have e : d.opp.opp = d := by cases d <;> rfl
  rw [e]; exact this

theorem HRing.next {h : Heap} {d : Dir} {p x : Nat} {l1 l2 : List Nat} (hr : HRing h d p (l1 ++ x :: l2)) :
    (h.node x).get d = (l2 ++ [p]).head (by simp) := (Ring.nbrs hr).2.1

theorem HRing.first {h : Heap} {d : Dir} {p : Nat} {l : List Nat} (hr : HRing h d p l) :
    (h.node p).get d = (l ++ [p]).head (by simp) := by
  unfold HRing Ring at hr
  cases l with
  | nil => simp at hr ⊢; exact hr.1
  | cons y l => simp at hr ⊢; exact hr.1.1

/-- Loop over `iter_<d>(p).skip(1)` where the ring is intact whenever it is read. -/
theorem forSkip1_spec (d : Dir) (p : Nat) (l : List Nat) (body : Heap → Nat → Prog Heap)
    (I : List Nat → Heap → Prop) (h0 : 0 ∉ p :: l) (hp : p ∉ l) (h : Heap) (hs : I [] h)
    (hlive : h.Live p) (hfirst : (h.node p).get d = (l ++ [p]).head (by simp))
    (step : ∀ pre x post s, l = pre ++ x :: post → I pre s →
      s.Live x ∧ (s.node x).get d = (post ++ [p]).head (by simp) ∧
      ∃ s', body s x = .ok s' ∧ I (pre ++ [x]) s') :
    ∃ h', forSkip1 d h p body = .ok h' ∧ I l h' := by
  unfold forSkip1
  rw [iterSkip1_ok hlive (by grind) hp hfirst]
  exact forIter_spec id d p l body I (by grind) (fun h => hp (List.mem_of_mem_tail h)) step h hs

/-- Loop over `iter_<d>(p)`. -/
theorem forAll_spec (d : Dir) (p : Nat) (l : List Nat) (body : Heap → Nat → Prog Heap)
    (I : List Nat → Heap → Prop) (h0 : 0 ∉ p :: l) (hp : p ∉ l) (h : Heap) (hs : I [] h)
    (step : ∀ pre x post s, p :: l = pre ++ x :: post → I pre s →
      s.Live x ∧ (s.node x).get d = (post ++ [p]).head (by simp) ∧
      ∃ s', body s x = .ok s' ∧ I (pre ++ [x]) s') :
    ∃ h', forAll d h p body = .ok h' ∧ I (p :: l) h' := by
  unfold forAll
  rw [iter_eq p l]
  exact forIter_spec id d p (p :: l) body I h0 hp step h hs

/-! ### Unlinking and relinking -/

/-- Pure effect of `coverCell`. -/
def unlV (h : Heap) (q : Nat) : Heap :=
  let n := h.node q
  ((h.mod n.up fun m => { m with down := n.down }).mod n.down fun m => { m with up := n.up }).mod n.header
    fun m => { m with row := m.row - 1 }

/-- Pure effect of `coverHorizontal`. -/
def unlH (h : Heap) (q : Nat) : Heap :=
  let n := h.node q
  (h.mod n.left fun m => { m with right := n.right }).mod n.right fun m => { m with left := n.left }

@[simp] theorem unlV_next (h q) : (unlV h q).next = h.next := rfl
@[simp] theorem unlH_next (h q) : (unlH h q).next = h.next := rfl

theorem unlV_node (h : Heap) (q p : Nat) : (unlV h q).node p =
    { h.node p with
      down := if p = (h.node q).up then (h.node q).down else (h.node p).down
      up := if p = (h.node q).down then (h.node q).up else (h.node p).up
      row := if p = (h.node q).header then (h.node p).row - 1 else (h.node p).row } := by
  simp only [unlV, mod_node]
  split_ifs <;> simp_all

theorem unlH_node (h : Heap) (q p : Nat) : (unlH h q).node p =
    { h.node p with
      right := if p = (h.node q).left then (h.node q).right else (h.node p).right
      left := if p = (h.node q).right then (h.node q).left else (h.node p).left } := by
  simp only [unlH, mod_node]
  split_ifs <;> simp_all

theorem unlV_live {h : Heap} {q p : Nat} (hp : h.Live p) : (unlV h q).Live p := by
  unfold unlV; exact mod_live _ (mod_live _ (mod_live _ hp))
theorem unlH_live {h : Heap} {q p : Nat} (hp : h.Live p) : (unlH h q).Live p := by
  unfold unlH; exact mod_live _ (mod_live _ hp)

theorem unlV_mem {h : Heap} {q p : Nat} (h1 : p ≠ (h.node q).up) (h2 : p ≠ (h.node q).down)
    (h3 : p ≠ (h.node q).header) : (unlV h q).mem p = h.mem p := by
  simp [unlV, mod_mem, h1, h2, h3]
theorem unlH_mem {h : Heap} {q p : Nat} (h1 : p ≠ (h.node q).left) (h2 : p ≠ (h.node q).right) :
    (unlH h q).mem p = h.mem p := by
  simp [unlH, mod_mem, h1, h2]

/-- Conditions under which unlinking `q` vertically is well defined and reversible. -/
structure CanV (h : Heap) (q : Nat) : Prop where
  live : h.Live q
  up : h.Live (h.node q).up
  down : h.Live (h.node q).down
  header : h.Live (h.node q).header
  upne : (h.node q).up ≠ q
  downne : (h.node q).down ≠ q
  headerne : (h.node q).header ≠ q
  updown : (h.node (h.node q).up).down = q
  downup : (h.node (h.node q).down).up = q
  pos : 0 < (h.node (h.node q).header).row

structure CanH (h : Heap) (q : Nat) : Prop where
  live : h.Live q
  left : h.Live (h.node q).left
  right : h.Live (h.node q).right
  leftne : (h.node q).left ≠ q
  rightne : (h.node q).right ≠ q
  leftright : (h.node (h.node q).left).right = q
  rightleft : (h.node (h.node q).right).left = q

theorem coverCell_ok {h : Heap} {q : Nat} (c : CanV h q) : coverCell h q = .ok (unlV h q) := by
  have e1 : ∀ x, (h.mod (h.node q).up fun m => { m with down := (h.node q).down }).Live x ↔
      (x = (h.node q).up ∨ h.Live x) := by
    intro x; simp only [Heap.Live, mod_mem]; split_ifs with e <;> simp [e]
  unfold coverCell coverVertical
  rw [read_ok c.live]
  simp only [Prog.ok_bind]
  rw [setDown_ok c.up, Prog.ok_bind, setUp_ok (mod_live _ c.down), Prog.ok_bind,
    read_ok (mod_live _ (mod_live _ c.live))]
  simp only [Prog.ok_bind]
  have hh : (((h.mod (h.node q).up fun m => { m with down := (h.node q).down }).mod (h.node q).down
      fun m => { m with up := (h.node q).up }).node q).header = (h.node q).header := by
    simp only [mod_node]; grind
  rw [hh, read_ok (mod_live _ (mod_live _ c.header))]
  simp only [Prog.ok_bind]
  have hr : (((h.mod (h.node q).up fun m => { m with down := (h.node q).down }).mod (h.node q).down
      fun m => { m with up := (h.node q).up }).node (h.node q).header).row =
      (h.node (h.node q).header).row := by
    simp only [mod_node]; grind
  rw [hr, if_neg (by have := c.pos; omega), setRow_ok (mod_live _ (mod_live _ c.header))]
  congr 1
  unfold unlV
  ext p
  · simp only [mod_mem]; split_ifs
    · congr 2; exact hr ▸ rfl
    all_goals rfl
  · rfl

theorem uncoverCell_unlV {h : Heap} {q : Nat} (c : CanV h q) : uncoverCell (unlV h q) q = .ok h := by
  have hq : (unlV h q).node q = h.node q := by
    rw [unlV_node]; simp [c.upne.symm, c.downne.symm, c.headerne.symm]
  unfold uncoverCell uncoverVertical
  rw [read_ok (unlV_live c.live)]
  simp only [Prog.ok_bind]
  rw [hq, read_ok (unlV_live c.header)]
  simp only [Prog.ok_bind]
  rw [setRow_ok (unlV_live c.header)]
  simp only [Prog.ok_bind]
  rw [read_ok (mod_live _ (unlV_live c.live))]
  simp only [Prog.ok_bind]
  have hq2 : ((unlV h q).mod (h.node q).header fun m =>
      { m with row := ((unlV h q).node (h.node q).header).row + 1 }).node q = h.node q := by
    rw [mod_node, if_neg c.headerne.symm, hq]
  rw [hq2, setDown_ok (mod_live _ (unlV_live c.up))]
  simp only [Prog.ok_bind]
  rw [setUp_ok (mod_live _ (mod_live _ (unlV_live c.down)))]
  congr 1
  have hpos := c.pos
  ext p
  · by_cases hl : h.Live p
    · have hL : ((((unlV h q).mod (h.node q).header fun m =>
          { m with row := ((unlV h q).node (h.node q).header).row + 1 }).mod (h.node q).up
          fun m => { m with down := q }).mod (h.node q).down fun m => { m with up := q }).Live p :=
        mod_live _ (mod_live _ (mod_live _ (unlV_live hl)))
      rw [hL.mem, hl.mem]
      congr 1
      have ud := c.updown
      have du := c.downup
      simp only [mod_node, unlV_node]
      apply Node.ext' <;> grind
    · have a1 : p ≠ (h.node q).header := by rintro rfl; exact hl c.header
      have a2 : p ≠ (h.node q).up := by rintro rfl; exact hl c.up
      have a3 : p ≠ (h.node q).down := by rintro rfl; exact hl c.down
      simp only [mod_mem, if_neg a1, if_neg a2, if_neg a3, unlV_mem a2 a3 a1]
  · rfl

theorem coverHorizontal_ok {h : Heap} {q : Nat} (c : CanH h q) : coverHorizontal h q = .ok (unlH h q) := by
  unfold coverHorizontal
  rw [read_ok c.live]
  simp only [Prog.ok_bind]
  rw [setRight_ok c.left]
  simp only [Prog.ok_bind]
  rw [setLeft_ok (mod_live _ c.right)]
  rfl

theorem uncoverHorizontal_unlH {h : Heap} {q : Nat} (c : CanH h q) :
    uncoverHorizontal (unlH h q) q = .ok h := by
  have hq : (unlH h q).node q = h.node q := by
    rw [unlH_node]; simp [c.leftne.symm, c.rightne.symm]
  unfold uncoverHorizontal
  rw [read_ok (unlH_live c.live)]
  simp only [Prog.ok_bind]
  rw [hq, setRight_ok (unlH_live c.left)]
  simp only [Prog.ok_bind]
  rw [setLeft_ok (mod_live _ (unlH_live c.right))]
  congr 1
  ext p
  · by_cases hl : h.Live p
    · have hL : (((unlH h q).mod (h.node q).left fun m => { m with right := q }).mod (h.node q).right
          fun m => { m with left := q }).Live p := mod_live _ (mod_live _ (unlH_live hl))
      rw [hL.mem, hl.mem]
      congr 1
      have ud := c.leftright
      have du := c.rightleft
      simp only [mod_node, unlH_node]
      apply Node.ext' <;> grind
    · have a2 : p ≠ (h.node q).left := by rintro rfl; exact hl c.left
      have a3 : p ≠ (h.node q).right := by rintro rfl; exact hl c.right
      simp only [mod_mem, if_neg a2, if_neg a3, unlH_mem a2 a3]
  · rfl

end DancingLinks
