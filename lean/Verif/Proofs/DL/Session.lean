import Verif.Proofs.DL.Alloc
import Verif.Proofs.DL.NewAll
import Verif.Spec.Allocator
import Verif.Props.Sudoku
import Verif.Props.Repeats

/-! Lemmas for C98 and C99: sessions and `solve_sudoku` over another allocator; allocations that fail. -/
namespace DancingLinks.Alloc
open DancingLinks DancingLinks.Spec DancingLinks.Props

/-- The map from the addresses 1, 2, 3, ... to those of the allocator. -/
def place (al : Nat → Nat) (k : Nat) : Nat := if k = 0 then 0 else al k

theorem place_map {al : Nat → Nat} {n : Nat} (h : Distinct al n) : Map (place al) n where
  zero := rfl
  inj a b ha hb e := by
    unfold place at e
    by_cases h1 : a = 0 <;> by_cases h2 : b = 0
    · omega
    · rw [if_pos h1, if_neg h2] at e; exact absurd e.symm (h b (by omega) hb).1
    · rw [if_neg h1, if_pos h2] at e; exact absurd e (h a (by omega) ha).1
    · rw [if_neg h1, if_neg h2] at e; exact (h a (by omega) ha).2 b (by omega) hb e

theorem place_al (al : Nat → Nat) (n : Nat) : ∀ k, 0 < k → k ≤ n → al k = place al k := fun k h _ => by
  unfold place; rw [if_neg (by omega)]

theorem Rel.of_ok {α β : Type} {R : α → β → Prop} {x : Prog α} {y : Prog β} {a : α} (h : Rel R x y) (e : x = .ok a) :
    ∃ b, y = .ok b ∧ R a b := by subst e; exact h

theorem Rel.of_ub {α β : Type} {R : α → β → Prop} {x : Prog α} {y : Prog β} (h : Rel R x y) (e : x = .ub) : y = .ub := by
  subst e; exact h

theorem Rel.of_panic {α β : Type} {R : α → β → Prop} {x : Prog α} {y : Prog β} (h : Rel R x y) (e : x = .panic) :
    y = .panic := by
  subst e; exact h

theorem Rel.of_diverge {α β : Type} {R : α → β → Prop} {x : Prog α} {y : Prog β} (h : Rel R x y) (e : x = .diverge) :
    y = .diverge := by
  subst e; exact h

theorem addRows_rel {π : Nat → Nat} {N n : Nat} {base : Nat → Cell} (M : Map π N) (rs : List Nat) :
    ∀ {m m' : Matrix} {h h' : Heap}, Sim π N base n h h' → MRel π n m m' →
      Rel (fun x y => y.1 = x.1 ∧ MRel π n x.2.1 y.2.1 ∧ Sim π N base n x.2.2 y.2.2) (addRows m h rs) (addRows m' h' rs) := by
  induction rs with
  | nil => exact fun S R => Rel.ok ⟨rfl, R, S⟩
  | cons r rs ih =>
    intro m m' h h' S R
    refine (S.addSolution M R r).bind fun x y T => ?_
    obtain ⟨x1, x2, x3⟩ := x
    obtain ⟨y1, y2, y3⟩ := y
    obtain ⟨t1, t2, t3⟩ := T
    simp only at t1 t2 t3
    subst t1
    refine (ih t3 t2).bind fun u v T => ?_
    obtain ⟨u1, u2, u3⟩ := u
    obtain ⟨v1, v2, v3⟩ := v
    obtain ⟨t1, t2, t3⟩ := T
    simp only at t1 t2 t3
    subst t1
    exact Rel.ok ⟨rfl, t2, t3⟩

theorem session_rel {al : Nat → Nat} {h0 : Heap} (M : List (List Nat)) (rows : List Nat) (ha : Distinct al (nodes M))
    (hb : Before h0) :
    Rel (fun x y => y.1 = x.1 ∧ Sim (place al) (nodes M) h0.mem (nodes M + 1) x.2 y.2)
      (session (Matrix.new Heap.empty M) rows) (session (Matrix.newAt al h0 M) rows) := by
  have P := place_map ha
  refine (new_rel P (place_al al _) M hb.1 hb.2 rfl).bind fun x y T => ?_
  obtain ⟨x1, x2⟩ := x
  obtain ⟨y1, y2⟩ := y
  obtain ⟨t1, t2⟩ := T
  simp only at t1 t2
  refine (addRows_rel P rows t2 t1).bind fun u v T => ?_
  obtain ⟨u1, u2, u3⟩ := u
  obtain ⟨v1, v2, v3⟩ := v
  obtain ⟨t1, t2, t3⟩ := T
  simp only at t1 t2 t3
  subst t1
  refine (t3.solve P t2).bind fun a b T => ?_
  obtain ⟨a1, a2⟩ := a
  obtain ⟨b1, b2⟩ := b
  obtain ⟨t1, t2⟩ := T
  simp only at t1 t2
  subst t1
  exact Rel.ok ⟨rfl, t2⟩

theorem sim_frame {al : Nat → Nat} {n : Nat} {base : Nat → Cell} {h h' : Heap} (S : Sim (place al) n base (n + 1) h h')
    (q : Nat) (hq : ∀ k, 1 ≤ k → k ≤ n → q ≠ al k) : h'.mem q = base q :=
  S.out q fun a h1 h2 => by rw [← place_al al n a h1 (by omega)]; exact hq a h1 (by omega)

theorem sim_freed {al : Nat → Nat} {n : Nat} {base : Nat → Cell} {h h' : Heap} (S : Sim (place al) n base (n + 1) h h')
    (hf : AllFreed h) (k : Nat) (h1 : 1 ≤ k) (h2 : k ≤ n) : h'.mem (al k) = .freed := by
  rw [place_al al n k h1 h2, S.img k h1 (by omega), (hf k).1 ⟨h1, by rw [S.next]; omega⟩]
  rfl

theorem addRows_hist {M : List (List Nat)} {log : List (Nat × Except DLError Unit)} (rs : List Nat) {m m' : Matrix}
    {h h' : Heap} {l} (H : Hist M log m h) (e : addRows m h rs = .ok (l, m', h')) : ∃ log', Hist M log' m' h' := by
  induction rs generalizing m h log l with
  | nil => cases e; exact ⟨log, H⟩
  | cons r rs ih =>
    obtain ⟨⟨res, m1, h1⟩, e1, e⟩ := Prog.bind_eq_ok.1 e
    obtain ⟨⟨l', m2, h2⟩, e2, e⟩ := Prog.bind_eq_ok.1 e
    cases e
    exact ih (H.add e1) e2

theorem add_cases {M : List (List Nat)} (hM : ∀ col ∈ M, col.Nodup) {log m h} (H : Hist M log m h) (r : Nat) :
    addSolution m h r = .ub ∨ ∃ res m1 h1, addSolution m h r = .ok (res, m1, h1) := by
  have := (C16_add_outcome M hM log m h H r).2
  revert this
  cases expected M (accepted log) r
  · exact fun e => .inr ⟨_, _, _, e⟩
  · exact fun e => .inr ⟨_, _, _, e⟩
  · exact fun ⟨m', h', e, _⟩ => .inr ⟨_, _, _, e⟩
  · exact fun e => .inl e

theorem addRows_cases {M : List (List Nat)} (hM : ∀ col ∈ M, col.Nodup) (rs : List Nat) :
    ∀ log m h, Hist M log m h → addRows m h rs = .ub ∨ ∃ z, addRows m h rs = .ok z := by
  induction rs with
  | nil => exact fun _ _ _ _ => .inr ⟨_, rfl⟩
  | cons r rs ih =>
    intro log m h H
    rw [addRows]
    rcases add_cases hM H r with hu | ⟨res, m1, h1, e1⟩
    · rw [hu]; exact .inl rfl
    · rw [e1, Prog.ok_bind]
      rcases ih _ m1 h1 (H.add e1) with hu | ⟨⟨l, m2, h2⟩, e2⟩
      · exact .inl (by simp only [hu]; rfl)
      · exact .inr ⟨_, by simp only [e2, Prog.ok_bind]; rfl⟩

theorem session_cases {M : List (List Nat)} (hM : ∀ col ∈ M, col.Nodup) (rows : List Nat) :
    session (Matrix.new Heap.empty M) rows = .ub ∨
    ∃ y h, session (Matrix.new Heap.empty M) rows = .ok (y, h) ∧ AllFreed h := by
  obtain ⟨m, h, en, H, _⟩ := new_ok M hM
  unfold session
  simp only [en, Prog.ok_bind]
  rcases addRows_cases hM rows _ m h H with hu | ⟨⟨l, m1, h1⟩, e1⟩
  · exact .inl (by rw [hu]; rfl)
  · obtain ⟨log', H'⟩ := addRows_hist rows H e1
    obtain ⟨⟨res, h2, e2, f⟩, _⟩ := C19_no_leak M hM log' m1 h1 H'
    exact .inr ⟨_, h2, by rw [e1, Prog.ok_bind]; simp only [e2, Prog.ok_bind]; rfl, f⟩

/-! ### Null -/

/-- `x` uses memory wrongly, or returns with `P`. -/
def UbOr {α : Type} (P : α → Prop) (x : Prog α) : Prop := x = .ub ∨ ∃ a, x = .ok a ∧ P a

theorem UbOr.bind {α β : Type} {P : α → Prop} {Q : β → Prop} {x : Prog α} {f : α → Prog β} (h : UbOr P x)
    (hf : ∀ a, P a → UbOr Q (f a)) : UbOr Q (x >>= f) := by
  rcases h with rfl | ⟨a, rfl, ha⟩
  · exact .inl rfl
  · exact hf a ha

theorem UbOr.ub {α : Type} {x : Prog α} (h : UbOr (fun _ => False) x) : x = .ub := by
  rcases h with h | ⟨_, _, hf⟩
  · exact h
  · exact hf.elim

/-- Null is not allocated. -/
def NullFree (h : Heap) : Prop := h.mem 0 = .unalloc

theorem read_ubOr (h : Heap) (p : Nat) : UbOr (fun _ => True) (h.read p) := by
  unfold Heap.read
  cases h.mem p with
  | live n => exact .inr ⟨n, rfl, trivial⟩
  | _ => exact .inl rfl

theorem write_ubOr {h : Heap} (hn : NullFree h) (p : Nat) (n : Node) : UbOr NullFree (h.write p n) := by
  have hput : h.mem p ≠ .unalloc → NullFree (h.put p (.live n)) := fun hne => by
    show (if 0 = p then _ else _) = _
    rw [if_neg fun e => hne (by rw [← e]; exact hn)]
    exact hn
  unfold Heap.write
  cases hc : h.mem p with
  | live n' => exact .inr ⟨_, rfl, hput (by simp [hc])⟩
  | uninit => exact .inr ⟨_, rfl, hput (by simp [hc])⟩
  | unalloc => exact .inl rfl
  | freed => exact .inl rfl

theorem setLeft_ubOr {h : Heap} (hn : NullFree h) (p v : Nat) : UbOr NullFree (h.setLeft p v) :=
  (read_ubOr h p).bind fun _ _ => write_ubOr hn _ _
theorem setRight_ubOr {h : Heap} (hn : NullFree h) (p v : Nat) : UbOr NullFree (h.setRight p v) :=
  (read_ubOr h p).bind fun _ _ => write_ubOr hn _ _
theorem setUp_ubOr {h : Heap} (hn : NullFree h) (p v : Nat) : UbOr NullFree (h.setUp p v) :=
  (read_ubOr h p).bind fun _ _ => write_ubOr hn _ _
theorem setDown_ubOr {h : Heap} (hn : NullFree h) (p v : Nat) : UbOr NullFree (h.setDown p v) :=
  (read_ubOr h p).bind fun _ _ => write_ubOr hn _ _

theorem write_null {h : Heap} (hn : NullFree h) (n : Node) : h.write 0 n = .ub := by
  unfold Heap.write; rw [hn]

theorem allocAt_null {al : Nat → Nat} {h : Heap} (hn : NullFree h) (h0 : al h.next = 0) :
    (h.allocAt al).1 = 0 ∧ NullFree (h.allocAt al).2 := by
  unfold Heap.allocAt; rw [if_pos h0]; exact ⟨rfl, hn⟩

theorem newHeader_null {al : Nat → Nat} {h : Heap} (hn : NullFree h) (h0 : al h.next = 0) (pv k : Nat) :
    Node.newHeaderAt al h pv k = .ub := by
  obtain ⟨a1, a2⟩ := allocAt_null hn h0
  refine UbOr.ub ?_
  unfold Node.newHeaderAt
  simp only [a1]
  split
  · refine (read_ubOr _ _).bind fun _ _ => (read_ubOr _ _).bind fun _ _ => (setLeft_ubOr a2 _ _).bind fun _ n1 =>
      (setRight_ubOr n1 _ _).bind fun _ n2 => ?_
    simp only [Prog.pure_eq, Prog.ok_bind, write_null n2]
    exact .inl rfl
  · simp only [Prog.pure_eq, Prog.ok_bind, write_null a2]
    exact .inl rfl

theorem newNode_null {al : Nat → Nat} {h : Heap} (hn : NullFree h) (h0 : al h.next = 0) (hd rp cp row : Nat) :
    Node.newAt al h hd rp cp row = .ub := by
  obtain ⟨a1, a2⟩ := allocAt_null hn h0
  refine UbOr.ub ?_
  unfold Node.newAt
  simp only [a1]
  by_cases h1 : rp = 0
  case' pos => rw [if_neg (by simpa using h1)]
  case' neg =>
    rw [if_pos h1]
    refine (read_ubOr _ _).bind fun _ _ => (read_ubOr _ _).bind fun _ _ => (setLeft_ubOr a2 _ _).bind fun _ n1 =>
      (setRight_ubOr n1 _ _).bind fun _ a2 => ?_
  all_goals
    simp only [Prog.pure_eq, Prog.ok_bind]
    split
    · refine (read_ubOr _ _).bind fun _ _ => (read_ubOr _ _).bind fun _ _ => (setUp_ubOr a2 _ _).bind fun _ n1 =>
        (setDown_ubOr n1 _ _).bind fun _ n2 => ?_
      rw [write_null n2]
      exact .inl rfl
    · rw [write_null a2]
      exact .inl rfl

variable {π : Nat → Nat} {N : Nat} {base : Nat → Cell} {al : Nat → Nat}

theorem sim_nullFree {n : Nat} {h h' : Heap} (M : Map π N) (S : Sim π N base n h h') : NullFree h' := by
  have := S.mem M S.pos
  rwa [M.zero, S.null] at this

theorem newCells_null (M : Map π N) (hal : ∀ k, 0 < k → k ≤ N → al k = π k) (h0 : al (N + 1) = 0) {hd : Nat} :
    ∀ (xs : List Nat) (n : Nat) (s t : Heap × List Nat × Nat), LoopRel π N base n s t → Fine s → hd < n →
      N + 1 < n + xs.length → forIn' xs t (newCellAt al (π hd)) = .ub
  | [], n, s, t, L, _, _, hx => by have := L.1.le; simp at hx; omega
  | x :: xs, n, s, t, L, F, hh, hx => by
    rw [forIn'_cons]
    by_cases hn : n = N + 1
    · obtain ⟨t1, t2, t3⟩ := t
      have hnf := sim_nullFree M L.1
      have hnext := L.1.next'
      simp only at hnf hnext
      unfold newCellAt
      simp only
      generalize hr : (if x ≥ t2.length then t2 ++ List.replicate (x + 1 - t2.length) 0 else t2) = R
      have hx : x < R.length := by subst hr; split <;> (try simp only [List.length_append, List.length_replicate]) <;> omega
      rw [getP_ok hx]
      simp only [Prog.ok_bind]
      rw [newNode_null hnf (by rw [hnext, hn, h0])]
      rfl
    · have := L.1.le
      obtain ⟨s', e, F', _⟩ := newCell_fine (hd := hd) F x
      obtain ⟨t', e', L'⟩ := Rel.of_ok (newCell_rel M L (hal n L.1.pos (by omega)) (by omega) hh x) e
      rw [e', Prog.ok_bind]
      exact newCells_null M hal h0 xs (n + 1) s' t' L' F' (by omega) (by simp at hx; omega)

theorem newColumns_null (M : Map π N) (hal : ∀ k, 0 < k → k ≤ N → al k = π k) (h0 : al (N + 1) = 0) :
    ∀ (cs : List (List Nat)) (n : Nat) (s t : Heap × List Nat × Nat), LoopRel π N base n s t → Fine s →
      N + 1 < n + cs.length + cs.flatten.length → forIn' cs t (newColumnAt al) = .ub
  | [], n, s, t, L, _, hx => by have := L.1.le; simp at hx; omega
  | c :: cs, n, s, t, L, F, hx => by
    have hle := L.1.le
    rw [List.length_cons, List.flatten_cons, List.length_append] at hx
    rw [forIn'_cons]
    by_cases hn : N + 1 < n + 1 + c.length
    · suffices newColumnAt al t c = .ub by rw [this]; rfl
      obtain ⟨t1, t2, t3⟩ := t
      unfold newColumnAt
      by_cases hn' : n = N + 1
      · have hnf := sim_nullFree M L.1
        have hnext := L.1.next'
        simp only at hnf hnext
        simp only
        rw [newHeader_null hnf (by rw [hnext, hn', h0])]
        rfl
      · obtain ⟨s1, s2, s3⟩ := s
        obtain ⟨S, l1, l2, l3, l4⟩ := L
        obtain ⟨f1, f2, f3⟩ := F
        simp only at S l1 l2 l3 l4 f1 f2 f3
        subst l3 l4
        obtain ⟨h', e, w, hnx⟩ := newHeader_whole f1 (num := c.length) f3
        obtain ⟨⟨y1, y2⟩, e', e1, e2, S'⟩ :=
          Rel.of_ok (S.newHeader M (hal n S.pos (by omega)) (by omega) l2 c.length) e
        simp only at e1 e2 S'
        subst e2
        simp only [e', Prog.ok_bind]
        have hsn : s1.next = n := S.next
        have := newCells_null M hal h0 (hd := n) c (n + 1) (h', s2, n) (y2, s2.map π, π n)
          ⟨S', fun p hp => Nat.lt_succ_of_lt (l1 p hp), Nat.lt_succ_self _, rfl, rfl⟩
          ⟨w, fun p hp => by have := f2 p hp; simp only; omega, by simp only; omega⟩ (Nat.lt_succ_self _) (by omega)
        rw [this]; rfl
    · obtain ⟨s', e, F', _⟩ := newColumn_fine F c
      have hL : Rel (LoopRel π N base (n + 1 + c.length)) (newColumn s c) (newColumnAt al t c) := by
        have := newColumns_rel M hal [c] n s t L (by simp; omega)
        simp only [forIn'_cons, forIn'_nil, List.flatten_cons, List.flatten_nil, List.append_nil, List.length_cons,
          List.length_nil, Nat.zero_add] at this
        rw [show (newColumn s c >>= fun s => Prog.ok s) = newColumn s c from bind_pure _,
          show (newColumnAt al t c >>= fun s => Prog.ok s) = newColumnAt al t c from bind_pure _] at this
        exact this
      obtain ⟨t', e', L'⟩ := Rel.of_ok hL e
      rw [e', Prog.ok_bind]
      exact newColumns_null M hal h0 cs _ s' t' L' F' (by omega)

end DancingLinks.Alloc

namespace Sudoku.Alloc
open DancingLinks DancingLinks.Spec DancingLinks.Alloc DancingLinks.Props Sudoku Sudoku.Spec

theorem addGivens_rel {π : Nat → Nat} {N n : Nat} {base : Nat → Cell} (M : Map π N) :
    ∀ (l : List (UInt8 × Nat)) {m m' : Matrix} {h h' : Heap}, Sim π N base n h h' → MRel π n m m' →
      Rel (fun x y => y.1 = x.1 ∧ MRel π n x.2.1 y.2.1 ∧ Sim π N base n x.2.2 y.2.2) (addGivens l m h) (addGivens l m' h')
  | [], m, m', h, h', S, R => Rel.ok ⟨rfl, R, S⟩
  | (v, i) :: l, m, m', h, h', S, R => by
    rw [addGivens, addGivens]
    by_cases hv : v = 0
    · rw [if_pos hv, if_pos hv]; exact addGivens_rel M l S R
    · rw [if_neg hv, if_neg hv]
      refine (S.addSolution M R _).bind fun x y T => ?_
      obtain ⟨x1, x2, x3⟩ := x
      obtain ⟨y1, y2, y3⟩ := y
      obtain ⟨t1, t2, t3⟩ := T
      simp only at t1 t2 t3
      subst t1
      rcases y1 with e | u
      · cases e
        · exact addGivens_rel M l t3 t2
        · exact Rel.ok ⟨rfl, t2, t3⟩
        · exact addGivens_rel M l t3 t2
      · exact addGivens_rel M l t3 t2

theorem nodes_def (M : List (List Nat)) : nodes M = 1 + M.length + M.flatten.length := rfl

theorem nodes_constraints : nodes constraints = 3241 := by
  rw [nodes, List.length_flatten, constraints_eq]
  decide +kernel

theorem solveSudoku_rel {al : Nat → Nat} {h0 : Heap} (p : List UInt8) (hp : p.length = 81) {N : Nat}
    (hN : N = 1 + constraints.length + constraints.flatten.length) (ha : Distinct al N) (hb : Before h0) :
    Rel (fun x y => y.1 = x.1 ∧ Sim (place al) N h0.mem (N + 1) x.2 y.2) (solveSudoku p) (solveSudokuAt al h0 p) := by
  have P := place_map ha
  unfold solveSudoku solveSudokuAt
  rw [if_neg (by simp [gridSize, hp]), if_neg (by simp [gridSize, hp])]
  generalize constraints = cs at hN ⊢
  refine (new_rel P (place_al al _) cs hb.1 hb.2 hN).bind fun x y T => ?_
  obtain ⟨x1, x2⟩ := x
  obtain ⟨y1, y2⟩ := y
  obtain ⟨t1, t2⟩ := T
  simp only at t1 t2
  refine (addGivens_rel P _ t2 t1).bind fun u v T => ?_
  obtain ⟨u1, u2, u3⟩ := u
  obtain ⟨v1, v2, v3⟩ := v
  obtain ⟨t1, t2, t3⟩ := T
  simp only at t1 t2 t3
  subst t1
  simp only
  by_cases hv : v1 = false
  · rw [if_pos hv, if_pos hv]
    exact (t3.drop P t2).bind fun _ _ S => Rel.ok ⟨rfl, S⟩
  · rw [if_neg hv, if_neg hv]
    refine (t3.solve P t2).bind fun a b T => ?_
    obtain ⟨a1, a2⟩ := a
    obtain ⟨b1, b2⟩ := b
    obtain ⟨t1, t2⟩ := T
    simp only at t1 t2
    subst t1
    cases b1 with
    | error e => exact Rel.ok ⟨rfl, t2⟩
    | ok sol => exact Rel.ok ⟨rfl, t2⟩

end Sudoku.Alloc
