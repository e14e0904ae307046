import Verif.Model.Allocator

/-! The functions on the linked structure do not depend on the addresses of the nodes. -/
namespace DancingLinks.Alloc
open DancingLinks

/-- `y` does what `x` does, with related results; it runs forever exactly if `x` does. -/
def Rel {α β : Type} (R : α → β → Prop) : Prog α → Prog β → Prop
  | .ok a, y => ∃ b, y = .ok b ∧ R a b
  | .panic, y => y = .panic
  | .ub, y => y = .ub
  | .diverge, y => y = .diverge

theorem Rel.bind {α β α' β' : Type} {R : α → β → Prop} {S : α' → β' → Prop} {x : Prog α} {y : Prog β}
    {f : α → Prog α'} {g : β → Prog β'} (h : Rel R x y) (hf : ∀ a b, R a b → Rel S (f a) (g b)) :
    Rel S (x >>= f) (y >>= g) := by
  cases x with
  | ok a => obtain ⟨b, rfl, hab⟩ := h; exact hf a b hab
  | panic => cases (show y = .panic from h); rfl
  | ub => cases (show y = .ub from h); rfl
  | diverge => cases (show y = .diverge from h); rfl

theorem Rel.mono {α β : Type} {R S : α → β → Prop} {x : Prog α} {y : Prog β} (h : Rel R x y)
    (hs : ∀ a b, R a b → S a b) : Rel S x y := by
  cases x with
  | ok a => obtain ⟨b, rfl, hab⟩ := h; exact ⟨b, rfl, hs a b hab⟩
  | panic => exact h
  | ub => exact h
  | diverge => exact h

theorem Rel.ok {α β : Type} {R : α → β → Prop} {a : α} {b : β} (h : R a b) : Rel R (.ok a) (.ok b) := ⟨b, rfl, h⟩

/-- `Rel`, unless the left (`side`) or the right program runs forever. -/
def Weak (side : Bool) {α β : Type} (R : α → β → Prop) (x : Prog α) (y : Prog β) : Prop :=
  Rel R x y ∨ (side = true ∧ x = .diverge) ∨ (side = false ∧ y = .diverge)

theorem Rel.weak {α β : Type} {R : α → β → Prop} {x : Prog α} {y : Prog β} (side : Bool) (h : Rel R x y) :
    Weak side R x y := .inl h

theorem Weak.bind {side : Bool} {α β α' β' : Type} {R : α → β → Prop} {S : α' → β' → Prop} {x : Prog α} {y : Prog β}
    {f : α → Prog α'} {g : β → Prog β'} (h : Weak side R x y) (hf : ∀ a b, R a b → Weak side S (f a) (g b)) :
    Weak side S (x >>= f) (y >>= g) := by
  rcases h with h | ⟨e, rfl⟩ | ⟨e, rfl⟩
  · cases x with
    | ok a => obtain ⟨b, rfl, hab⟩ := h; exact hf a b hab
    | panic => cases (show y = .panic from h); exact .inl rfl
    | ub => cases (show y = .ub from h); exact .inl rfl
    | diverge => cases (show y = .diverge from h); exact .inl rfl
  · exact .inr (.inl ⟨e, rfl⟩)
  · exact .inr (.inr ⟨e, rfl⟩)

theorem Weak.both {α β : Type} {R : α → β → Prop} {x : Prog α} {y : Prog β} (h : Weak true R x y) (h' : Weak false R x y) :
    Rel R x y := by
  rcases h with h | ⟨_, rfl⟩ | ⟨e, _⟩
  · exact h
  · rcases h' with h' | ⟨e, _⟩ | ⟨_, rfl⟩
    · exact h'
    · cases e
    · rfl
  · cases e

/-- The node with all its addresses moved by `π`. -/
def ren (π : Nat → Nat) (n : Node) : Node :=
  { header := π n.header, left := π n.left, right := π n.right, up := π n.up, down := π n.down, row := n.row }

def renC (π : Nat → Nat) : Cell → Cell
  | .live n => .live (ren π n)
  | c => c

/-- All addresses in the node are below `n`. -/
structure Cl (n : Nat) (nd : Node) : Prop where
  header : nd.header < n
  left : nd.left < n
  right : nd.right < n
  up : nd.up < n
  down : nd.down < n

/-- The address map: null stays null, different addresses up to `N` stay different. -/
structure Map (π : Nat → Nat) (N : Nat) : Prop where
  zero : π 0 = 0
  inj : ∀ a b, a ≤ N → b ≤ N → π a = π b → a = b

/-- `h'` is `h` with the addresses moved by `π`, on top of the memory `base`. -/
structure Sim (π : Nat → Nat) (N : Nat) (base : Nat → Cell) (n : Nat) (h h' : Heap) : Prop where
  pos : 0 < n
  le : n ≤ N + 1
  next : h.next = n
  next' : h'.next = n
  img : ∀ a, 0 < a → a < n → h'.mem (π a) = renC π (h.mem a)
  out : ∀ q, (∀ a, 0 < a → a < n → q ≠ π a) → h'.mem q = base q
  null : h.mem 0 = .unalloc
  null' : base 0 = .unalloc
  top : ∀ a, n ≤ a → h.mem a = .unalloc
  closed : ∀ a nd, h.mem a = .live nd → Cl n nd

variable {π : Nat → Nat} {N : Nat} {base : Nat → Cell} {n : Nat} {h h' : Heap}

theorem Sim.mem (M : Map π N) (S : Sim π N base n h h') {p : Nat} (hp : p < n) : h'.mem (π p) = renC π (h.mem p) := by
  rcases Nat.eq_zero_or_pos p with rfl | h0
  · rw [M.zero, S.null, S.out 0 fun a h1 h2 h3 => ?_, S.null']
    · rfl
    · rw [← M.zero] at h3
      have := M.inj 0 a (by omega) (by have := S.le; omega) h3
      omega
  · exact S.img p h0 hp

theorem Sim.read (M : Map π N) (S : Sim π N base n h h') {p : Nat} (hp : p < n) :
    Rel (fun a b => b = ren π a ∧ Cl n a) (h.read p) (h'.read (π p)) := by
  have hm := S.mem M hp
  unfold Heap.read
  cases hc : h.mem p with
  | live nd =>
    rw [hc] at hm
    simp only [renC] at hm
    rw [hm]
    exact ⟨_, rfl, rfl, S.closed p nd hc⟩
  | unalloc => rw [hc] at hm; simp only [renC] at hm; rw [hm]; rfl
  | uninit => rw [hc] at hm; simp only [renC] at hm; rw [hm]; rfl
  | freed => rw [hc] at hm; simp only [renC] at hm; rw [hm]; rfl

theorem Sim.put (M : Map π N) (S : Sim π N base n h h') {p : Nat} (h0 : 0 < p) (hp : p < n) (c : Cell)
    (hc : ∀ nd, c = .live nd → Cl n nd) : Sim π N base n (h.put p c) (h'.put (π p) (renC π c)) where
  pos := S.pos
  le := S.le
  next := S.next
  next' := S.next'
  img a ha1 ha2 := by
    show (if π a = π p then _ else _) = renC π (if a = p then _ else _)
    by_cases e : a = p
    · simp [e]
    · rw [if_neg e, if_neg fun e' => e (M.inj a p (by have := S.le; omega) (by have := S.le; omega) e'), S.img a ha1 ha2]
  out q hq := by
    show (if q = π p then _ else _) = _
    rw [if_neg (hq p h0 hp), S.out q hq]
  null := by
    show (if 0 = p then _ else _) = _
    rw [if_neg (by omega), S.null]
  null' := S.null'
  top a ha := by
    show (if a = p then _ else _) = _
    rw [if_neg (by omega), S.top a ha]
  closed a nd e := by
    change (if a = p then _ else _) = _ at e
    by_cases e' : a = p
    · rw [if_pos e'] at e; exact hc nd e
    · rw [if_neg e'] at e; exact S.closed a nd e

theorem Sim.write (M : Map π N) (S : Sim π N base n h h') {p : Nat} (hp : p < n) {nd : Node} (hn : Cl n nd) :
    Rel (Sim π N base n) (h.write p nd) (h'.write (π p) (ren π nd)) := by
  have hm := S.mem M hp
  have hput : h.mem p ≠ .unalloc → Sim π N base n (h.put p (.live nd)) (h'.put (π p) (renC π (.live nd))) := fun hne =>
    S.put M (Nat.pos_of_ne_zero (n := p) fun e => hne (by rw [e]; exact S.null)) hp _ fun nd' e => by cases e; exact hn
  unfold Heap.write
  cases hc : h.mem p with
  | live nd' => rw [hc] at hm; simp only [renC] at hm; rw [hm]; exact Rel.ok (hput (by simp [hc]))
  | unalloc => rw [hc] at hm; simp only [renC] at hm; rw [hm]; rfl
  | uninit => rw [hc] at hm; simp only [renC] at hm; rw [hm]; exact Rel.ok (hput (by simp [hc]))
  | freed => rw [hc] at hm; simp only [renC] at hm; rw [hm]; rfl

theorem Sim.dealloc (M : Map π N) (S : Sim π N base n h h') {p : Nat} (hp : p < n) :
    Rel (Sim π N base n) (h.dealloc p) (h'.dealloc (π p)) := by
  have hm := S.mem M hp
  have hput : h.mem p ≠ .unalloc → Sim π N base n (h.put p .freed) (h'.put (π p) (renC π .freed)) := fun hne =>
    S.put M (Nat.pos_of_ne_zero (n := p) fun e => hne (by rw [e]; exact S.null)) hp _ fun nd' e => by cases e
  unfold Heap.dealloc
  cases hc : h.mem p with
  | live nd' => rw [hc] at hm; simp only [renC] at hm; rw [hm]; exact Rel.ok (hput (by simp [hc]))
  | unalloc => rw [hc] at hm; simp only [renC] at hm; rw [hm]; rfl
  | uninit => rw [hc] at hm; simp only [renC] at hm; rw [hm]; exact Rel.ok (hput (by simp [hc]))
  | freed => rw [hc] at hm; simp only [renC] at hm; rw [hm]; rfl

theorem Sim.setLeft (M : Map π N) (S : Sim π N base n h h') {p v : Nat} (hp : p < n) (hv : v < n) :
    Rel (Sim π N base n) (h.setLeft p v) (h'.setLeft (π p) (π v)) :=
  (S.read M hp).bind fun a b ⟨e, c⟩ => by subst e; exact S.write M hp (nd := { a with left := v }) { c with left := hv }

theorem Sim.setRight (M : Map π N) (S : Sim π N base n h h') {p v : Nat} (hp : p < n) (hv : v < n) :
    Rel (Sim π N base n) (h.setRight p v) (h'.setRight (π p) (π v)) :=
  (S.read M hp).bind fun a b ⟨e, c⟩ => by subst e; exact S.write M hp (nd := { a with right := v }) { c with right := hv }

theorem Sim.setUp (M : Map π N) (S : Sim π N base n h h') {p v : Nat} (hp : p < n) (hv : v < n) :
    Rel (Sim π N base n) (h.setUp p v) (h'.setUp (π p) (π v)) :=
  (S.read M hp).bind fun a b ⟨e, c⟩ => by subst e; exact S.write M hp (nd := { a with up := v }) { c with up := hv }

theorem Sim.setDown (M : Map π N) (S : Sim π N base n h h') {p v : Nat} (hp : p < n) (hv : v < n) :
    Rel (Sim π N base n) (h.setDown p v) (h'.setDown (π p) (π v)) :=
  (S.read M hp).bind fun a b ⟨e, c⟩ => by subst e; exact S.write M hp (nd := { a with down := v }) { c with down := hv }

theorem Sim.setRow (M : Map π N) (S : Sim π N base n h h') {p : Nat} (hp : p < n) (v : Nat) :
    Rel (Sim π N base n) (h.setRow p v) (h'.setRow (π p) v) :=
  (S.read M hp).bind fun a b ⟨e, c⟩ => by subst e; exact S.write M hp (nd := { a with row := v }) { c with }

/-! ### Iterators -/

/-- The same iterator at the moved addresses. -/
def IterRel (π : Nat → Nat) (n : Nat) (a b : Iter) : Prop :=
  a.original < n ∧ a.current < n ∧ b = ⟨π a.original, π a.current⟩

theorem iterRel {p : Nat} (hp : p < n) : IterRel π n (iter p) (iter (π p)) := ⟨hp, hp, rfl⟩

theorem Cl.get {nd : Node} (c : Cl n nd) (d : Dir) : nd.get d < n := by
  cases d
  · exact c.left
  · exact c.right
  · exact c.up
  · exact c.down

theorem ren_get (nd : Node) (d : Dir) : (ren π nd).get d = π (nd.get d) := by cases d <;> rfl

theorem Map.eq_iff (M : Map π N) (hn : n ≤ N + 1) {a b : Nat} (ha : a < n) (hb : b < n) : π a = π b ↔ a = b :=
  ⟨M.inj a b (by omega) (by omega), fun e => e ▸ rfl⟩

theorem Map.zero_iff (M : Map π N) (hn : n ≤ N + 1) {a : Nat} (ha : a < n) : π a = 0 ↔ a = 0 := by
  have := M.eq_iff hn ha (show 0 < n by omega)
  rwa [M.zero] at this

theorem Sim.next_rel (M : Map π N) (S : Sim π N base n h h') (d : Dir) {a b : Iter} (I : IterRel π n a b) :
    Rel (fun x y => y.1 = x.1.map π ∧ (∀ p, x.1 = some p → p < n) ∧ IterRel π n x.2 y.2) (a.next d h) (b.next d h') := by
  obtain ⟨h1, h2, rfl⟩ := I
  unfold Iter.next
  simp only [M.zero_iff S.le h2]
  by_cases h0 : a.current = 0
  · rw [if_pos h0, if_pos h0]
    exact Rel.ok ⟨rfl, nofun, h1, h2, rfl⟩
  · rw [if_neg h0, if_neg h0]
    refine (S.read M h2).bind fun nd nd' ⟨e, c⟩ => ?_
    subst e
    refine Rel.ok ⟨rfl, fun p hp => ?_, h1, ?_, ?_⟩
    · cases hp; exact h2
    · show (if nd.get d = a.original then 0 else nd.get d) < n
      split
      · exact S.pos
      · exact c.get d
    · show Iter.mk _ (if (ren π nd).get d = π a.original then 0 else (ren π nd).get d) = _
      rw [ren_get]
      simp only [M.eq_iff S.le (c.get d) h1, Iter.mk.injEq, true_and]
      show _ = π (if nd.get d = a.original then 0 else nd.get d)
      split
      · rw [M.zero]
      · rfl

theorem Sim.iterSkip1 (M : Map π N) (S : Sim π N base n h h') (d : Dir) {p : Nat} (hp : p < n) :
    Rel (IterRel π n) (iterSkip1 d h p) (iterSkip1 d h' (π p)) :=
  (S.next_rel M d (iterRel hp)).bind fun _ _ ⟨_, _, I⟩ => Rel.ok I

/-- One turn of `forIter`, followed by `f`. -/
def turn {σ : Type} (hp : σ → Heap) (d : Dir) (body : σ → Nat → Prog σ) (f : Iter → σ → Prog σ) (it : Iter) (s : σ) :
    Prog σ := do
  let (x, it) ← it.next d (hp s)
  match x with
  | none => return s
  | some p =>
    let s ← body s p
    f it s

theorem turn_weak (M : Map π N) (side : Bool) {σ τ : Type} {hp : σ → Heap} {hq : τ → Heap} {body : σ → Nat → Prog σ}
    {body' : τ → Nat → Prog τ} {d : Dir} {R : σ → τ → Prop} (hR : ∀ s t, R s t → Sim π N base n (hp s) (hq t))
    (step : ∀ s t p, R s t → p < n → Rel R (body s p) (body' t (π p))) {f : Iter → σ → Prog σ} {g : Iter → τ → Prog τ}
    (hf : ∀ it it' s t, IterRel π n it it' → R s t → Weak side R (f it s) (g it' t)) {it it' : Iter} {s : σ} {t : τ}
    (I : IterRel π n it it') (hs : R s t) : Weak side R (turn hp d body f it s) (turn hq d body' g it' t) := by
  refine (((hR s t hs).next_rel M d I).weak side).bind fun x y hxy => ?_
  obtain ⟨x, i⟩ := x
  obtain ⟨y, j⟩ := y
  obtain ⟨h1, h2, h3⟩ := hxy
  simp only at h1 h2 h3
  subst h1
  cases x with
  | none => exact (Rel.ok hs).weak side
  | some p => exact ((step s t p hs (h2 p rfl)).weak side).bind fun a b hab => hf _ _ _ _ h3 hab

theorem forIter_turn {σ : Type} (hp : σ → Heap) (d : Dir) (body : σ → Nat → Prog σ) (it : Iter) (s : σ) :
    forIter hp d it s body = turn hp d body (fun it s => forIter hp d it s body) it s := by
  rw [forIter]; rfl

theorem forIter_rel (M : Map π N) {σ τ : Type} {hp : σ → Heap} {hq : τ → Heap} {body : σ → Nat → Prog σ}
    {body' : τ → Nat → Prog τ} (d : Dir) (R : σ → τ → Prop) (hR : ∀ s t, R s t → Sim π N base n (hp s) (hq t))
    (step : ∀ s t p, R s t → p < n → Rel R (body s p) (body' t (π p))) :
    ∀ it it' s t, IterRel π n it it' → R s t → Rel R (forIter hp d it s body) (forIter hq d it' t body') := by
  intro it it' s t I hs
  refine Weak.both ?_ ?_
  · revert it s it' t
    suffices H : ∀ it s, ∀ it' t, IterRel π n it it' → R s t →
        Weak true R (forIter hp d it s body) (forIter hq d it' t body') from fun it it' s t => H it s it' t
    apply forIter.fixpoint_induct (hp := hp) (d := d) (body := body)
      (motive := fun f => ∀ it s, ∀ it' t, IterRel π n it it' → R s t → Weak true R (f it s) (forIter hq d it' t body'))
    · refine Lean.Order.admissible_pi_apply (α := Iter) (β := fun _ => σ → Prog σ)
        (fun it f => ∀ s, ∀ it' t, IterRel π n it it' → R s t → Weak true R (f s) (forIter hq d it' t body')) fun it => ?_
      refine Lean.Order.admissible_pi_apply (α := σ) (β := fun _ => Prog σ)
        (fun s r => ∀ it' t, IterRel π n it it' → R s t → Weak true R r (forIter hq d it' t body')) fun s => ?_
      exact Lean.Order.admissible_flatOrder (b := (Prog.diverge : Prog σ)) _ (fun _ _ _ _ => .inr (.inl ⟨rfl, rfl⟩))
    · intro f hf it s it' t I hs
      rw [forIter_turn]
      exact turn_weak M true hR step (fun it it' s t => hf it s it' t) I hs
  · revert it s it' t
    suffices H : ∀ it' t, ∀ it s, IterRel π n it it' → R s t →
        Weak false R (forIter hp d it s body) (forIter hq d it' t body') from fun it it' s t => H it' t it s
    apply forIter.fixpoint_induct (hp := hq) (d := d) (body := body')
      (motive := fun g => ∀ it' t, ∀ it s, IterRel π n it it' → R s t → Weak false R (forIter hp d it s body) (g it' t))
    · refine Lean.Order.admissible_pi_apply (α := Iter) (β := fun _ => τ → Prog τ)
        (fun it' g => ∀ t, ∀ it s, IterRel π n it it' → R s t → Weak false R (forIter hp d it s body) (g t)) fun it' => ?_
      refine Lean.Order.admissible_pi_apply (α := τ) (β := fun _ => Prog τ)
        (fun t r => ∀ it s, IterRel π n it it' → R s t → Weak false R (forIter hp d it s body) r) fun t => ?_
      exact Lean.Order.admissible_flatOrder (b := (Prog.diverge : Prog τ)) _ (fun _ _ _ _ => .inr (.inr ⟨rfl, rfl⟩))
    · intro g hg it' t it s I hs
      rw [forIter_turn]
      exact turn_weak M false hR step (fun it it' s t => hg it' t it s) I hs

theorem Sim.forAll (M : Map π N) (S : Sim π N base n h h') (d : Dir) {p : Nat} (hp : p < n)
    {body body' : Heap → Nat → Prog Heap}
    (step : ∀ a b q, Sim π N base n a b → q < n → Rel (Sim π N base n) (body a q) (body' b (π q))) :
    Rel (Sim π N base n) (forAll d h p body) (forAll d h' (π p) body') :=
  forIter_rel M d _ (fun _ _ h => h) step _ _ _ _ (iterRel hp) S

theorem Sim.forSkip1 (M : Map π N) (S : Sim π N base n h h') (d : Dir) {p : Nat} (hp : p < n)
    {body body' : Heap → Nat → Prog Heap}
    (step : ∀ a b q, Sim π N base n a b → q < n → Rel (Sim π N base n) (body a q) (body' b (π q))) :
    Rel (Sim π N base n) (forSkip1 d h p body) (forSkip1 d h' (π p) body') :=
  (S.iterSkip1 M d hp).bind fun _ _ I => forIter_rel M d _ (fun _ _ h => h) step _ _ _ _ I S

/-! ### node.rs -/

theorem Sim.coverHorizontal (M : Map π N) (S : Sim π N base n h h') {p : Nat} (hp : p < n) :
    Rel (Sim π N base n) (coverHorizontal h p) (coverHorizontal h' (π p)) :=
  (S.read M hp).bind fun a b ⟨e, c⟩ => by
    subst e
    exact (S.setRight M c.left c.right).bind fun _ _ S => S.setLeft M c.right c.left

theorem Sim.coverVertical (M : Map π N) (S : Sim π N base n h h') {p : Nat} (hp : p < n) :
    Rel (Sim π N base n) (coverVertical h p) (coverVertical h' (π p)) :=
  (S.read M hp).bind fun a b ⟨e, c⟩ => by
    subst e
    exact (S.setDown M c.up c.down).bind fun _ _ S => S.setUp M c.down c.up

theorem Sim.uncoverHorizontal (M : Map π N) (S : Sim π N base n h h') {p : Nat} (hp : p < n) :
    Rel (Sim π N base n) (uncoverHorizontal h p) (uncoverHorizontal h' (π p)) :=
  (S.read M hp).bind fun a b ⟨e, c⟩ => by
    subst e
    exact (S.setRight M c.left hp).bind fun _ _ S => S.setLeft M c.right hp

theorem Sim.uncoverVertical (M : Map π N) (S : Sim π N base n h h') {p : Nat} (hp : p < n) :
    Rel (Sim π N base n) (uncoverVertical h p) (uncoverVertical h' (π p)) :=
  (S.read M hp).bind fun a b ⟨e, c⟩ => by
    subst e
    exact (S.setDown M c.up hp).bind fun _ _ S => S.setUp M c.down hp

theorem Sim.toHeader (M : Map π N) (S : Sim π N base n h h') {p : Nat} (hp : p < n) :
    Rel (fun a b => a < n ∧ b = π a) (toHeader h p) (toHeader h' (π p)) :=
  (S.read M hp).bind fun a b ⟨e, c⟩ => by
    subst e
    have hz := M.zero_iff S.le c.header
    by_cases h0 : a.header = 0
    · rw [if_neg (by simpa using h0), if_neg (by simpa [ren] using hz.2 h0)]
      exact Rel.ok ⟨hp, rfl⟩
    · rw [if_pos h0, if_pos (by simpa [ren] using fun e => h0 (hz.1 e))]
      exact (S.read M hp).bind fun a b ⟨e, c⟩ => by subst e; exact Rel.ok ⟨c.header, rfl⟩

theorem Sim.coverCell (M : Map π N) (S : Sim π N base n h h') {p : Nat} (hp : p < n) :
    Rel (Sim π N base n) (coverCell h p) (coverCell h' (π p)) :=
  (S.coverVertical M hp).bind fun _ _ S => (S.read M hp).bind fun a b ⟨e, c⟩ => by
    subst e
    refine (S.read M c.header).bind fun a' b' ⟨e, _⟩ => ?_
    subst e
    by_cases h0 : a'.row = 0
    · rw [if_pos h0, if_pos (show (ren π a').row = 0 from h0)]; rfl
    · rw [if_neg h0, if_neg (show ¬(ren π a').row = 0 from h0)]
      exact S.setRow M c.header _

theorem Sim.coverColumn (M : Map π N) (S : Sim π N base n h h') {p : Nat} (hp : p < n) :
    Rel (Sim π N base n) (coverColumn h p) (coverColumn h' (π p)) :=
  (S.toHeader M hp).bind fun a b ⟨ha, e⟩ => by
    subst e
    exact (S.coverHorizontal M ha).bind fun _ _ S => S.forSkip1 M .down ha fun _ _ _ S hq =>
      S.forSkip1 M .right hq fun _ _ _ S hq => S.coverCell M hq

theorem Sim.uncoverCell (M : Map π N) (S : Sim π N base n h h') {p : Nat} (hp : p < n) :
    Rel (Sim π N base n) (uncoverCell h p) (uncoverCell h' (π p)) :=
  (S.read M hp).bind fun a b ⟨e, c⟩ => by
    subst e
    refine (S.read M c.header).bind fun a' b' ⟨e, _⟩ => ?_
    subst e
    exact (S.setRow M c.header _).bind fun _ _ S => S.uncoverVertical M hp

theorem Sim.uncoverColumn (M : Map π N) (S : Sim π N base n h h') {p : Nat} (hp : p < n) :
    Rel (Sim π N base n) (uncoverColumn h p) (uncoverColumn h' (π p)) :=
  (S.toHeader M hp).bind fun a b ⟨ha, e⟩ => by
    subst e
    exact (S.forSkip1 M .up ha fun _ _ _ S hq => S.forSkip1 M .left hq fun _ _ _ S hq => S.uncoverCell M hq).bind
      fun _ _ S => S.uncoverHorizontal M ha

theorem Sim.freeRow (M : Map π N) (S : Sim π N base n h h') {p : Nat} (hp : p < n) :
    Rel (Sim π N base n) (freeRow h p) (freeRow h' (π p)) :=
  (S.forSkip1 M .right hp fun _ _ _ S hq => S.dealloc M hq).bind fun _ _ S => S.dealloc M hp

theorem Sim.freeChain (M : Map π N) (S : Sim π N base n h h') {p : Nat} (hp : p < n) :
    Rel (Sim π N base n) (freeChain h p) (freeChain h' (π p)) :=
  (S.toHeader M hp).bind fun a b ⟨ha, e⟩ => by
    subst e
    exact (S.forSkip1 M .down ha fun _ _ _ S hq => S.freeRow M hq).bind fun _ _ S => S.dealloc M ha

/-! ### mod.rs -/

theorem getP_rel {rows : List Nat} (hr : ∀ p ∈ rows, p < n) (i : Nat) :
    Rel (fun a b => a < n ∧ b = π a) (getP rows i) (getP (rows.map π) i) := by
  unfold getP
  rw [List.getElem?_map]
  cases hi : rows[i]? with
  | none => rfl
  | some p => exact ⟨_, rfl, hr p (List.mem_of_getElem? hi), rfl⟩

theorem mem_set {α : Type} {l : List α} {i : Nat} {v x : α} (h : x ∈ l.set i v) : x ∈ l ∨ x = v := by
  exact List.mem_or_eq_of_mem_set h

theorem setP_rel {rows : List Nat} (hr : ∀ p ∈ rows, p < n) (i : Nat) {v : Nat} (hv : v < n) :
    Rel (fun a b => (∀ p ∈ a, p < n) ∧ b = a.map π) (setP rows i v) (setP (rows.map π) i (π v)) := by
  unfold setP
  rw [List.length_map]
  by_cases hi : i < rows.length
  · rw [if_pos hi, if_pos hi]
    refine Rel.ok ⟨fun p hp => ?_, List.map_set.symm⟩
    rcases mem_set hp with h | rfl
    · exact hr p h
    · exact hv
  · rw [if_neg hi, if_neg hi]; rfl

/-- The same matrix at the moved addresses. -/
def MRel (π : Nat → Nat) (n : Nat) (m m' : Matrix) : Prop :=
  m.root < n ∧ (∀ p ∈ m.rows, p < n) ∧ m' = ⟨π m.root, m.rows.map π, m.partialSolution⟩

/-- A heap and the vector of row pointers. -/
def RowsRel (π : Nat → Nat) (N : Nat) (base : Nat → Cell) (n : Nat) (s t : Heap × List Nat) : Prop :=
  Sim π N base n s.1 t.1 ∧ (∀ p ∈ s.2, p < n) ∧ t.2 = s.2.map π

theorem nullRow_rel (M : Map π N) {s t : Heap × List Nat} (R : RowsRel π N base n s t) {p : Nat} (hp : p < n) :
    Rel (RowsRel π N base n) (nullRow s p) (nullRow t (π p)) := by
  obtain ⟨S, h1, h2⟩ := R
  refine (S.read M hp).bind fun a b ⟨e, c⟩ => ?_
  subst e
  have := setP_rel (π := π) h1 a.row S.pos
  rw [M.zero] at this
  rw [h2]
  exact this.bind fun u v ⟨g1, g2⟩ => Rel.ok ⟨S, g1, g2⟩

/-- A result of `add_solution`. -/
def AddRel (π : Nat → Nat) (N : Nat) (base : Nat → Cell) (n : Nat) (x y : Except DLError Unit × Matrix × Heap) : Prop :=
  y.1 = x.1 ∧ MRel π n x.2.1 y.2.1 ∧ Sim π N base n x.2.2 y.2.2

theorem Sim.addSolution (M : Map π N) (S : Sim π N base n h h') {m m' : Matrix} (R : MRel π n m m') (row : Nat) :
    Rel (AddRel π N base n) (addSolution m h row) (addSolution m' h' row) := by
  obtain ⟨r1, r2, rfl⟩ := R
  unfold DancingLinks.addSolution
  simp only [List.length_map]
  by_cases hi : row ≥ m.rows.length
  · rw [if_pos hi, if_pos hi]
    exact Rel.ok ⟨rfl, ⟨r1, r2, rfl⟩, S⟩
  · rw [if_neg hi, if_neg hi]
    refine (getP_rel r2 row).bind fun p q ⟨hp, e⟩ => ?_
    subst e
    simp only [M.zero_iff S.le hp]
    by_cases h0 : p = 0
    · rw [if_pos h0, if_pos h0]
      exact Rel.ok ⟨rfl, ⟨r1, r2, rfl⟩, S⟩
    · rw [if_neg h0, if_neg h0]
      refine (S.read M hp).bind fun a b ⟨e, c⟩ => ?_
      subst e
      refine (S.iterSkip1 M .down c.header).bind fun i j I => ?_
      refine (forIter_rel M .down (RowsRel π N base n) (fun _ _ R => R.1) (fun _ _ _ R hp => nullRow_rel M R hp)
        i j (h, m.rows) (h', m.rows.map π) I ⟨S, r2, rfl⟩).bind fun s t T => ?_
      obtain ⟨_, t1, t2⟩ := T
      refine (S.forAll M .right hp fun _ _ _ S hq => S.coverColumn M hq).bind fun _ _ S => ?_
      refine (S.forSkip1 M .right hp fun _ _ _ S hq => S.freeChain M hq).bind fun _ _ S => ?_
      refine (S.freeChain M hp).bind fun _ _ S => ?_
      exact Rel.ok ⟨rfl, ⟨r1, t1, by simp only; rw [t2]⟩, S⟩

theorem Sim.isEmpty (M : Map π N) (S : Sim π N base n h h') {p : Nat} (hp : p < n) :
    Rel (fun a b => b = a) (isEmpty h p) (isEmpty h' (π p)) :=
  (S.read M hp).bind fun a b ⟨e, c⟩ => by
    subst e
    exact Rel.ok (by simp only [decide_eq_decide]; exact M.eq_iff S.le c.right hp)

/-- A heap and an optional node. -/
def PickRel (π : Nat → Nat) (N : Nat) (base : Nat → Cell) (n : Nat) (s t : Heap × Option Nat) : Prop :=
  Sim π N base n s.1 t.1 ∧ (∀ p, s.2 = some p → p < n) ∧ t.2 = s.2.map π

theorem pickMin_rel (M : Map π N) {s t : Heap × Option Nat} (R : PickRel π N base n s t) {p : Nat} (hp : p < n) :
    Rel (PickRel π N base n) (pickMin s p) (pickMin t (π p)) := by
  obtain ⟨s1, s2⟩ := s
  obtain ⟨t1, t2⟩ := t
  obtain ⟨S, h1, h2⟩ := R
  simp only at S h1 h2
  subst h2
  cases s2 with
  | none => exact Rel.ok ⟨S, fun q e => by cases e; exact hp, rfl⟩
  | some b =>
    have hb := h1 b rfl
    refine (S.read M hb).bind fun x x' ⟨e, _⟩ => ?_
    subst e
    refine (S.read M hp).bind fun y y' ⟨e, _⟩ => ?_
    subst e
    by_cases hxy : x.row ≤ y.row
    · rw [if_pos hxy, if_pos (show (ren π x).row ≤ (ren π y).row from hxy)]; exact Rel.ok ⟨S, h1, rfl⟩
    · rw [if_neg hxy, if_neg (show ¬(ren π x).row ≤ (ren π y).row from hxy)]; exact Rel.ok ⟨S, fun q e => by cases e; exact hp, rfl⟩

theorem Sim.chooseColumn (M : Map π N) (S : Sim π N base n h h') {p : Nat} (hp : p < n) :
    Rel (fun a b => a < n ∧ b = π a) (chooseColumn h p) (chooseColumn h' (π p)) := by
  refine (S.iterSkip1 M .right hp).bind fun i j I => ?_
  refine (forIter_rel M .right (PickRel π N base n) (fun _ _ R => R.1) (fun _ _ _ R hp => pickMin_rel M R hp)
    i j (h, none) (h', none) I ⟨S, nofun, rfl⟩).bind fun s t T => ?_
  obtain ⟨_, t1, t2⟩ := T
  rw [t2]
  cases hs : s.2 with
  | none => rfl
  | some q => exact Rel.ok ⟨t1 q hs, rfl⟩

/-- A result of `solve_helper`. -/
def SolRel (π : Nat → Nat) (N : Nat) (base : Nat → Cell) (n : Nat) (x y : Bool × Heap × List Nat) : Prop :=
  y.1 = x.1 ∧ Sim π N base n x.2.1 y.2.1 ∧ y.2.2 = x.2.2

/-- `solve_helper`, with `g` for its loop. -/
def helperStep (root : Nat) (g : Nat → Iter → Heap → List Nat → Prog (Bool × Heap × List Nat)) (h : Heap) (ps : List Nat) :
    Prog (Bool × Heap × List Nat) := do
  if ← isEmpty h root then
    return (true, h, ps)
  let constraint ← chooseColumn h root
  let h ← coverColumn h constraint
  let it ← iterSkip1 .down h constraint
  g constraint it h ps

/-- One turn of the loop of `solve_helper`, with `f` for the recursive call and `g` for the rest of the loop. -/
def rowsStep (f : Heap → List Nat → Prog (Bool × Heap × List Nat))
    (g : Nat → Iter → Heap → List Nat → Prog (Bool × Heap × List Nat)) (constraint : Nat) (it : Iter) (h : Heap)
    (ps : List Nat) : Prog (Bool × Heap × List Nat) := do
  let (x, it) ← it.next .down h
  match x with
  | none =>
    let h ← uncoverColumn h constraint
    return (false, h, ps)
  | some row =>
    let n ← h.read row
    let ps := ps ++ [n.row]
    let h ← forSkip1 .right h row coverColumn
    let (found, h, ps) ← f h ps
    if found then
      let h ← forSkip1 .right h row freeChain
      let h ← freeChain h constraint
      return (true, h, ps)
    let h ← forSkip1 .left h row uncoverColumn
    let ps := ps.dropLast
    g constraint it h ps

theorem helper_step (root : Nat) (h : Heap) (ps : List Nat) :
    solveHelper root h ps = helperStep root (solveRows root) h ps := by rw [solveHelper]; rfl

theorem rows_step (root c : Nat) (it : Iter) (h : Heap) (ps : List Nat) :
    solveRows root c it h ps = rowsStep (solveHelper root) (solveRows root) c it h ps := by rw [solveRows]; rfl

/-- What is shown about `solve_helper` and about its loop. -/
def HelperRel (π : Nat → Nat) (N : Nat) (base : Nat → Cell) (n : Nat) (side : Bool)
    (f f' : Heap → List Nat → Prog (Bool × Heap × List Nat)) : Prop :=
  ∀ h ps h', Sim π N base n h h' → Weak side (SolRel π N base n) (f h ps) (f' h' ps)

def RowsStepRel (π : Nat → Nat) (N : Nat) (base : Nat → Cell) (n : Nat) (side : Bool)
    (g g' : Nat → Iter → Heap → List Nat → Prog (Bool × Heap × List Nat)) : Prop :=
  ∀ c it h ps it' h', c < n → IterRel π n it it' → Sim π N base n h h' →
    Weak side (SolRel π N base n) (g c it h ps) (g' (π c) it' h' ps)

theorem helperStep_weak (M : Map π N) (side : Bool) {root : Nat} (hr : root < n)
    {g g' : Nat → Iter → Heap → List Nat → Prog (Bool × Heap × List Nat)} (hg : RowsStepRel π N base n side g g') :
    HelperRel π N base n side (helperStep root g) (helperStep (π root) g') := by
  intro h ps h' S
  refine ((S.isEmpty M hr).weak side).bind fun a b e => ?_
  subst e
  cases b with
  | true => exact (Rel.ok ⟨rfl, S, rfl⟩).weak side
  | false =>
    refine ((S.chooseColumn M hr).weak side).bind fun c c' ⟨hc, e⟩ => ?_
    subst e
    refine ((S.coverColumn M hc).weak side).bind fun _ _ S => ?_
    exact ((S.iterSkip1 M .down hc).weak side).bind fun i j I => hg _ _ _ _ _ _ hc I S

theorem rowsStep_weak (M : Map π N) (side : Bool) {f f' : Heap → List Nat → Prog (Bool × Heap × List Nat)}
    (hf : HelperRel π N base n side f f') {g g' : Nat → Iter → Heap → List Nat → Prog (Bool × Heap × List Nat)}
    (hg : RowsStepRel π N base n side g g') : RowsStepRel π N base n side (rowsStep f g) (rowsStep f' g') := by
  intro c it h ps it' h' hc I S
  refine ((S.next_rel M .down I).weak side).bind fun x y hxy => ?_
  obtain ⟨x, i⟩ := x
  obtain ⟨y, j⟩ := y
  obtain ⟨h1, h2, h3⟩ := hxy
  simp only at h1 h2 h3
  subst h1
  cases x with
  | none => exact ((S.uncoverColumn M hc).weak side).bind fun _ _ S => (Rel.ok ⟨rfl, S, rfl⟩).weak side
  | some p =>
    have hp := h2 p rfl
    refine ((S.read M hp).weak side).bind fun a b ⟨e, _⟩ => ?_
    subst e
    refine ((S.forSkip1 M .right hp fun _ _ _ S hq => S.coverColumn M hq).weak side).bind fun _ _ S => ?_
    refine (hf _ _ _ S).bind fun u v T => ?_
    obtain ⟨u1, u2, u3⟩ := u
    obtain ⟨v1, v2, v3⟩ := v
    obtain ⟨t1, S, t3⟩ := T
    simp only at t1 S t3
    subst t1 t3
    cases v1 with
    | true =>
      refine ((S.forSkip1 M .right hp fun _ _ _ S hq => S.freeChain M hq).weak side).bind fun _ _ S => ?_
      exact ((S.freeChain M hc).weak side).bind fun _ _ S => (Rel.ok ⟨rfl, S, rfl⟩).weak side
    | false =>
      refine ((S.forSkip1 M .left hp fun _ _ _ S hq => S.uncoverColumn M hq).weak side).bind fun _ _ S => ?_
      exact hg _ _ _ _ _ _ hc h3 S

theorem solveHelper_left (M : Map π N) {root : Nat} (hr : root < n) :
    HelperRel π N base n true (solveHelper root) (solveHelper (π root)) := by
  refine (solveHelper.mutual_fixpoint_induct (root := root)
    (motive_1 := fun f => HelperRel π N base n true f (solveHelper (π root)))
    (motive_2 := fun g => RowsStepRel π N base n true g (solveRows (π root))) ?_ ?_ ?_ ?_).1
  · refine Lean.Order.admissible_pi_apply (α := Heap) (β := fun _ => List Nat → Prog (Bool × Heap × List Nat))
      (fun h f => ∀ ps h', Sim π N base n h h' →
        Weak true (SolRel π N base n) (f ps) (solveHelper (π root) h' ps)) fun h => ?_
    refine Lean.Order.admissible_pi_apply (α := List Nat) (β := fun _ => Prog (Bool × Heap × List Nat))
      (fun ps r => ∀ h', Sim π N base n h h' →
        Weak true (SolRel π N base n) r (solveHelper (π root) h' ps)) fun ps => ?_
    exact Lean.Order.admissible_flatOrder (b := (Prog.diverge : Prog (Bool × Heap × List Nat))) _
      (fun _ _ => .inr (.inl ⟨rfl, rfl⟩))
  · refine Lean.Order.admissible_pi_apply (α := Nat)
      (β := fun _ => Iter → Heap → List Nat → Prog (Bool × Heap × List Nat))
      (fun c f => ∀ it h ps it' h', c < n → IterRel π n it it' → Sim π N base n h h' →
        Weak true (SolRel π N base n) (f it h ps) (solveRows (π root) (π c) it' h' ps)) fun c => ?_
    refine Lean.Order.admissible_pi_apply (α := Iter) (β := fun _ => Heap → List Nat → Prog (Bool × Heap × List Nat))
      (fun it f => ∀ h ps it' h', c < n → IterRel π n it it' → Sim π N base n h h' →
        Weak true (SolRel π N base n) (f h ps) (solveRows (π root) (π c) it' h' ps)) fun it => ?_
    refine Lean.Order.admissible_pi_apply (α := Heap) (β := fun _ => List Nat → Prog (Bool × Heap × List Nat))
      (fun h f => ∀ ps it' h', c < n → IterRel π n it it' → Sim π N base n h h' →
        Weak true (SolRel π N base n) (f ps) (solveRows (π root) (π c) it' h' ps)) fun h => ?_
    refine Lean.Order.admissible_pi_apply (α := List Nat) (β := fun _ => Prog (Bool × Heap × List Nat))
      (fun ps r => ∀ it' h', c < n → IterRel π n it it' → Sim π N base n h h' →
        Weak true (SolRel π N base n) r (solveRows (π root) (π c) it' h' ps)) fun ps => ?_
    exact Lean.Order.admissible_flatOrder (b := (Prog.diverge : Prog (Bool × Heap × List Nat))) _
      (fun _ _ _ _ _ => .inr (.inl ⟨rfl, rfl⟩))
  · intro g hg h ps h' S
    rw [helper_step]
    exact helperStep_weak M true hr hg h ps h' S
  · intro f g hf hg c it h ps it' h' hc I S
    rw [rows_step]
    exact rowsStep_weak M true hf hg c it h ps it' h' hc I S

theorem solveHelper_right (M : Map π N) {root : Nat} (hr : root < n) :
    HelperRel π N base n false (solveHelper root) (solveHelper (π root)) := by
  suffices H : ∀ h' ps h, Sim π N base n h h' →
      Weak false (SolRel π N base n) (solveHelper root h ps) (solveHelper (π root) h' ps) from
    fun h ps h' => H h' ps h
  refine (solveHelper.mutual_fixpoint_induct (root := π root)
    (motive_1 := fun f' => ∀ h' ps h, Sim π N base n h h' → Weak false (SolRel π N base n) (solveHelper root h ps) (f' h' ps))
    (motive_2 := fun g' => ∀ c' it' h' ps c it h, c' = π c → c < n → IterRel π n it it' → Sim π N base n h h' →
      Weak false (SolRel π N base n) (solveRows root c it h ps) (g' c' it' h' ps)) ?_ ?_ ?_ ?_).1
  · refine Lean.Order.admissible_pi_apply (α := Heap) (β := fun _ => List Nat → Prog (Bool × Heap × List Nat))
      (fun h' f' => ∀ ps h, Sim π N base n h h' →
        Weak false (SolRel π N base n) (solveHelper root h ps) (f' ps)) fun h' => ?_
    refine Lean.Order.admissible_pi_apply (α := List Nat) (β := fun _ => Prog (Bool × Heap × List Nat))
      (fun ps r => ∀ h, Sim π N base n h h' →
        Weak false (SolRel π N base n) (solveHelper root h ps) r) fun ps => ?_
    exact Lean.Order.admissible_flatOrder (b := (Prog.diverge : Prog (Bool × Heap × List Nat))) _
      (fun _ _ => .inr (.inr ⟨rfl, rfl⟩))
  · refine Lean.Order.admissible_pi_apply (α := Nat)
      (β := fun _ => Iter → Heap → List Nat → Prog (Bool × Heap × List Nat))
      (fun c' g' => ∀ it' h' ps c it h, c' = π c → c < n → IterRel π n it it' → Sim π N base n h h' →
        Weak false (SolRel π N base n) (solveRows root c it h ps) (g' it' h' ps)) fun c' => ?_
    refine Lean.Order.admissible_pi_apply (α := Iter) (β := fun _ => Heap → List Nat → Prog (Bool × Heap × List Nat))
      (fun it' g' => ∀ h' ps c it h, c' = π c → c < n → IterRel π n it it' → Sim π N base n h h' →
        Weak false (SolRel π N base n) (solveRows root c it h ps) (g' h' ps)) fun it' => ?_
    refine Lean.Order.admissible_pi_apply (α := Heap) (β := fun _ => List Nat → Prog (Bool × Heap × List Nat))
      (fun h' g' => ∀ ps c it h, c' = π c → c < n → IterRel π n it it' → Sim π N base n h h' →
        Weak false (SolRel π N base n) (solveRows root c it h ps) (g' ps)) fun h' => ?_
    refine Lean.Order.admissible_pi_apply (α := List Nat) (β := fun _ => Prog (Bool × Heap × List Nat))
      (fun ps r => ∀ c it h, c' = π c → c < n → IterRel π n it it' → Sim π N base n h h' →
        Weak false (SolRel π N base n) (solveRows root c it h ps) r) fun ps => ?_
    exact Lean.Order.admissible_flatOrder (b := (Prog.diverge : Prog (Bool × Heap × List Nat))) _
      (fun _ _ _ _ _ _ _ => .inr (.inr ⟨rfl, rfl⟩))
  · intro g' hg h' ps h S
    rw [helper_step]
    exact helperStep_weak M false hr (fun c it h ps it' h' hc I S => hg _ it' h' ps c it h rfl hc I S) h ps h' S
  · intro f' g' hf hg c' it' h' ps c it h e hc I S
    subst e
    rw [rows_step]
    exact rowsStep_weak M false (fun h ps h' S => hf h' ps h S)
      (fun c it h ps it' h' hc I S => hg _ it' h' ps c it h rfl hc I S) c it h ps it' h' hc I S

theorem solveHelper_rel (M : Map π N) {root : Nat} (hr : root < n) :
    ∀ h ps h', Sim π N base n h h' → Rel (SolRel π N base n) (solveHelper root h ps) (solveHelper (π root) h' ps) :=
  fun h ps h' S => (solveHelper_left M hr h ps h' S).both (solveHelper_right M hr h ps h' S)

theorem Sim.drop (M : Map π N) (S : Sim π N base n h h') {m m' : Matrix} (R : MRel π n m m') :
    Rel (Sim π N base n) (m.drop h) (m'.drop h') := by
  obtain ⟨r1, _, rfl⟩ := R
  exact S.forAll M .right r1 fun _ _ _ S hq => S.forAll M .down hq fun _ _ _ S hq => S.dealloc M hq

theorem Sim.solve (M : Map π N) (S : Sim π N base n h h') {m m' : Matrix} (R : MRel π n m m') :
    Rel (fun x y => y.1 = x.1 ∧ Sim π N base n x.2 y.2) (m.solve h) (m'.solve h') := by
  have R' := R
  obtain ⟨r1, r2, rfl⟩ := R
  refine (solveHelper_rel M r1 h m.partialSolution h' S).bind fun u v T => ?_
  obtain ⟨u1, u2, u3⟩ := u
  obtain ⟨v1, v2, v3⟩ := v
  obtain ⟨t1, S, t3⟩ := T
  simp only at t1 S t3
  subst t1 t3
  refine (S.drop M R').bind fun _ _ S => ?_
  cases v1 with
  | true => exact Rel.ok ⟨rfl, S⟩
  | false => exact Rel.ok ⟨rfl, S⟩

/-! ### Construction -/

theorem Sim.allocAt (M : Map π N) (S : Sim π N base n h h') {al : Nat → Nat} (hal : al n = π n) (hn : n ≤ N) :
    (h.alloc).1 = n ∧ (h'.allocAt al).1 = π n ∧ Sim π N base (n + 1) h.alloc.2 (h'.allocAt al).2 := by
  have h0 := S.pos
  have hne : π n ≠ 0 := fun e => by
    have := (M.zero_iff (n := n + 1) (by omega) (Nat.lt_succ_self n)).1 e
    omega
  refine ⟨S.next, ?_, ?_⟩
  · unfold Heap.allocAt; rw [S.next', hal, if_neg hne]
  · unfold Heap.allocAt Heap.alloc
    rw [S.next', hal, if_neg hne, S.next]
    refine ⟨by omega, by omega, rfl, rfl, fun a h1 h2 => ?_, fun q hq => ?_, ?_, S.null', fun a ha => ?_, fun a nd e => ?_⟩
    · show (if π a = π n then _ else _) = renC π (if a = n then _ else _)
      by_cases e : a = n
      · simp [e, renC]
      · rw [if_neg e, if_neg fun e' => e (M.inj a n (by omega) hn e'), S.img a h1 (by omega)]
    · show (if q = π n then _ else _) = _
      rw [if_neg (hq n h0 (by omega)), S.out q fun a h1 h2 => hq a h1 (by omega)]
    · show (if 0 = n then _ else _) = _
      rw [if_neg (by omega), S.null]
    · show (if a = n then _ else _) = _
      rw [if_neg (by omega), S.top a (by omega)]
    · change (if a = n then _ else _) = _ at e
      by_cases e' : a = n
      · rw [if_pos e'] at e; cases e
      · rw [if_neg e'] at e
        obtain ⟨c1, c2, c3, c4, c5⟩ := S.closed a nd e
        exact ⟨by omega, by omega, by omega, by omega, by omega⟩

/-- A new node: its address and the heap. -/
def NewRel (π : Nat → Nat) (N : Nat) (base : Nat → Cell) (n : Nat) (x y : Nat × Heap) : Prop :=
  x.1 = n ∧ y.1 = π n ∧ Sim π N base (n + 1) x.2 y.2

/-- A node that is not yet written, and the heap. -/
def FillRel (π : Nat → Nat) (N : Nat) (base : Nat → Cell) (n : Nat) (x y : Node × Heap) : Prop :=
  y.1 = ren π x.1 ∧ Cl n x.1 ∧ Sim π N base n x.2 y.2

theorem Sim.newHeader (M : Map π N) (S : Sim π N base n h h') {al : Nat → Nat} (hal : al n = π n) (hn : n ≤ N)
    {prev : Nat} (hp : prev < n) (k : Nat) :
    Rel (NewRel π N base n) (Node.newHeader h prev k) (Node.newHeaderAt al h' (π prev) k) := by
  obtain ⟨a1, a2, S⟩ := S.allocAt M hal hn
  have hz := M.zero_iff (n := n + 1) (a := prev) (by omega) (by omega)
  have hp' : prev < n + 1 := by omega
  have hn' : n < n + 1 := by omega
  unfold Node.newHeader Node.newHeaderAt
  simp only [a1, a2, ne_eq, hz]
  by_cases h0 : prev = 0
  case' pos =>
    rw [if_neg (by simpa using h0), if_neg (by simpa using h0)]
    refine Rel.bind (R := FillRel π N base (n + 1)) (Rel.ok ⟨by simp [ren, M.zero], ⟨S.pos, hn', hn', hn', hn'⟩, S⟩) ?_
  case' neg =>
    rw [if_pos h0, if_pos h0]
    refine (S.read M hp').bind fun a b ⟨e, c⟩ => ?_
    subst e
    refine (S.read M hp').bind fun a2 b2 ⟨e, c2⟩ => ?_
    subst e
    refine (S.setLeft M c2.right hn').bind fun _ _ S => ?_
    refine (S.setRight M hp' hn').bind fun _ _ S => ?_
    refine Rel.bind (R := FillRel π N base (n + 1))
      (Rel.ok ⟨by simp [ren, M.zero], ⟨S.pos, hp', c.right, hn', hn'⟩, S⟩) ?_
  all_goals
    rintro ⟨x1, x2⟩ ⟨y1, y2⟩ ⟨e, c, S⟩
    simp only at e c S
    subst e
    exact (S.write M hn' c).bind fun _ _ S => Rel.ok ⟨rfl, rfl, S⟩

theorem Sim.newNode (M : Map π N) (S : Sim π N base n h h') {al : Nat → Nat} (hal : al n = π n) (hn : n ≤ N)
    {hd rp cp : Nat} (h1 : hd < n) (h2 : rp < n) (h3 : cp < n) (row : Nat) :
    Rel (NewRel π N base n) (Node.new h hd rp cp row) (Node.newAt al h' (π hd) (π rp) (π cp) row) := by
  obtain ⟨a1, a2, S⟩ := S.allocAt M hal hn
  have hz := M.zero_iff (n := n + 1) (a := rp) (by omega) (by omega)
  have hz2 := M.zero_iff (n := n + 1) (a := cp) (by omega) (by omega)
  have hd' : hd < n + 1 := by omega
  have hr' : rp < n + 1 := by omega
  have hc' : cp < n + 1 := by omega
  have hn' : n < n + 1 := by omega
  unfold Node.new Node.newAt
  simp only [a1, a2, ne_eq, hz, hz2]
  by_cases h0 : rp = 0
  case' pos =>
    rw [if_neg (by simpa using h0), if_neg (by simpa using h0)]
    refine Rel.bind (R := FillRel π N base (n + 1)) (Rel.ok ⟨rfl, ⟨hd', hn', hn', hn', hn'⟩, S⟩) ?_
  case' neg =>
    rw [if_pos h0, if_pos h0]
    refine (S.read M hr').bind fun a b ⟨e, c⟩ => ?_
    subst e
    refine (S.read M hr').bind fun a2 b2 ⟨e, c2⟩ => ?_
    subst e
    refine (S.setLeft M c2.right hn').bind fun _ _ S => ?_
    refine (S.setRight M hr' hn').bind fun _ _ S => ?_
    refine Rel.bind (R := FillRel π N base (n + 1)) (Rel.ok ⟨rfl, ⟨hd', hr', c.right, hn', hn'⟩, S⟩) ?_
  all_goals
    rintro ⟨x1, x2⟩ ⟨y1, y2⟩ ⟨e, cx, S⟩
    simp only at e cx S
    subst e
    simp only
    by_cases h0 : cp = 0
    case' pos =>
      rw [if_neg (by simpa using h0), if_neg (by simpa using h0)]
      refine Rel.bind (R := FillRel π N base (n + 1)) (Rel.ok ⟨rfl, cx, S⟩) ?_
    case' neg =>
      rw [if_pos h0, if_pos h0]
      refine (S.read M hc').bind fun a b ⟨e, c⟩ => ?_
      subst e
      refine (S.read M hc').bind fun a2 b2 ⟨e, c2⟩ => ?_
      subst e
      refine (S.setUp M c2.down hn').bind fun _ _ S => ?_
      refine (S.setDown M hc' hn').bind fun _ _ S => ?_
      refine Rel.bind (R := FillRel π N base (n + 1)) (Rel.ok ⟨rfl, { cx with up := hc', down := c.down }, S⟩) ?_
    all_goals
      rintro ⟨x1, x2⟩ ⟨y1, y2⟩ ⟨e, c, S⟩
      simp only at e c S
      subst e
      exact (S.write M hn' c).bind fun _ _ S => Rel.ok ⟨rfl, rfl, S⟩

/-- The state of the loops of `new`. -/
def LoopRel (π : Nat → Nat) (N : Nat) (base : Nat → Cell) (n : Nat) (s t : Heap × List Nat × Nat) : Prop :=
  Sim π N base n s.1 t.1 ∧ (∀ p ∈ s.2.1, p < n) ∧ s.2.2 < n ∧ t.2.1 = s.2.1.map π ∧ t.2.2 = π s.2.2

theorem newCell_rel (M : Map π N) {s t : Heap × List Nat × Nat} (L : LoopRel π N base n s t) {al : Nat → Nat}
    (hal : al n = π n) (hn : n ≤ N) {hd : Nat} (h1 : hd < n) (i : Nat) :
    Rel (LoopRel π N base (n + 1)) (newCell hd s i) (newCellAt al (π hd) t i) := by
  obtain ⟨s1, s2, s3⟩ := s
  obtain ⟨t1, t2, t3⟩ := t
  obtain ⟨S, l1, l2, l3, l4⟩ := L
  simp only at S l1 l2 l3 l4
  subst l3 l4
  have key : ∃ rows : List Nat, (∀ p ∈ rows, p < n) ∧
      (if i ≥ s2.length then s2 ++ List.replicate (i + 1 - s2.length) 0 else s2) = rows ∧
      (if i ≥ (s2.map π).length then s2.map π ++ List.replicate (i + 1 - (s2.map π).length) 0 else s2.map π) =
        rows.map π := by
    rw [List.length_map]
    by_cases hi : i ≥ s2.length
    · refine ⟨s2 ++ List.replicate (i + 1 - s2.length) 0, fun p hp => ?_, by rw [if_pos hi], ?_⟩
      · rcases List.mem_append.1 hp with hp | hp
        · exact l1 p hp
        · rw [(List.mem_replicate.1 hp).2]; exact S.pos
      · rw [if_pos hi, List.map_append, List.map_replicate, M.zero]
    · exact ⟨s2, l1, by rw [if_neg hi], by rw [if_neg hi]⟩
  obtain ⟨rows, k1, k2, k3⟩ := key
  unfold newCell newCellAt
  simp only [k2, k3]
  refine (getP_rel k1 i).bind fun p q ⟨hp, e⟩ => ?_
  subst e
  refine (S.newNode M hal hn h1 hp l2 i).bind fun x y hxy => ?_
  obtain ⟨x1, x2⟩ := x
  obtain ⟨y1, y2⟩ := y
  obtain ⟨e1, e2, S⟩ := hxy
  simp only at e1 e2 S
  subst e1 e2
  refine (setP_rel (n := x1 + 1) (fun p hp => Nat.lt_succ_of_lt (k1 p hp)) i (Nat.lt_succ_self x1)).bind
    fun u v ⟨g1, g2⟩ => ?_
  exact Rel.ok ⟨S, g1, Nat.lt_succ_self _, g2, rfl⟩

theorem newCells_rel (M : Map π N) {al : Nat → Nat} (hal : ∀ k, 0 < k → k ≤ N → al k = π k) {hd : Nat} :
    ∀ (xs : List Nat) (n : Nat) (s t : Heap × List Nat × Nat), LoopRel π N base n s t → hd < n → n + xs.length ≤ N + 1 →
      Rel (LoopRel π N base (n + xs.length)) (forIn' xs s (newCell hd)) (forIn' xs t (newCellAt al (π hd)))
  | [], n, s, t, L, _, _ => Rel.ok L
  | x :: xs, n, s, t, L, hh, hx => by
    rw [List.length_cons] at hx
    rw [forIn'_cons, forIn'_cons, List.length_cons, show n + (xs.length + 1) = n + 1 + xs.length by omega]
    exact (newCell_rel M L (hal n L.1.pos (by omega)) (by omega) hh x).bind fun a b L =>
      newCells_rel M hal xs (n + 1) a b L (by omega) (by omega)

theorem newColumns_rel (M : Map π N) {al : Nat → Nat} (hal : ∀ k, 0 < k → k ≤ N → al k = π k) :
    ∀ (cs : List (List Nat)) (n : Nat) (s t : Heap × List Nat × Nat), LoopRel π N base n s t →
      n + cs.length + cs.flatten.length ≤ N + 1 →
      Rel (LoopRel π N base (n + cs.length + cs.flatten.length)) (forIn' cs s newColumn) (forIn' cs t (newColumnAt al))
  | [], n, s, t, L, _ => Rel.ok L
  | c :: cs, n, s, t, L, hx => by
    rw [List.length_cons, List.flatten_cons, List.length_append] at hx
    rw [forIn'_cons, forIn'_cons, List.length_cons, List.flatten_cons, List.length_append,
      show n + (cs.length + 1) + (c.length + cs.flatten.length) = n + 1 + c.length + cs.length + cs.flatten.length by omega]
    refine Rel.bind (R := LoopRel π N base (n + 1 + c.length)) ?_ fun a b L =>
      newColumns_rel M hal cs _ a b L (by omega)
    obtain ⟨s1, s2, s3⟩ := s
    obtain ⟨t1, t2, t3⟩ := t
    obtain ⟨S, l1, l2, l3, l4⟩ := L
    simp only at S l1 l2 l3 l4
    subst l3 l4
    unfold newColumn newColumnAt
    refine (S.newHeader M (hal n S.pos (by omega)) (by omega) l2 c.length).bind fun x y hxy => ?_
    obtain ⟨x1, x2⟩ := x
    obtain ⟨y1, y2⟩ := y
    obtain ⟨e1, e2, S⟩ := hxy
    simp only at e1 e2 S
    subst e1 e2
    refine (newCells_rel M hal c (x1 + 1) (x2, s2, x1) (y2, s2.map π, π x1)
      ⟨S, fun p hp => Nat.lt_succ_of_lt (l1 p hp), Nat.lt_succ_self _, rfl, rfl⟩ (Nat.lt_succ_self _) (by omega)).bind
      fun a b L => ?_
    obtain ⟨S, l1, l2, l3, l4⟩ := L
    exact Rel.ok ⟨S, l1, by simp only; omega, l3, rfl⟩

/-- The result of `new`. -/
def BuiltRel (π : Nat → Nat) (N : Nat) (base : Nat → Cell) (n : Nat) (x y : Matrix × Heap) : Prop :=
  MRel π n x.1 y.1 ∧ Sim π N base n x.2 y.2

theorem empty_sim {h0 : Heap} (h1 : h0.next = 1) (h2 : h0.mem 0 = .unalloc) (π : Nat → Nat) (N : Nat) :
    Sim π N h0.mem 1 Heap.empty h0 where
  pos := Nat.one_pos
  le := by omega
  next := rfl
  next' := h1
  img a h1 h2 := by omega
  out _ _ := rfl
  null := rfl
  null' := h2
  top _ _ := rfl
  closed a nd e := by cases e

theorem new_rel (M : Map π N) {al : Nat → Nat} (hal : ∀ k, 0 < k → k ≤ N → al k = π k) (cs : List (List Nat)) {h0 : Heap}
    (h1 : h0.next = 1) (h2 : h0.mem 0 = .unalloc) (hN : N = 1 + cs.length + cs.flatten.length) :
    Rel (BuiltRel π N h0.mem (N + 1)) (Matrix.new Heap.empty cs) (Matrix.newAt al h0 cs) := by
  have S := empty_sim h1 h2 π N
  unfold Matrix.new Matrix.newAt
  have := S.newHeader M (hal 1 Nat.one_pos (by omega)) (by omega) (prev := 0) Nat.one_pos 0
  rw [M.zero] at this
  refine this.bind fun x y hxy => ?_
  obtain ⟨x1, x2⟩ := x
  obtain ⟨y1, y2⟩ := y
  obtain ⟨e1, e2, S⟩ := hxy
  simp only at e1 e2 S
  subst e1 e2
  have L := newColumns_rel M hal cs 2 (x2, [], 1) (y2, [], π 1) ⟨S, nofun, by simp only; omega, rfl, rfl⟩ (by omega)
  rw [show 2 + cs.length + cs.flatten.length = N + 1 by omega] at L
  refine L.bind fun a b L => ?_
  obtain ⟨S, l1, l2, l3, l4⟩ := L
  exact Rel.ok ⟨⟨by simp only; omega, l1, by simp only; rw [l3]⟩, S⟩

end DancingLinks.Alloc
