import Verif.Proofs.DL.Wrap
import Verif.Proofs.DL.Build
import Verif.Proofs.DL.Limit

/-! Helper lemmas for C130: what stays true of the links however often a constraint repeats a row, and that the headers
freed along a run are distinct. -/
namespace DancingLinks.Rep
open DancingLinks
open DancingLinks.Limit (bind_ok)

/-- What the node at `p` may hold; `h0` is the memory after `new`. -/
def OkN (h0 : Heap) (HR : List Nat) (V : Nat → List Nat) (p : Nat) (n : Node) : Prop :=
  (p ∈ 1 :: HR → n.left ∈ 1 :: HR ∧ n.right ∈ 1 :: HR) ∧
  (p ∈ HR → n.header = 0 ∧ n.up ∈ p :: V p ∧ n.down ∈ p :: V p) ∧
  ∀ c ∈ HR, p ∈ V c → n.header = c ∧ n.row = (h0.node p).row ∧ n.left = (h0.node p).left ∧
    n.right = (h0.node p).right ∧ n.up ∈ c :: V c ∧ n.down ∈ c :: V c

structure Inv (h0 : Heap) (HR : List Nat) (V : Nat → List Nat) (h : Heap) : Prop where
  init : ∀ p, h.mem p ≠ .uninit
  ok : ∀ p n, h.mem p = .live n → OkN h0 HR V p n

/-- The invariant holds afterwards and no cell has become live. -/
structure Mono (h0 : Heap) (HR : List Nat) (V : Nat → List Nat) (h h' : Heap) : Prop where
  inv : Inv h0 HR V h'
  sub : ∀ p, h'.Live p → h.Live p

variable {h0 : Heap} {rows HR : List Nat} {V RW : Nat → List Nat} {M : List (List Nat)}

theorem Mono.refl {h : Heap} (I : Inv h0 HR V h) : Mono h0 HR V h h := ⟨I, fun _ h => h⟩
theorem Mono.trans {h h1 h2 : Heap} (a : Mono h0 HR V h h1) (b : Mono h0 HR V h1 h2) : Mono h0 HR V h h2 :=
  ⟨b.inv, fun p hp => a.sub p (b.sub p hp)⟩

/-! ### Inversion of the memory accesses -/

theorem read_inv {h : Heap} {p : Nat} {n : Node} (e : h.read p = .ok n) : h.mem p = .live n := by
  unfold Heap.read at e
  split at e
  · rename_i m hm; cases e; exact hm
  · cases e

theorem write_inv {h h' : Heap} {p : Nat} {n : Node} (e : h.write p n = .ok h') : h' = h.put p (.live n) := by
  unfold Heap.write at e
  split at e
  · cases e; rfl
  · cases e; rfl
  · cases e

theorem setLeft_inv {h h' : Heap} {p v : Nat} (e : h.setLeft p v = .ok h') :
    ∃ n, h.mem p = .live n ∧ h' = h.put p (.live { n with left := v }) := by
  obtain ⟨n, e1, e⟩ := bind_ok e
  exact ⟨n, read_inv e1, write_inv e⟩
theorem setRight_inv {h h' : Heap} {p v : Nat} (e : h.setRight p v = .ok h') :
    ∃ n, h.mem p = .live n ∧ h' = h.put p (.live { n with right := v }) := by
  obtain ⟨n, e1, e⟩ := bind_ok e
  exact ⟨n, read_inv e1, write_inv e⟩
theorem setUp_inv {h h' : Heap} {p v : Nat} (e : h.setUp p v = .ok h') :
    ∃ n, h.mem p = .live n ∧ h' = h.put p (.live { n with up := v }) := by
  obtain ⟨n, e1, e⟩ := bind_ok e
  exact ⟨n, read_inv e1, write_inv e⟩
theorem setDown_inv {h h' : Heap} {p v : Nat} (e : h.setDown p v = .ok h') :
    ∃ n, h.mem p = .live n ∧ h' = h.put p (.live { n with down := v }) := by
  obtain ⟨n, e1, e⟩ := bind_ok e
  exact ⟨n, read_inv e1, write_inv e⟩
theorem setRow_inv {h h' : Heap} {p v : Nat} (e : h.setRow p v = .ok h') :
    ∃ n, h.mem p = .live n ∧ h' = h.put p (.live { n with row := v }) := by
  obtain ⟨n, e1, e⟩ := bind_ok e
  exact ⟨n, read_inv e1, write_inv e⟩

theorem put_mono {h : Heap} (I : Inv h0 HR V h) {p : Nat} {n n' : Node} (e : h.mem p = .live n) (k : OkN h0 HR V p n') :
    Mono h0 HR V h (h.put p (.live n')) := by
  refine ⟨⟨fun q => ?_, fun q m hm => ?_⟩, fun q hq => ?_⟩
  · rw [put_mem]; split
    · simp
    · exact I.init q
  · rw [put_mem] at hm
    split at hm
    · rename_i hq; subst hq; cases hm; exact k
    · exact I.ok q m hm
  · by_cases hqp : q = p
    · subst hqp; exact ⟨n, e⟩
    · obtain ⟨m, hm⟩ := hq
      rw [put_mem, if_neg hqp] at hm
      exact ⟨m, hm⟩

theorem dealloc_mono {h h' : Heap} (I : Inv h0 HR V h) {p : Nat} (e : h.dealloc p = .ok h') :
    Mono h0 HR V h h' ∧ h.Live p ∧ ¬ h'.Live p := by
  unfold Heap.dealloc at e
  have key : h.Live p → h' = h.put p .freed → Mono h0 HR V h h' ∧ h.Live p ∧ ¬ h'.Live p := by
    rintro hl rfl
    refine ⟨⟨⟨fun q => ?_, fun q m hm => ?_⟩, fun q hq => ?_⟩, hl, ?_⟩
    · rw [put_mem]; split
      · simp
      · exact I.init q
    · rw [put_mem] at hm
      split at hm
      · cases hm
      · exact I.ok q m hm
    · obtain ⟨m, hm⟩ := hq
      rw [put_mem] at hm
      split at hm
      · cases hm
      · exact ⟨m, hm⟩
    · rintro ⟨m, hm⟩
      rw [put_mem, if_pos rfl] at hm
      cases hm
  split at e
  · rename_i hm; exact absurd hm (I.init p)
  · rename_i n hm; cases e; exact key ⟨n, hm⟩ rfl
  · cases e

/-! ### Loops -/

theorem next_inv {d : Dir} {h : Heap} {it it' : Iter} {x : Option Nat} (e : it.next d h = .ok (x, it')) :
    (x = none ∧ it' = it ∧ it.current = 0) ∨
    ∃ n, x = some it.current ∧ it.current ≠ 0 ∧ h.mem it.current = .live n ∧
      it' = { it with current := if n.get d = it.original then 0 else n.get d } := by
  unfold Iter.next at e
  split at e
  · rename_i h0
    simp only [Prog.pure_eq, Prog.ok.injEq, Prod.mk.injEq] at e
    exact .inl ⟨e.1.symm, e.2.symm, h0⟩
  · rename_i h0
    obtain ⟨n, e1, e⟩ := bind_ok e
    simp only [Prog.pure_eq, Prog.ok.injEq, Prod.mk.injEq] at e
    exact .inr ⟨n, e.1.symm, h0, read_inv e1, e.2.symm⟩

/-- Invariant rule for a loop that ends. -/
theorem forIter_inv {σ : Type} {hp : σ → Heap} {d : Dir} {body : σ → Nat → Prog σ} {o : Nat} {P : Nat → Prop} {I : σ → Prop}
    (hb : ∀ s p s', I s → P p → body s p = .ok s' → I s')
    (hn : ∀ s p n, I s → P p → (hp s).mem p = .live n → n.get d = o ∨ P (n.get d)) :
    ∀ it s s', I s → it.original = o → (it.current = 0 ∨ P it.current) → forIter hp d it s body = .ok s' → I s' := by
  apply forIter.fixpoint_induct (hp := hp) (d := d) (body := body)
    (motive := fun g => ∀ it s s', I s → it.original = o → (it.current = 0 ∨ P it.current) → g it s = .ok s' → I s')
  · refine Lean.Order.admissible_pi_apply (α := Iter) (β := fun _ => σ → Prog σ)
      (fun it g => ∀ s s', I s → it.original = o → (it.current = 0 ∨ P it.current) → g s = .ok s' → I s') fun it => ?_
    refine Lean.Order.admissible_pi_apply (α := σ) (β := fun _ => Prog σ)
      (fun s r => ∀ s', I s → it.original = o → (it.current = 0 ∨ P it.current) → r = .ok s' → I s') fun s => ?_
    exact Lean.Order.admissible_flatOrder (b := (Prog.diverge : Prog σ)) _ (fun _ _ _ _ h => by cases h)
  · intro g hg it s s' hI ho hc e0
    obtain ⟨⟨x, it'⟩, e1, e⟩ := bind_ok e0
    clear e0
    rcases next_inv e1 with ⟨rfl, rfl, _⟩ | ⟨n, rfl, h0, hm, rfl⟩
    · simp only [Prog.pure_eq, Prog.ok.injEq] at e
      exact e ▸ hI
    · obtain ⟨s1, e2, e⟩ := bind_ok e
      have hP := hc.resolve_left h0
      refine hg { original := it.original, current := if n.get d = it.original then 0 else n.get d } s1 s' (hb s _ s1 hI hP e2) ho ?_ e
      rcases hn s _ n hI hP hm with h1 | h1
      · left; simp [h1, ho]
      · by_cases h2 : n.get d = it.original
        · left; simp [h2]
        · right; simpa [h2] using h1

theorem iterSkip1_inv {d : Dir} {h : Heap} {p : Nat} {it : Iter} (h0 : p ≠ 0) (e : iterSkip1 d h p = .ok it) :
    ∃ n, h.mem p = .live n ∧ it = { original := p, current := if n.get d = p then 0 else n.get d } := by
  obtain ⟨⟨x, it'⟩, e1, e⟩ := bind_ok e
  simp only [Prog.pure_eq, Prog.ok.injEq] at e
  subst e
  rcases next_inv e1 with ⟨_, _, h1⟩ | ⟨n, _, _, hm, rfl⟩
  · exact absurd h1 h0
  · exact ⟨n, hm, rfl⟩

theorem forSkip1_mono {d : Dir} {body : Heap → Nat → Prog Heap} {o : Nat} {P : Nat → Prop} (ho : o ≠ 0)
    (hb : ∀ h p h', Inv h0 HR V h → P p → body h p = .ok h' → Mono h0 HR V h h')
    (hn : ∀ h p n, Inv h0 HR V h → (P p ∨ p = o) → h.mem p = .live n → n.get d = o ∨ P (n.get d))
    {h h' : Heap} (I : Inv h0 HR V h) (e : forSkip1 d h o body = .ok h') : Mono h0 HR V h h' := by
  obtain ⟨it, e1, e⟩ := bind_ok e
  obtain ⟨n, hm, rfl⟩ := iterSkip1_inv ho e1
  refine forIter_inv (hp := id) (o := o) (P := P) (I := Mono h0 HR V h) (fun s p s' hI hP e => hI.trans (hb s p s' hI.inv hP e))
    (fun s p n hI hP hm => hn s p n hI.inv (.inl hP) hm) _ h h' (.refl I) rfl ?_ e
  rcases hn h o n I (.inr rfl) hm with h1 | h1
  · left; simp [h1]
  · by_cases h2 : n.get d = o
    · left; simp [h2]
    · right; simpa [h2] using h1

/-! ### The layout -/

variable (B : BldR h0 rows HR V RW M)
include B

theorem pos {c : Nat} (hc : c ∈ HR) : c ≠ 0 := by have := B.bndH c hc; omega
theorem posV {c q : Nat} (hc : c ∈ HR) (hq : q ∈ V c) : q ≠ 0 := by have := B.bndV c hc q hq; omega
theorem notHR {c q : Nat} (hc : c ∈ HR) (hq : q ∈ V c) : q ∉ 1 :: HR := by
  rw [List.mem_cons]
  rintro (rfl | h)
  · have := B.bndV c hc 1 hq; omega
  · exact B.sep q h c hc hq
theorem colUniq {c c' q : Nat} (hc : c ∈ HR) (hq : q ∈ V c) (hc' : c' ∈ HR) (hq' : q ∈ V c') : c' = c := by
  rw [← B.hdr c hc q hq, ← B.hdr c' hc' q hq']
theorem one_notHR : 1 ∉ HR := fun h => by have := B.bndH 1 h; omega

theorem inRW {c q : Nat} (hc : c ∈ HR) (hq : q ∈ V c) : q ∈ RW (h0.node q).row := (B.rmem _ q).2 ⟨⟨c, hc, hq⟩, rfl⟩

/-- The right and left neighbours of a cell of a row are cells of that row. -/
theorem right_in {r q : Nat} (hq : q ∈ RW r) : (h0.node q).right ∈ RW r ∧ (h0.node q).left ∈ RW r := by
  cases hR : RW r with
  | nil => rw [hR] at hq; cases hq
  | cons a l =>
    rw [hR] at hq
    have R := othOf_ring (B.rring r a l hR) hq
    have hp := othOf_perm hq
    have h1 := R.first
    have h2 := R.reverse.first
    have key : ∀ (l' : List Nat) (x : Nat), (∀ y ∈ l', y ∈ a :: l) → x = (l' ++ [q]).head (by simp) → x ∈ a :: l := by
      intro l' x hl' e
      have hx : x ∈ l' ++ [q] := e ▸ List.head_mem _
      rcases List.mem_append.1 hx with h | h
      · exact hl' x h
      · rw [List.mem_singleton.1 h]; exact hq
    constructor
    · exact key _ _ (fun y hy => hp.subset (List.mem_cons_of_mem _ hy)) h1
    · exact key _ _ (fun y hy => hp.subset (List.mem_cons_of_mem _ (List.mem_reverse.1 hy))) h2

/-! ### Covering -/

theorem setRight_mono {h h' : Heap} (I : Inv h0 HR V h) {p v : Nat} (hp : p ∈ 1 :: HR) (hv : v ∈ 1 :: HR)
    (e : h.setRight p v = .ok h') : Mono h0 HR V h h' := by
  obtain ⟨n, hm, rfl⟩ := setRight_inv e
  have k := I.ok p n hm
  exact put_mono I hm ⟨fun h => ⟨(k.1 h).1, hv⟩, k.2.1, fun c hc hq => absurd hp (notHR B hc hq)⟩

theorem setLeft_mono {h h' : Heap} (I : Inv h0 HR V h) {p v : Nat} (hp : p ∈ 1 :: HR) (hv : v ∈ 1 :: HR)
    (e : h.setLeft p v = .ok h') : Mono h0 HR V h h' := by
  obtain ⟨n, hm, rfl⟩ := setLeft_inv e
  have k := I.ok p n hm
  exact put_mono I hm ⟨fun h => ⟨hv, (k.1 h).2⟩, k.2.1, fun c hc hq => absurd hp (notHR B hc hq)⟩

theorem setRow_mono {h h' : Heap} (I : Inv h0 HR V h) {p v : Nat} (hp : p ∈ HR)
    (e : h.setRow p v = .ok h') : Mono h0 HR V h h' := by
  obtain ⟨n, hm, rfl⟩ := setRow_inv e
  have k := I.ok p n hm
  exact put_mono I hm ⟨k.1, k.2.1, fun c hc hq => absurd (List.mem_cons_of_mem _ hp) (notHR B hc hq)⟩

theorem setDown_mono {h h' : Heap} (I : Inv h0 HR V h) {c p v : Nat} (hc : c ∈ HR) (hp : p ∈ c :: V c) (hv : v ∈ c :: V c)
    (e : h.setDown p v = .ok h') : Mono h0 HR V h h' := by
  obtain ⟨n, hm, rfl⟩ := setDown_inv e
  have k := I.ok p n hm
  refine put_mono I hm ⟨k.1, fun h => ?_, fun c' hc' hq => ?_⟩
  · have k2 := k.2.1 h
    rcases List.mem_cons.1 hp with rfl | hp
    · exact ⟨k2.1, k2.2.1, hv⟩
    · exact absurd (List.mem_cons_of_mem _ h) (notHR B hc hp)
  · have k3 := k.2.2 c' hc' hq
    rcases List.mem_cons.1 hp with rfl | hp
    · exact absurd (List.mem_cons_of_mem _ hc) (notHR B hc' hq)
    · obtain rfl := colUniq B hc hp hc' hq
      exact ⟨k3.1, k3.2.1, k3.2.2.1, k3.2.2.2.1, k3.2.2.2.2.1, hv⟩

theorem setUp_mono {h h' : Heap} (I : Inv h0 HR V h) {c p v : Nat} (hc : c ∈ HR) (hp : p ∈ c :: V c) (hv : v ∈ c :: V c)
    (e : h.setUp p v = .ok h') : Mono h0 HR V h h' := by
  obtain ⟨n, hm, rfl⟩ := setUp_inv e
  have k := I.ok p n hm
  refine put_mono I hm ⟨k.1, fun h => ?_, fun c' hc' hq => ?_⟩
  · have k2 := k.2.1 h
    rcases List.mem_cons.1 hp with rfl | hp
    · exact ⟨k2.1, hv, k2.2.2⟩
    · exact absurd (List.mem_cons_of_mem _ h) (notHR B hc hp)
  · have k3 := k.2.2 c' hc' hq
    rcases List.mem_cons.1 hp with rfl | hp
    · exact absurd (List.mem_cons_of_mem _ hc) (notHR B hc' hq)
    · obtain rfl := colUniq B hc hp hc' hq
      exact ⟨k3.1, k3.2.1, k3.2.2.1, k3.2.2.2.1, hv, k3.2.2.2.2.2⟩

theorem coverHorizontal_mono {h h' : Heap} (I : Inv h0 HR V h) {c : Nat} (hc : c ∈ HR)
    (e : coverHorizontal h c = .ok h') : Mono h0 HR V h h' := by
  obtain ⟨n, e1, e⟩ := bind_ok e
  obtain ⟨h1, e2, e⟩ := bind_ok e
  have k := (I.ok c n (read_inv e1)).1 (List.mem_cons_of_mem _ hc)
  have m1 := setRight_mono B I k.1 k.2 e2
  exact m1.trans (setLeft_mono B m1.inv k.2 k.1 e)

theorem uncoverHorizontal_mono {h h' : Heap} (I : Inv h0 HR V h) {c : Nat} (hc : c ∈ HR)
    (e : uncoverHorizontal h c = .ok h') : Mono h0 HR V h h' := by
  obtain ⟨n, e1, e⟩ := bind_ok e
  obtain ⟨h1, e2, e⟩ := bind_ok e
  have k := (I.ok c n (read_inv e1)).1 (List.mem_cons_of_mem _ hc)
  have m1 := setRight_mono B I k.1 (List.mem_cons_of_mem _ hc) e2
  exact m1.trans (setLeft_mono B m1.inv k.2 (List.mem_cons_of_mem _ hc) e)

theorem coverVertical_mono {h h' : Heap} (I : Inv h0 HR V h) {c q : Nat} (hc : c ∈ HR) (hq : q ∈ V c)
    (e : coverVertical h q = .ok h') : Mono h0 HR V h h' := by
  obtain ⟨n, e1, e⟩ := bind_ok e
  obtain ⟨h1, e2, e⟩ := bind_ok e
  obtain ⟨_, _, _, _, ku, kd⟩ := (I.ok q n (read_inv e1)).2.2 c hc hq
  have m1 := setDown_mono B I hc ku kd e2
  exact m1.trans (setUp_mono B m1.inv hc kd ku e)

theorem uncoverVertical_mono {h h' : Heap} (I : Inv h0 HR V h) {c q : Nat} (hc : c ∈ HR) (hq : q ∈ V c)
    (e : uncoverVertical h q = .ok h') : Mono h0 HR V h h' := by
  obtain ⟨n, e1, e⟩ := bind_ok e
  obtain ⟨h1, e2, e⟩ := bind_ok e
  obtain ⟨_, _, _, _, ku, kd⟩ := (I.ok q n (read_inv e1)).2.2 c hc hq
  have m1 := setDown_mono B I hc ku (List.mem_cons_of_mem _ hq) e2
  exact m1.trans (setUp_mono B m1.inv hc kd (List.mem_cons_of_mem _ hq) e)

theorem coverCell_mono {A : Arith} {h h' : Heap} (I : Inv h0 HR V h) {r q : Nat} (hq : q ∈ RW r)
    (e : coverCellG A h q = .ok h') : Mono h0 HR V h h' := by
  obtain ⟨⟨c, hc, hqc⟩, _⟩ := (B.rmem r q).1 hq
  obtain ⟨h1, e1, e⟩ := bind_ok e
  obtain ⟨n, e2, e⟩ := bind_ok e
  obtain ⟨hd, e3, e⟩ := bind_ok e
  obtain ⟨v, e4, e⟩ := bind_ok e
  have m1 := coverVertical_mono B I hc hqc e1
  have k := (m1.inv.ok q n (read_inv e2)).2.2 c hc hqc
  rw [k.1] at e
  exact m1.trans (setRow_mono B m1.inv hc e)

theorem uncoverCell_mono {A : Arith} {h h' : Heap} (I : Inv h0 HR V h) {r q : Nat} (hq : q ∈ RW r)
    (e : uncoverCellG A h q = .ok h') : Mono h0 HR V h h' := by
  obtain ⟨⟨c, hc, hqc⟩, _⟩ := (B.rmem r q).1 hq
  obtain ⟨n, e2, e⟩ := bind_ok e
  obtain ⟨hd, e3, e⟩ := bind_ok e
  obtain ⟨v, e4, e⟩ := bind_ok e
  obtain ⟨h1, e1, e⟩ := bind_ok e
  have k := (I.ok q n (read_inv e2)).2.2 c hc hqc
  rw [k.1] at e1
  have m1 := setRow_mono B I hc e1
  exact m1.trans (uncoverVertical_mono B m1.inv hc hqc e)

/-- The links of a live cell of row `r` to the right and left stay in the row. -/
theorem row_next {h : Heap} (I : Inv h0 HR V h) {r p : Nat} {n : Node} (hp : p ∈ RW r) (hm : h.mem p = .live n) :
    n.right ∈ RW r ∧ n.left ∈ RW r := by
  obtain ⟨⟨c, hc, hpc⟩, _⟩ := (B.rmem r p).1 hp
  obtain ⟨_, _, kl, kr, _⟩ := (I.ok p n hm).2.2 c hc hpc
  rw [kl, kr]
  exact right_in B hp

theorem rowPos {r q : Nat} (hq : q ∈ RW r) : q ≠ 0 := by
  obtain ⟨⟨c, hc, hqc⟩, _⟩ := (B.rmem r q).1 hq
  exact posV B hc hqc

theorem forRow_mono {d : Dir} (hd : d = .right ∨ d = .left) {body : Heap → Nat → Prog Heap} {r q : Nat} (hq : q ∈ RW r)
    (hb : ∀ h p h', Inv h0 HR V h → p ∈ RW r → body h p = .ok h' → Mono h0 HR V h h')
    {h h' : Heap} (I : Inv h0 HR V h) (e : forSkip1 d h q body = .ok h') : Mono h0 HR V h h' := by
  refine forSkip1_mono (P := (· ∈ RW r)) (rowPos B hq) hb (fun h p n I hp hm => .inr ?_) I e
  have hp' : p ∈ RW r := hp.elim id (fun e => e ▸ hq)
  have := row_next B I hp' hm
  rcases hd with rfl | rfl
  · exact this.1
  · exact this.2

theorem forCol_mono {d : Dir} (hd : d = .up ∨ d = .down) {body : Heap → Nat → Prog Heap} {c : Nat} (hc : c ∈ HR)
    (hb : ∀ h p h', Inv h0 HR V h → p ∈ V c → body h p = .ok h' → Mono h0 HR V h h')
    {h h' : Heap} (I : Inv h0 HR V h) (e : forSkip1 d h c body = .ok h') : Mono h0 HR V h h' := by
  refine forSkip1_mono (P := (· ∈ V c)) (pos B hc) hb (fun h p n I hp hm => ?_) I e
  have key : n.up ∈ c :: V c ∧ n.down ∈ c :: V c := by
    rcases hp with hp | rfl
    · obtain ⟨_, _, _, _, ku, kd⟩ := (I.ok p n hm).2.2 c hc hp
      exact ⟨ku, kd⟩
    · exact ((I.ok p n hm).2.1 hc).2
  rcases hd with rfl | rfl
  · exact List.mem_cons.1 key.1
  · exact List.mem_cons.1 key.2

/-- `p` is the header of column `c` or one of its cells. -/
def Col (HR : List Nat) (V : Nat → List Nat) (p c : Nat) : Prop := c ∈ HR ∧ p ∈ c :: V c

omit B in
theorem Col.hdr {c : Nat} (hc : c ∈ HR) : Col HR V c c := ⟨hc, List.mem_cons_self⟩

theorem Col.row {r q : Nat} (hq : q ∈ RW r) : Col HR V q (h0.node q).header := by
  obtain ⟨⟨c, hc, hqc⟩, _⟩ := (B.rmem r q).1 hq
  rw [B.hdr c hc q hqc]
  exact ⟨hc, List.mem_cons_of_mem _ hqc⟩

theorem toHeader_inv {h : Heap} (I : Inv h0 HR V h) {p c x : Nat} (hp : Col HR V p c) (e : toHeader h p = .ok x) : x = c := by
  obtain ⟨hc, hp⟩ := hp
  obtain ⟨n, e1, e⟩ := bind_ok e
  have k := I.ok p n (read_inv e1)
  rcases List.mem_cons.1 hp with rfl | hp
  · rw [(k.2.1 hc).1] at e
    simpa using e.symm
  · have kh := (k.2.2 c hc hp).1
    rw [if_pos (by rw [kh]; exact pos B hc)] at e
    obtain ⟨n', e2, e⟩ := bind_ok e
    rw [e1] at e2
    cases e2
    simpa [kh] using e.symm

theorem coverColumn_mono {A : Arith} {h h' : Heap} (I : Inv h0 HR V h) {p c : Nat} (hp : Col HR V p c)
    (e : coverColumnG A h p = .ok h') : Mono h0 HR V h h' := by
  obtain ⟨x, e1, e⟩ := bind_ok e
  obtain rfl := toHeader_inv B I hp e1
  obtain ⟨h1, e2, e⟩ := bind_ok e
  have m1 := coverHorizontal_mono B I hp.1 e2
  exact m1.trans (forCol_mono B (.inr rfl) hp.1 (fun h q h' I hq e =>
    forRow_mono B (.inl rfl) (inRW B hp.1 hq) (fun h q' h' I hq' e => coverCell_mono B I hq' e) I e) m1.inv e)

theorem uncoverColumn_mono {A : Arith} {h h' : Heap} (I : Inv h0 HR V h) {p c : Nat} (hp : Col HR V p c)
    (e : uncoverColumnG A h p = .ok h') : Mono h0 HR V h h' := by
  obtain ⟨x, e1, e⟩ := bind_ok e
  obtain rfl := toHeader_inv B I hp e1
  obtain ⟨h1, e2, e⟩ := bind_ok e
  have m1 := forCol_mono B (.inl rfl) hp.1 (fun h q h' I hq e =>
    forRow_mono B (.inr rfl) (inRW B hp.1 hq) (fun h q' h' I hq' e => uncoverCell_mono B I hq' e) I e) I e2
  exact m1.trans (uncoverHorizontal_mono B m1.inv hp.1 e)

/-! ### Freeing -/

theorem freeRow_mono {h h' : Heap} (I : Inv h0 HR V h) {c q : Nat} (hc : c ∈ HR) (hq : q ∈ V c)
    (e : freeRow h q = .ok h') : Mono h0 HR V h h' := by
  obtain ⟨h1, e1, e⟩ := bind_ok e
  have m1 := forRow_mono B (.inl rfl) (inRW B hc hq) (fun h p h' I _ e => (dealloc_mono I e).1) I e1
  exact m1.trans (dealloc_mono m1.inv e).1

theorem freeChain_mono {h h' : Heap} (I : Inv h0 HR V h) {p c : Nat} (hp : Col HR V p c)
    (e : freeChain h p = .ok h') : Mono h0 HR V h h' ∧ h.Live c ∧ ¬ h'.Live c := by
  obtain ⟨x, e1, e⟩ := bind_ok e
  obtain rfl := toHeader_inv B I hp e1
  obtain ⟨h1, e2, e⟩ := bind_ok e
  have m1 := forCol_mono B (.inr rfl) hp.1 (fun h q h' I hq e => freeRow_mono B I hp.1 hq e) I e2
  obtain ⟨m2, l, l'⟩ := dealloc_mono m1.inv e
  exact ⟨m1.trans m2, m1.sub _ l, l'⟩

/-- The cells `l` are distinct, live before and not after. -/
def Gone (l : List Nat) (h h' : Heap) : Prop := l.Nodup ∧ ∀ c ∈ l, h.Live c ∧ ¬ h'.Live c

omit B in
theorem Gone.append {l1 l2 : List Nat} {h h1 h2 : Heap} (g1 : Gone l1 h h1) (g2 : Gone l2 h1 h2)
    (m1 : Mono h0 HR V h h1) (m2 : Mono h0 HR V h1 h2) : Gone (l1 ++ l2) h h2 := by
  refine ⟨List.nodup_append.2 ⟨g1.1, g2.1, ?_⟩, fun c hc => ?_⟩
  · rintro a ha b hb rfl
    exact (g1.2 a ha).2 (g2.2 a hb).1
  · rcases List.mem_append.1 hc with h | h
    · exact ⟨(g1.2 c h).1, fun l => (g1.2 c h).2 (m2.sub c l)⟩
    · exact ⟨m1.sub c (g2.2 c h).1, (g2.2 c h).2⟩

omit B in
theorem Gone.perm {l1 l2 : List Nat} {h h1 : Heap} (g : Gone l1 h h1) (p : l1.Perm l2) : Gone l2 h h1 :=
  ⟨p.nodup_iff.1 g.1, fun c hc => g.2 c (p.mem_iff.2 hc)⟩

omit B in
theorem Gone.mono {l : List Nat} {h h1 h2 h3 : Heap} (g : Gone l h1 h2) (m1 : Mono h0 HR V h h1) (m2 : Mono h0 HR V h2 h3) :
    Gone l h h3 := ⟨g.1, fun c hc => ⟨m1.sub c (g.2 c hc).1, fun l => (g.2 c hc).2 (m2.sub c l)⟩⟩

theorem freeIter_gone {r q : Nat} : ∀ (l : List Nat) (h h' : Heap), Inv h0 HR V h → (∀ x ∈ l, x ∈ RW r) → q ∉ l →
    (∀ pre x post, l = pre ++ x :: post → (h0.node x).right = (post ++ [q]).head (by simp)) →
    forIter id .right (iterAt q l) h freeChain = .ok h' →
    Mono h0 HR V h h' ∧ Gone (l.map fun x => (h0.node x).header) h h' := by
  intro l
  induction l with
  | nil =>
    intro h h' I _ _ _ e
    rw [forIter, next_nil] at e
    cases e
    exact ⟨.refl I, by simp [Gone]⟩
  | cons x l ih =>
    intro h h' I hl hql hch e
    have hx := hl x (by simp)
    rw [forIter] at e
    obtain ⟨⟨y, it⟩, e1, e⟩ := bind_ok e
    rcases next_inv e1 with ⟨_, _, h1⟩ | ⟨n, rfl, _, hm, rfl⟩
    · exact absurd h1 (rowPos B hx)
    · change h.mem x = .live n at hm
      have hr : n.right = (h0.node x).right := by
        obtain ⟨⟨c, hc, hxc⟩, _⟩ := (B.rmem r x).1 hx
        exact ((I.ok x n hm).2.2 c hc hxc).2.2.2.1
      have it_eq : ({ original := (iterAt q (x :: l)).original, current := if n.get Dir.right = (iterAt q (x :: l)).original then 0 else n.get Dir.right } : Iter) = iterAt q l := by
        have h2 := hch [] x l rfl
        change ({ original := q, current := if n.right = q then 0 else n.right } : Iter) = _
        rw [hr, h2]
        cases l with
        | nil => simp [iterAt]
        | cons y l =>
          have : y ≠ q := fun h => hql (by simp [h])
          simp [iterAt, this]
      rw [it_eq] at e
      obtain ⟨h1, e2, e⟩ := bind_ok e
      obtain ⟨m1, l1, l2⟩ := freeChain_mono B I (Col.row B hx) e2
      obtain ⟨m2, g2⟩ := ih h1 h' m1.inv (fun y hy => hl y (by simp [hy])) (fun h => hql (by simp [h]))
        (fun pre y post e => hch (x :: pre) y post (by simp [e])) e
      refine ⟨m1.trans m2, ?_⟩
      have g1 : Gone [(h0.node x).header] h h1 := ⟨by simp, by simpa using ⟨l1, l2⟩⟩
      exact g1.append g2 m1 m2

/-- Freeing the columns of the other cells of a row. -/
theorem freeOthers_gone {r q : Nat} (hq : q ∈ RW r) {h h' : Heap} (I : Inv h0 HR V h)
    (e : forSkip1 .right h q freeChain = .ok h') :
    Mono h0 HR V h h' ∧ Gone ((othOf (RW r) q).map fun x => (h0.node x).header) h h' := by
  obtain ⟨it, e1, e⟩ := bind_ok e
  obtain ⟨n, hm, rfl⟩ := iterSkip1_inv (rowPos B hq) e1
  have hp := othOf_perm hq
  have nd : (q :: othOf (RW r) q).Nodup := hp.nodup_iff.2 (B.rnd r)
  have hqn : q ∉ othOf (RW r) q := (List.nodup_cons.1 nd).1
  have R : HRing h0 .right q (othOf (RW r) q) := by
    cases hR : RW r with
    | nil => rw [hR] at hq; cases hq
    | cons a l => rw [hR] at hq; exact othOf_ring (B.rring r a l hR) hq
  have hr : n.right = (h0.node q).right := by
    obtain ⟨⟨c, hc, hxc⟩, _⟩ := (B.rmem r q).1 hq
    exact ((I.ok q n hm).2.2 c hc hxc).2.2.2.1
  have it_eq : ({ original := q, current := if n.get Dir.right = q then 0 else n.get Dir.right } : Iter) = iterAt q (othOf (RW r) q) := by
    have h2 := R.first
    change (h0.node q).right = _ at h2
    change ({ original := q, current := if n.right = q then 0 else n.right } : Iter) = _
    rw [hr, h2]
    generalize othOf (RW r) q = l at hqn
    cases l with
    | nil => simp [iterAt]
    | cons y l =>
      have : y ≠ q := fun h => hqn (by simp [h])
      simp [iterAt, this]
  rw [it_eq] at e
  exact freeIter_gone B _ h h' I (fun x hx => hp.subset (List.mem_cons_of_mem _ hx)) hqn
    (fun pre x post e => (e ▸ R : HRing h0 .right q (pre ++ x :: post)).next) e

/-! ### The search -/

/-- The headers of the columns that the rows `rs` satisfy. -/
def cols (h0 : Heap) (RW : Nat → List Nat) (rs : List Nat) : List Nat :=
  rs.flatMap fun r => (RW r).map fun x => (h0.node x).header

theorem chooseColumn_in {h : Heap} (I : Inv h0 HR V h) {c : Nat} (ec : chooseColumn h 1 = .ok c) : c ∈ HR := by
  obtain ⟨it, e1, ed⟩ := bind_ok ec
  obtain ⟨s, e2, e⟩ := bind_ok ed
  clear ec ed
  obtain ⟨n, hm, rfl⟩ := iterSkip1_inv (by simp) e1
  have hn : ∀ p n, p ∈ 1 :: HR → h.mem p = .live n → n.right = 1 ∨ n.right ∈ HR := fun p n hp hm =>
    List.mem_cons.1 ((I.ok p n hm).1 hp).2
  have key := forIter_inv (hp := Prod.fst) (d := .right) (body := pickMin) (o := 1) (P := (· ∈ HR))
    (I := fun s => s.1 = h ∧ ∀ b, s.2 = some b → b ∈ HR)
    (by
      rintro ⟨g, o⟩ p s' ⟨rfl, ho⟩ hp e
      unfold pickMin at e
      cases o with
      | none => cases e; exact ⟨rfl, fun b hb => by cases hb; exact hp⟩
      | some b =>
        obtain ⟨n1, _, e⟩ := bind_ok e
        obtain ⟨n2, _, e⟩ := bind_ok e
        split at e
        · cases e; exact ⟨rfl, ho⟩
        · cases e; exact ⟨rfl, fun b hb => by cases hb; exact hp⟩)
    (by
      rintro ⟨g, o⟩ p n ⟨rfl, ho⟩ hp hm
      exact hn p n (List.mem_cons_of_mem _ hp) hm)
    _ (h, none) s ⟨rfl, nofun⟩ rfl
    (by
      rcases hn 1 n (by simp) hm with h1 | h1
      · left; change (if n.right = 1 then 0 else n.right) = 0; simp [h1]
      · right; change (if n.right = 1 then 0 else n.right) ∈ HR
        have : n.right ≠ 1 := fun h => one_notHR B (h ▸ h1)
        simpa [this] using h1) e2
  unfold expectP at e
  cases hs : s.2 with
  | none => rw [hs] at e; cases e
  | some b => rw [hs] at e; cases e; exact key.2 _ hs

/-- What a finished call of `solve_helper` or of its loop has done. -/
def Res (h0 : Heap) (HR : List Nat) (V RW : Nat → List Nat) (h : Heap) (ps : List Nat) (x : Bool × Heap × List Nat) : Prop :=
  Mono h0 HR V h x.2.1 ∧ (x.1 = false → x.2.2 = ps) ∧
    (x.1 = true → ∃ rs, x.2.2 = ps ++ rs ∧ (∀ r ∈ rs, RW r ≠ []) ∧ Gone (cols h0 RW rs) h x.2.1)

theorem solveHelper_res {A : Arith} : ∀ h ps x, solveHelperG A 1 h ps = .ok x → Inv h0 HR V h → Res h0 HR V RW h ps x := by
  refine helperG_induct A 1 (fun h ps x => Inv h0 HR V h → Res h0 HR V RW h ps x)
    (fun c it h ps x => c ∈ HR → it.original = c → (it.current = 0 ∨ it.current ∈ V c) → Inv h0 HR V h → Res h0 HR V RW h ps x)
    ?_ ?_
  · intro g hg h ps x e I
    obtain ⟨b, _, e⟩ := bind_ok e
    cases b with
    | true => cases e; exact ⟨.refl I, nofun, fun _ => ⟨[], by simp, by simp, by simp [cols, Gone]⟩⟩
    | false =>
      obtain ⟨c, e1, e⟩ := bind_ok e
      obtain ⟨h1, e2, e⟩ := bind_ok e
      obtain ⟨it, e3, e⟩ := bind_ok e
      have hc := chooseColumn_in B I e1
      have m1 := coverColumn_mono B I (.hdr hc) e2
      obtain ⟨n, hm, rfl⟩ := iterSkip1_inv (pos B hc) e3
      have hd := ((m1.inv.ok c n hm).2.1 hc).2.2
      obtain ⟨m2, r1, r2⟩ := hg _ _ _ _ _ e hc rfl (by
        rcases List.mem_cons.1 hd with h1 | h1
        · left; change (if n.down = c then 0 else n.down) = 0; simp [h1]
        · change (if n.down = c then 0 else n.down) = 0 ∨ (if n.down = c then 0 else n.down) ∈ V c
          by_cases h2 : n.down = c
          · left; simp [h2]
          · right; simpa [h2] using h1) m1.inv
      refine ⟨m1.trans m2, r1, fun hb => ?_⟩
      obtain ⟨rs, q1, q2, q3⟩ := r2 hb
      exact ⟨rs, q1, q2, q3.mono m1 (.refl m2.inv)⟩
  · intro f g hf hg c it h ps x e0 hc ho hcur I
    obtain ⟨⟨y, it'⟩, e1, e⟩ := bind_ok e0
    clear e0
    rcases next_inv e1 with ⟨rfl, rfl, _⟩ | ⟨n, rfl, h1, hm, rfl⟩
    · obtain ⟨h1, e2, e⟩ := bind_ok e
      cases e
      exact ⟨uncoverColumn_mono B I (.hdr hc) e2, fun _ => rfl, nofun⟩
    · have hq := hcur.resolve_left h1
      obtain ⟨n', e2, e⟩ := bind_ok e
      obtain rfl : n = n' := by
        have := read_inv e2
        rw [hm] at this
        exact (Cell.live.inj this)
      obtain ⟨h2, e3, e⟩ := bind_ok e
      obtain ⟨⟨b, h3, ps3⟩, e4, e⟩ := bind_ok e
      have hrow := ((I.ok _ n hm).2.2 c hc hq).2.1
      have hqr := inRW B hc hq
      rw [← hrow] at hqr
      have m1 := forRow_mono B (.inl rfl) hqr (fun h p h' I hp e => coverColumn_mono B I (Col.row B hp) e) I e3
      obtain ⟨m2, r1, r2⟩ := hf _ _ _ e4 m1.inv
      cases b with
      | true =>
        obtain ⟨h4, e5, e⟩ := bind_ok e
        obtain ⟨h5, e6, e⟩ := bind_ok e
        cases e
        obtain ⟨rs, q1, q2, q3⟩ := r2 rfl
        change Mono h0 HR V h2 h3 at m2
        change ps3 = _ at q1
        change Gone _ h2 h3 at q3
        obtain ⟨m3, g3⟩ := freeOthers_gone B hqr m2.inv e5
        obtain ⟨m4, l4, l4'⟩ := freeChain_mono B m3.inv (Col.hdr hc) e6
        refine ⟨m1.trans (m2.trans (m3.trans m4)), nofun, fun _ => ⟨n.row :: rs, by simp [q1], ?_, ?_⟩⟩
        · intro r hr
          rcases List.mem_cons.1 hr with rfl | hr
          · exact List.ne_nil_of_mem hqr
          · exact q2 r hr
        · have g4 : Gone [c] h4 h5 := ⟨by simp, by simpa using ⟨l4, l4'⟩⟩
          have g := ((q3.append g3 m2 m3).append g4 (m2.trans m3) m4).mono m1 (.refl m4.inv)
          refine g.perm ?_
          have p1 : (c :: (othOf (RW n.row) it.current).map fun x => (h0.node x).header).Perm
              ((RW n.row).map fun x => (h0.node x).header) := by
            have := (othOf_perm hqr).map fun x => (h0.node x).header
            rwa [List.map_cons, B.hdr c hc _ hq] at this
          have p2 : (cols h0 RW rs ++ ((othOf (RW n.row) it.current).map fun x => (h0.node x).header) ++ [c]).Perm
              ((c :: (othOf (RW n.row) it.current).map fun x => (h0.node x).header) ++ cols h0 RW rs) := by
            rw [List.append_assoc]
            exact List.perm_append_comm.trans ((List.perm_append_comm (l₂ := [c])).append_right _)
          exact p2.trans (p1.append_right _)
      | false =>
        obtain ⟨h4, e5, e⟩ := bind_ok e
        have q1 : ps3 = ps ++ [n.row] := r1 rfl
        subst q1
        rw [List.dropLast_concat] at e
        have m3 := forRow_mono B (.inr rfl) hqr (fun h p h' I hp e => uncoverColumn_mono B I (Col.row B hp) e) m2.inv e5
        obtain ⟨_, _, _, _, _, hd⟩ := (I.ok _ n hm).2.2 c hc hq
        obtain ⟨m4, s1, s2⟩ := hg _ _ _ _ _ e hc ho (by
          change (if n.down = it.original then 0 else n.down) = 0 ∨ (if n.down = it.original then 0 else n.down) ∈ V c
          rw [ho]
          rcases List.mem_cons.1 hd with h1 | h1
          · left; simp [h1]
          · by_cases h2 : n.down = c
            · left; simp [h2]
            · right; simpa [h2] using h1) m3.inv
        have mm := m1.trans (m2.trans m3)
        refine ⟨mm.trans m4, s1, fun hb => ?_⟩
        obtain ⟨rs, q1, q2, q3⟩ := s2 hb
        exact ⟨rs, q1, q2, q3.mono mm (.refl m4.inv)⟩

/-! ### `add_solution` -/

/-- The row table: an entry is null or a cell of its row. -/
def Table (RW : Nat → List Nat) (rows : List Nat) : Prop := ∀ r q, rows[r]? = some q → q = 0 ∨ q ∈ RW r

omit B in
theorem nullRow_table {s s' : Heap × List Nat} {p : Nat} (T : Table RW s.2) (e : nullRow s p = .ok s') :
    s'.1 = s.1 ∧ Table RW s'.2 := by
  obtain ⟨n, _, e⟩ := bind_ok e
  obtain ⟨rows', e1, e⟩ := bind_ok e
  cases e
  refine ⟨rfl, fun r q hr => ?_⟩
  unfold setP at e1
  split at e1
  · cases e1
    change (s.2.set n.row 0)[r]? = some q at hr
    rw [List.getElem?_set] at hr
    split at hr
    · left; exact (Option.some.inj hr).symm
    · exact T r q hr
  · cases e1

theorem table0 : Table RW rows := by
  intro r q hr
  have h1 := B.rowsEq r
  rw [hr] at h1
  simp only [Option.getD_some] at h1
  cases hR : RW r with
  | nil => left; rw [h1, hR]; rfl
  | cons a l =>
    right
    rw [h1, hR, List.getLastD_cons]
    cases l with
    | nil => simp
    | cons b l =>
      rw [List.getLastD_cons]
      exact List.mem_cons_of_mem _ List.getLastD_mem_cons

/-- A call of `add_solution` that returns. -/
theorem addSolution_res {A : Arith} {m m' : Matrix} {h h' : Heap} {r : Nat} {res : Except DLError Unit} (I : Inv h0 HR V h)
    (T : Table RW m.rows) (e : addSolutionG A m h r = .ok (res, m', h')) :
    Mono h0 HR V h h' ∧ Table RW m'.rows ∧ m'.root = m.root ∧
      ((res = .error .indexError ∧ m'.partialSolution = m.partialSolution) ∨
       (res = .error .invalidRow ∧ m'.partialSolution = m.partialSolution ++ [r]) ∨
       (res = .ok () ∧ m'.partialSolution = m.partialSolution ++ [r] ∧ RW r ≠ [] ∧ Gone (cols h0 RW [r]) h h')) := by
  unfold addSolutionG at e
  split at e
  · cases e
    exact ⟨.refl I, T, rfl, .inl ⟨rfl, rfl⟩⟩
  · obtain ⟨q, e1, e⟩ := bind_ok e
    have hq : m.rows[r]? = some q := by
      unfold getP at e1
      split at e1
      · rename_i a ha; cases e1; exact ha
      · cases e1
    by_cases hq0 : q = 0
    · rw [if_pos hq0] at e
      cases e
      exact ⟨.refl I, T, rfl, .inr (.inl ⟨rfl, rfl⟩)⟩
    · rw [if_neg hq0] at e
      have hqr := (T r q hq).resolve_left hq0
      obtain ⟨n, e2, e⟩ := bind_ok e
      obtain ⟨it, e3, e⟩ := bind_ok e
      obtain ⟨s, e4, e⟩ := bind_ok e
      obtain ⟨h1, e5, e⟩ := bind_ok e
      obtain ⟨h2, e6, e⟩ := bind_ok e
      obtain ⟨h3, e7, e⟩ := bind_ok e
      cases e
      have T' : Table RW s.2 := (forIter_inv (hp := Prod.fst) (d := .down) (body := nullRow) (o := it.original)
        (P := fun _ => True) (I := fun s => Table RW s.2) (fun s p s' hI _ e => (nullRow_table hI e).2)
        (fun _ _ _ _ _ _ => .inr trivial) it (h, m.rows) s T rfl (.inr trivial) e4)
      have m1 : Mono h0 HR V h h1 := forIter_inv (hp := id) (d := .right) (o := q) (P := (· ∈ RW r)) (I := Mono h0 HR V h)
        (fun s p s' hI hP e => hI.trans (coverColumn_mono B hI.inv (Col.row B hP) e))
        (fun s p n hI hP hm => .inr (row_next B hI.inv hP hm).1) (iter q) h h1 (.refl I) rfl (.inr hqr) e5
      obtain ⟨m2, g2⟩ := freeOthers_gone B hqr m1.inv e6
      obtain ⟨m3, l3, l3'⟩ := freeChain_mono B m2.inv (Col.row B hqr) e7
      have g3 : Gone [(h0.node q).header] h2 h' := ⟨by simp, by simpa using ⟨l3, l3'⟩⟩
      refine ⟨m1.trans (m2.trans m3), T', rfl, .inr (.inr ⟨rfl, rfl, List.ne_nil_of_mem hqr, ?_⟩)⟩
      refine ((g2.append g3 m2 m3).mono m1 (.refl m3.inv)).perm ?_
      have p1 := (othOf_perm hqr).map fun x => (h0.node x).header
      rw [List.map_cons] at p1
      rw [show cols h0 RW [r] = (RW r).map fun x => (h0.node x).header by simp [cols]]
      exact (List.perm_append_comm (l₂ := [(h0.node q).header])).trans p1

theorem inv0 : Inv h0 HR V h0 := by
  refine ⟨fun p hp => ?_, fun p n hm => ?_⟩
  · by_cases h1 : p = 0 ∨ h0.next ≤ p
    · rw [B.dead p h1] at hp; cases hp
    · obtain ⟨n, hn⟩ := B.live p (by omega) (by omega)
      rw [hn] at hp; cases hp
  · have en : n = h0.node p := (node_of_mem hm).symm
    subst en
    have ring_mem : ∀ {d : Dir} {o : Nat} {l : List Nat}, HRing h0 d o l → ∀ x ∈ o :: l, (h0.node x).get d ∈ o :: l := by
      intro d o l R x hx
      rcases List.mem_cons.1 hx with rfl | hx
      · rw [R.first]
        have := List.head_mem (l := l ++ [x]) (by simp)
        simp only [List.mem_append, List.mem_singleton] at this
        simp only [List.mem_cons]; tauto
      · obtain ⟨l1, l2, rfl⟩ := List.append_of_mem hx
        rw [R.next]
        have := List.head_mem (l := l2 ++ [o]) (by simp)
        simp only [List.mem_append, List.mem_singleton] at this
        simp only [List.mem_cons, List.mem_append]; tauto
    have ring_mem' : ∀ {d : Dir} {o : Nat} {l : List Nat}, HRing h0 d o l → ∀ x ∈ o :: l, (h0.node x).get d.opp ∈ o :: l := by
      intro d o l R x hx
      have := ring_mem R.reverse x (by simpa using hx)
      simpa using this
    refine ⟨fun hp => ⟨ring_mem' B.hring p hp, ring_mem B.hring p hp⟩, fun hp => ⟨B.hdr0 p hp, ?_, ?_⟩, fun c hc hp => ?_⟩
    · exact ring_mem' (B.vring p hp) p (by simp)
    · exact ring_mem (B.vring p hp) p (by simp)
    · exact ⟨B.hdr c hc p hp, rfl, rfl, rfl, ring_mem' (B.vring c hc) p (by simp [hp]), ring_mem (B.vring c hc) p (by simp [hp])⟩

/-- Distinct headers: no row twice, and no constraint satisfied twice. -/
theorem cols_nodup {rs : List Nat} (hr : ∀ r ∈ rs, RW r ≠ []) (hn : (cols h0 RW rs).Nodup) :
    rs.Nodup ∧ (∀ r ∈ rs, ∃ col ∈ M, r ∈ col) ∧ ∀ col ∈ M, (col.filter (· ∈ rs)).length ≤ 1 := by
  have hn' : (rs.flatMap RW).map (fun x => (h0.node x).header) |>.Nodup := by
    have : (rs.flatMap RW).map (fun x => (h0.node x).header) = cols h0 RW rs := by
      unfold cols; rw [List.map_flatMap]
    rwa [this]
  have hinj := List.inj_on_of_nodup_map hn'
  refine ⟨?_, fun r hrs => ?_, fun col hcol => ?_⟩
  · clear hn' hinj
    induction rs with
    | nil => simp
    | cons a l ih =>
      rw [cols, List.flatMap_cons, List.nodup_append] at hn
      rw [List.nodup_cons]
      refine ⟨fun hal => ?_, ih (fun r h => hr r (by simp [h])) hn.2.1⟩
      obtain ⟨x, hx⟩ := List.exists_mem_of_ne_nil _ (hr a (by simp))
      have h1 : (h0.node x).header ∈ (RW a).map fun x => (h0.node x).header := List.mem_map_of_mem hx
      exact hn.2.2 _ h1 _ (List.mem_flatMap.2 ⟨a, hal, h1⟩) rfl
  · obtain ⟨x, hx⟩ := List.exists_mem_of_ne_nil _ (hr r hrs)
    obtain ⟨⟨c, hc, hxc⟩, hrow⟩ := (B.rmem r x).1 hx
    rw [← B.mat]
    exact ⟨_, List.mem_map_of_mem hc, by rw [← hrow]; exact List.mem_map_of_mem hxc⟩
  · rw [← B.mat] at hcol
    obtain ⟨c, hc, rfl⟩ := List.mem_map.1 hcol
    rw [List.filter_map, List.length_map]
    have hnd : ((V c).filter ((fun x => decide (x ∈ rs)) ∘ fun q => (h0.node q).row)).Nodup := (B.ndV c hc).filter _
    have hall : ∀ x ∈ (V c).filter ((fun x => decide (x ∈ rs)) ∘ fun q => (h0.node q).row),
        x ∈ rs.flatMap RW ∧ (h0.node x).header = c := by
      intro x hx
      rw [List.mem_filter] at hx
      simp only [Function.comp, decide_eq_true_eq] at hx
      exact ⟨List.mem_flatMap.2 ⟨_, hx.2, inRW B hc hx.1⟩, B.hdr c hc x hx.1⟩
    generalize (V c).filter ((fun x => decide (x ∈ rs)) ∘ fun q => (h0.node q).row) = l at hnd hall
    match l, hnd, hall with
    | [], _, _ => simp
    | [a], _, _ => simp
    | a :: b :: l, hnd, hall =>
      have ha := hall a (by simp)
      have hb := hall b (by simp)
      have := hinj ha.1 hb.1 (ha.2.trans hb.2.symm)
      simp [this] at hnd

end DancingLinks.Rep
