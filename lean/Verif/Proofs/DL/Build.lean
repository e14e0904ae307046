import Verif.Proofs.DL.Search

/-! `DancingMatrix::new` builds a well-formed torus. -/
namespace DancingLinks

theorem Ring.last {nx pv : Nat → Nat} {p : Nat} {l : List Nat} (h : Ring nx pv p l) :
    nx ((p :: l).getLast (by simp)) = p ∧ pv p = (p :: l).getLast (by simp) := by
  unfold Ring at h
  rw [← List.cons_append, List.isChain_append] at h
  exact h.2.2 _ (List.getLast?_eq_some_getLast (by simp)) p (by simp)

/-! ### Node allocation -/

theorem node_of_mem {h : Heap} {p : Nat} {n : Node} (e : h.mem p = .live n) : h.node p = n := by
  simp [Heap.node, e]

theorem alloc_live {h : Heap} {x : Nat} (hl : h.Live x) (hx : x ≠ h.next) : h.alloc.2.Live x := by
  obtain ⟨n, hn⟩ := hl; exact ⟨n, by simp [Heap.alloc, hx, hn]⟩
theorem alloc_node {h : Heap} {x : Nat} (hx : x ≠ h.next) : h.alloc.2.node x = h.node x := by
  simp [Heap.alloc, Heap.node, hx]

/-- Effect of allocating a node and linking it: new node `n` at `h.next`, other nodes changed by `f`. -/
structure Allocd (h h' : Heap) (n : Node) (f : Nat → Node → Node) : Prop where
  next : h'.next = h.next + 1
  live : ∀ x, x ≠ h.next → (h'.Live x ↔ h.Live x)
  dead : ∀ x, x ≠ h.next → ¬ h.Live x → h'.mem x = h.mem x
  new : h'.mem h.next = .live n
  node : ∀ x, x ≠ h.next → h'.node x = f x (h.node x)

theorem newHeader_spec {h : Heap} {pv k : Nat} (h0 : pv ≠ 0) (hl : h.Live pv)
    (hr : h.Live (h.node pv).right) (n1 : pv ≠ h.next) (n2 : (h.node pv).right ≠ h.next) :
    ∃ h', Node.newHeader h pv k = .ok (h.next, h') ∧
      Allocd h h' { header := 0, left := pv, right := (h.node pv).right, up := h.next, down := h.next, row := k }
        (fun x n => { n with
          left := if x = (h.node pv).right then h.next else n.left
          right := if x = pv then h.next else n.right }) := by
  unfold Node.newHeader
  have a1 : h.alloc.1 = h.next := rfl
  have e1 : h.alloc.2.node pv = h.node pv := alloc_node n1
  have l1 := alloc_live hl n1
  have l2 := alloc_live hr n2
  simp only [if_pos h0, read_ok l1, Prog.ok_bind, e1, a1]
  rw [setLeft_ok l2]
  simp only [Prog.ok_bind]
  rw [setRight_ok (mod_live _ l1)]
  simp only [Prog.ok_bind, Prog.pure_eq]
  set g := (h.alloc.2.mod (h.node pv).right fun n => { n with left := h.next }).mod pv
    fun n => { n with right := h.next } with hg
  have gu : g.mem h.next = .uninit := by
    simp [hg, mod_mem, n1.symm, n2.symm, Heap.alloc]
  refine ⟨g.put h.next (.live { header := 0, left := pv, right := (h.node pv).right, up := h.next, down := h.next, row := k }), by simp only [Heap.write, gu, Prog.ok_bind], rfl, ?_, ?_, ?_, ?_⟩
  · intro x hx
    have : (g.put h.next (.live { header := 0, left := pv, right := (h.node pv).right, up := h.next, down := h.next, row := k })).mem x = g.mem x := by simp [hx]
    rw [live_congr this]
    simp only [hg, Heap.Live, mod_mem, Heap.alloc, hx, if_false]
    split_ifs with c1 c2
    · subst c1; simp; exact hl
    · subst c2; simp; exact hr
    · rfl
  · intro x hx hd
    have c1 : x ≠ pv := by rintro rfl; exact hd hl
    have c2 : x ≠ (h.node pv).right := by rintro rfl; exact hd hr
    simp [hx, hg, mod_mem, c1, c2, Heap.alloc]
  · simp
  · intro x hx
    have : (g.put h.next (.live { header := 0, left := pv, right := (h.node pv).right, up := h.next, down := h.next, row := k })).mem x = g.mem x := by simp [hx]
    rw [node_congr this]
    simp only [hg, mod_node, alloc_node hx, alloc_node n1, alloc_node n2]
    apply Node.ext' <;> grind

theorem newRoot_spec {h : Heap} : ∃ h', Node.newHeader h 0 0 = .ok (h.next, h') ∧
      Allocd h h' { header := 0, left := h.next, right := h.next, up := h.next, down := h.next, row := 0 }
        (fun _ n => n) := by
  unfold Node.newHeader
  have a1 : h.alloc.1 = h.next := rfl
  have gu : h.alloc.2.mem h.next = .uninit := by simp [Heap.alloc]
  simp only [ne_eq, not_true_eq_false, if_false, Prog.pure_eq, Prog.ok_bind, a1, Heap.write, gu]
  refine ⟨_, rfl, rfl, ?_, ?_, ?_, ?_⟩
  · intro x hx; apply live_congr; simp [hx, Heap.alloc]
  · intro x hx _; simp [hx, Heap.alloc]
  · simp
  · intro x hx; apply node_congr; simp [hx, Heap.alloc]

theorem newNode_spec {h : Heap} {c rp cp k : Nat} (h0 : cp ≠ 0) (hl : h.Live cp)
    (hd : h.Live (h.node cp).down) (n1 : cp ≠ h.next) (n2 : (h.node cp).down ≠ h.next)
    (hrl : rp ≠ 0 → h.Live rp ∧ h.Live (h.node rp).right ∧ rp ≠ h.next ∧ (h.node rp).right ≠ h.next) :
    ∃ h', Node.new h c rp cp k = .ok (h.next, h') ∧
      Allocd h h' { header := c, left := if rp = 0 then h.next else rp,
                    right := if rp = 0 then h.next else (h.node rp).right,
                    up := cp, down := (h.node cp).down, row := k }
        (fun x n => { n with
          left := if rp ≠ 0 ∧ x = (h.node rp).right then h.next else n.left
          right := if rp ≠ 0 ∧ x = rp then h.next else n.right
          up := if x = (h.node cp).down then h.next else n.up
          down := if x = cp then h.next else n.down }) := by
  unfold Node.new
  have a1 : h.alloc.1 = h.next := rfl
  have e1 : h.alloc.2.node cp = h.node cp := alloc_node n1
  have l1 := alloc_live hl n1
  have l2 := alloc_live hd n2
  by_cases hr : rp = 0
  · subst hr
    simp only [ne_eq, not_true_eq_false, if_false, if_true, Prog.pure_eq, Prog.ok_bind, read_ok l1, e1, a1,
      not_false_eq_true, h0]
    rw [setUp_ok l2]
    simp only [Prog.ok_bind]
    rw [setDown_ok (mod_live _ l1)]
    simp only [Prog.ok_bind]
    set g := (h.alloc.2.mod (h.node cp).down fun n => { n with up := h.next }).mod cp
      fun n => { n with down := h.next } with hg
    have gu : g.mem h.next = .uninit := by
      simp [hg, mod_mem, n1.symm, n2.symm, Heap.alloc]
    refine ⟨g.put h.next (.live { header := c, left := h.next, right := h.next, up := cp, down := (h.node cp).down, row := k }), by simp only [Heap.write, gu, Prog.ok_bind], rfl, ?_, ?_, ?_, ?_⟩
    · intro x hx
      rw [live_congr (h := g) (by simp [hx])]
      simp only [hg, Heap.Live, mod_mem, Heap.alloc, hx, if_false]
      split_ifs with c1 c2
      · subst c1; simp; exact hl
      · subst c2; simp; exact hd
      · rfl
    · intro x hx hd'
      have c1 : x ≠ cp := by rintro rfl; exact hd' hl
      have c2 : x ≠ (h.node cp).down := by rintro rfl; exact hd' hd
      simp [hx, hg, mod_mem, c1, c2, Heap.alloc]
    · simp
    · intro x hx
      rw [node_congr (h := g) (by simp [hx])]
      simp only [hg, mod_node, alloc_node hx, alloc_node n1, alloc_node n2]
      apply Node.ext' <;> grind
  · obtain ⟨r1, r2, r3, r4⟩ := hrl hr
    have e2 : h.alloc.2.node rp = h.node rp := alloc_node r3
    have l3 := alloc_live r1 r3
    have l4 := alloc_live r2 r4
    simp only [ne_eq, hr, not_false_eq_true, if_true, if_false, read_ok l3, Prog.ok_bind, e2, a1, Prog.pure_eq]
    rw [setLeft_ok l4]
    simp only [Prog.ok_bind]
    rw [setRight_ok (mod_live _ l3)]
    simp only [Prog.ok_bind, h0, not_false_eq_true, if_true]
    set g0 := (h.alloc.2.mod (h.node rp).right fun n => { n with left := h.next }).mod rp
      fun n => { n with right := h.next } with hg0
    have g1 : g0.Live cp := mod_live _ (mod_live _ l1)
    have g2 : g0.Live (h.node cp).down := mod_live _ (mod_live _ l2)
    have gd : (g0.node cp).down = (h.node cp).down := by
      simp only [hg0, mod_node, alloc_node n1, alloc_node r3, alloc_node r4]; grind
    rw [read_ok g1]
    simp only [Prog.ok_bind, gd]
    rw [setUp_ok g2]
    simp only [Prog.ok_bind]
    rw [setDown_ok (mod_live _ g1)]
    simp only [Prog.ok_bind]
    set g := (g0.mod (h.node cp).down fun n => { n with up := h.next }).mod cp
      fun n => { n with down := h.next } with hg
    have gu : g.mem h.next = .uninit := by
      simp [hg, hg0, mod_mem, n1.symm, n2.symm, r3.symm, r4.symm, Heap.alloc]
    refine ⟨g.put h.next (.live { header := c, left := rp, right := (h.node rp).right, up := cp, down := (h.node cp).down, row := k }), by simp only [Heap.write, gu, Prog.ok_bind], rfl, ?_, ?_, ?_, ?_⟩
    · intro x hx
      rw [live_congr (h := g) (by simp [hx])]
      simp only [hg, hg0, Heap.Live, mod_mem, Heap.alloc, hx, if_false]
      split_ifs with c1 c2 c3 c4
      · subst c1; simp; exact hl
      · subst c2; simp; exact hd
      · subst c3; simp; exact r1
      · subst c4; simp; exact r2
      · rfl
    · intro x hx hd'
      have c1 : x ≠ cp := by rintro rfl; exact hd' hl
      have c2 : x ≠ (h.node cp).down := by rintro rfl; exact hd' hd
      have c3 : x ≠ rp := by rintro rfl; exact hd' r1
      have c4 : x ≠ (h.node rp).right := by rintro rfl; exact hd' r2
      simp [hx, hg, hg0, mod_mem, c1, c2, c3, c4, Heap.alloc]
    · simp
    · intro x hx
      rw [node_congr (h := g) (by simp [hx])]
      simp only [hg, hg0, mod_node, alloc_node hx, alloc_node n1, alloc_node n2, alloc_node r3, alloc_node r4]
      apply Node.ext' <;> grind

/-! ### Building -/

/-- Invariant of `new`. `M` is the matrix read so far (its last column possibly incomplete), `RW r` the
nodes of row `r` in creation order. The counts of the headers are tracked separately. The last two clauses need that
no constraint repeats a row. -/
structure BldR (h : Heap) (rows : List Nat) (HR : List Nat) (V : Nat → List Nat) (RW : Nat → List Nat)
    (M : List (List Nat)) : Prop where
  one : 2 ≤ h.next
  live : ∀ p, 0 < p → p < h.next → h.Live p
  dead : ∀ p, p = 0 ∨ h.next ≤ p → h.mem p = .unalloc
  part : ∀ p, 0 < p → p < h.next → p = 1 ∨ Act HR V p
  bndH : ∀ c ∈ HR, 1 < c ∧ c < h.next
  bndV : ∀ c ∈ HR, ∀ q ∈ V c, 1 < q ∧ q < h.next
  ndH : HR.Nodup
  ndV : ∀ c ∈ HR, (V c).Nodup
  sep : ∀ c ∈ HR, ∀ c' ∈ HR, c ∉ V c'
  hring : HRing h .right 1 HR
  rootD : (h.node 1).down = 1
  vring : ∀ c ∈ HR, HRing h .down c (V c)
  hdr0 : ∀ c ∈ HR, (h.node c).header = 0
  hdr : ∀ c ∈ HR, ∀ q ∈ V c, (h.node q).header = c
  mat : HR.map (fun c => (V c).map fun q => (h.node q).row) = M
  rring : ∀ r a l, RW r = a :: l → HRing h .right a l
  rnd : ∀ r, (RW r).Nodup
  rmem : ∀ r q, q ∈ RW r ↔ (∃ c ∈ HR, q ∈ V c) ∧ (h.node q).row = r
  rcol' : (∀ cl ∈ M, cl.Nodup) → ∀ r, ∀ q ∈ RW r, ∀ q' ∈ RW r, (h.node q).header = (h.node q').header → q = q'
  rowsEq : ∀ r, (rows[r]?).getD 0 = (RW r).getLastD 0
  rlen : ∀ i, i < rows.length ↔ ∃ r, RW r ≠ [] ∧ i ≤ r
  rord' : (∀ cl ∈ M, cl.Nodup) → ∀ r, (RW r).map (fun q => (h.node q).header) =
    HR.filter fun c => decide (r ∈ (V c).map fun q => (h.node q).row)

theorem bld_root {h : Heap} (e : h = Heap.empty) : ∃ h', Node.newHeader h 0 0 = .ok (1, h') ∧
    BldR h' [] [] (fun _ => []) (fun _ => []) [] := by
  subst e
  obtain ⟨h', e, A⟩ := newRoot_spec (h := Heap.empty)
  have n1 : Heap.empty.next = 1 := rfl
  rw [n1] at e
  refine ⟨h', e, ?_⟩
  have nx : h'.next = 2 := A.next
  have m1 : h'.mem 1 = .live _ := A.new
  have nd : h'.node 1 = { header := 0, left := 1, right := 1, up := 1, down := 1, row := 0 } := by
    simp [Heap.node, m1, n1]
  refine ⟨by omega, ?_, ?_, ?_, by simp, by simp, by simp, by simp, by simp, ?_, ?_, by simp, by simp, by simp,
    by simp, by simp, by simp, by simp, by simp, by simp, by simp, by simp⟩
  · intro p h1 h2
    have : p = 1 := by omega
    subst this; exact ⟨_, m1⟩
  · intro p hp
    rw [A.dead p (by rw [n1]; omega) (by simp [Heap.Live, Heap.empty])]
    rfl
  · intro p h1 h2; left; omega
  · unfold HRing Ring; simp [Lk, nd, Dir.opp]
  · simp [nd]

/-- After `new_header`. -/
theorem bld_header {h : Heap} {rows HR V RW M} (B : BldR h rows HR V RW M) (k : Nat) :
    ∃ h', Node.newHeader h ((1 :: HR).getLast (by simp)) k = .ok (h.next, h') ∧
      BldR h' rows (HR ++ [h.next]) (fun c => if c = h.next then [] else V c) RW (M ++ [[]]) ∧
      (h'.node h.next).row = k ∧ (∀ c ∈ HR, (h'.node c).row = (h.node c).row) := by
  have one := B.one
  set pv := (1 :: HR).getLast (by simp) with hpv
  have pvm : pv ∈ 1 :: HR := List.getLast_mem _
  have bnd : ∀ x ∈ 1 :: HR, 0 < x ∧ x < h.next := by
    intro x hx
    simp only [List.mem_cons] at hx
    rcases hx with rfl | hx
    · omega
    · have := B.bndH x hx; omega
  have ndr : (1 :: HR).Nodup := by
    rw [List.nodup_cons]; exact ⟨fun h => by have := B.bndH 1 h; omega, B.ndH⟩
  have rt : (h.node pv).right = 1 := (Ring.last B.hring).1
  have pb := bnd pv pvm
  obtain ⟨h', e, A⟩ := newHeader_spec (h := h) (pv := pv) (k := k) (by omega) (B.live pv pb.1 pb.2)
    (by rw [rt]; exact B.live 1 (by omega) (by omega)) (by omega) (by rw [rt]; omega)
  rw [rt] at A
  have nn : h'.node h.next = { header := 0, left := pv, right := 1, up := h.next, down := h.next, row := k } := by
    simp [Heap.node, A.new]
  have ne1 : ∀ c ∈ HR, c ≠ h.next := fun c hc => by have := B.bndH c hc; omega
  have ne2 : ∀ c ∈ HR, ∀ q ∈ V c, q ≠ h.next := fun c hc q hq => by have := B.bndV c hc q hq; omega
  have Vo : ∀ c ∈ HR, (if c = h.next then [] else V c) = V c := fun c hc => if_neg (ne1 c hc)
  have mem' : ∀ c, c ∈ HR ++ [h.next] ↔ c ∈ HR ∨ c = h.next := by simp
  have actI : ∀ q, (∃ c ∈ HR ++ [h.next], q ∈ (if c = h.next then [] else V c)) ↔ ∃ c ∈ HR, q ∈ V c := by
    intro q
    constructor
    · rintro ⟨c, hc, hq⟩
      rcases (mem' c).1 hc with h1 | h1
      · rw [Vo c h1] at hq; exact ⟨c, h1, hq⟩
      · simp [h1] at hq
    · rintro ⟨c, hc, hq⟩
      exact ⟨c, by simp [hc], by rw [Vo c hc]; exact hq⟩
  have rwn : ∀ r q, q ∈ RW r → q ≠ h.next ∧ q ≠ 1 ∧ q ∉ HR := by
    intro r q hq
    obtain ⟨⟨c, hc, hqc⟩, _⟩ := (B.rmem r q).1 hq
    have := B.bndV c hc q hqc
    exact ⟨by omega, by omega, fun h => B.sep q h c hc hqc⟩
  refine ⟨h', e, ?_, by rw [nn], fun c hc => by rw [A.node c (ne1 c hc)]⟩
  refine ⟨by rw [A.next]; omega, ?_, ?_, ?_, ?_, ?_, ?_, ?_, ?_, ?_, ?_, ?_, ?_, ?_, ?_, ?_, B.rnd, ?_, ?_, B.rowsEq,
    B.rlen, ?_⟩
  · intro p h1 h2
    rw [A.next] at h2
    by_cases hp : p = h.next
    · subst hp; exact ⟨_, A.new⟩
    · exact (A.live p hp).2 (B.live p h1 (by omega))
  · intro p hp
    rw [A.next] at hp
    have := B.dead p (by omega)
    rw [A.dead p (by omega) (by rintro ⟨n, hn⟩; rw [this] at hn; cases hn), this]
  · intro p h1 h2
    rw [A.next] at h2
    by_cases hp : p = h.next
    · right; left; simp [hp]
    · rcases B.part p h1 (by omega) with h3 | h3 | h3
      · exact Or.inl h3
      · right; left; simp [h3]
      · right; right; exact (actI p).2 h3
  · intro c hc
    rw [A.next]
    rcases (mem' c).1 hc with h1 | h1
    · have := B.bndH c h1; omega
    · omega
  · intro c hc q hq
    rw [A.next]
    rcases (mem' c).1 hc with h1 | h1
    · rw [Vo c h1] at hq; have := B.bndV c h1 q hq; omega
    · simp [h1] at hq
  · rw [List.nodup_append]
    refine ⟨B.ndH, by simp, ?_⟩
    intro a ha b hb
    simp at hb; subst hb; exact ne1 a ha
  · intro c hc
    rcases (mem' c).1 hc with h1 | h1
    · simp only [Vo c h1]; exact B.ndV c h1
    · simp [h1]
  · intro c hc c' hc' h3
    rcases (mem' c').1 hc' with h1 | h1
    · simp only [Vo c' h1] at h3
      rcases (mem' c).1 hc with h2 | h2
      · exact B.sep c h2 c' h1 h3
      · exact ne2 c' h1 c h3 h2
    · simp [h1] at h3
  · refine Ring.insert B.hring ndr ?_ ?_ ?_ ?_
    · simp [nn]
    · simp [nn, Dir.opp, hpv]
    · intro a ha
      have hb := bnd a ha
      simp only [fld_right, A.node a (by omega)]; rfl
    · intro a ha
      have hb := bnd a ha
      simp only [Dir.opp, fld_left, A.node a (by omega)]
  · rw [A.node 1 (by omega)]; exact B.rootD
  · intro c hc
    rcases (mem' c).1 hc with h1 | h1
    · simp only [Vo c h1]
      refine (B.vring c h1).congr ?_ ?_ <;> intro a ha
      all_goals
        have : a ≠ h.next := by
          simp only [List.mem_cons] at ha
          rcases ha with rfl | ha
          · exact ne1 _ h1
          · exact ne2 _ h1 _ ha
        simp [Dir.opp, A.node a this]
    · simp only [h1, if_true]
      unfold HRing Ring; simp [Lk, nn, Dir.opp]
  · intro c hc
    rcases (mem' c).1 hc with h1 | h1
    · rw [A.node c (ne1 c h1)]; exact B.hdr0 c h1
    · rw [h1, nn]
  · intro c hc q hq
    rcases (mem' c).1 hc with h1 | h1
    · rw [Vo c h1] at hq; rw [A.node q (ne2 c h1 q hq)]; exact B.hdr c h1 q hq
    · simp [h1] at hq
  · rw [List.map_append, ← B.mat]
    congr 1
    · apply List.map_congr_left
      intro c hc
      simp only [Vo c hc]
      apply List.map_congr_left
      intro q hq
      rw [A.node q (ne2 c hc q hq)]
    · simp
  · intro r a l hr
    refine (B.rring r a l hr).congr ?_ ?_ <;> intro x hx <;> rw [← hr] at hx
    · have := rwn r x hx
      simp only [fld_right, A.node x this.1]
      rw [if_neg]; rintro rfl
      simp only [List.mem_cons] at pvm
      rcases pvm with h | h
      · exact this.2.1 h
      · exact this.2.2 h
    · have := rwn r x hx
      simp only [Dir.opp, fld_left, A.node x this.1]
      rw [if_neg this.2.1]
  · intro r q
    rw [B.rmem, actI]
    constructor
    · rintro ⟨⟨c, hc, hq⟩, h2⟩
      exact ⟨⟨c, hc, hq⟩, by rw [A.node q (ne2 c hc q hq)]; exact h2⟩
    · rintro ⟨⟨c, hc, hq⟩, h2⟩
      rw [A.node q (ne2 c hc q hq)] at h2
      exact ⟨⟨c, hc, hq⟩, h2⟩
  · intro nd r q hq q' hq' hh
    rw [A.node q (rwn r q hq).1, A.node q' (rwn r q' hq').1] at hh
    exact B.rcol' (fun cl hcl => nd cl (by simp [hcl])) r q hq q' hq' hh
  · intro nd r
    rw [List.filter_append]
    simp only [List.filter_cons, if_true, List.map_nil, List.not_mem_nil, decide_false, Bool.false_eq_true, if_false,
      List.filter_nil, List.append_nil]
    rw [List.map_congr_left (g := fun q => (h.node q).header) (fun q hq => by rw [A.node q (rwn r q hq).1]), B.rord' (fun cl hcl => nd cl (by simp [hcl])) r]
    apply List.filter_congr
    intro c hc
    rw [Vo c hc, List.map_congr_left (f := fun q => (h'.node q).row) (g := fun q => (h.node q).row) (fun q hq => by rw [A.node q (ne2 c hc q hq)])]

/-- `rows.resize(index + 1, null)`. -/
def grow (rows : List Nat) (k : Nat) : List Nat :=
  if k ≥ rows.length then rows ++ List.replicate (k + 1 - rows.length) 0 else rows

theorem grow_len (rows : List Nat) (k : Nat) : (grow rows k).length = max rows.length (k + 1) := by
  unfold grow; split_ifs
  · simp; omega
  · omega

theorem grow_get (rows : List Nat) (k i : Nat) : ((grow rows k)[i]?).getD 0 = (rows[i]?).getD 0 := by
  unfold grow
  split_ifs with h
  · rw [List.getElem?_append]
    split_ifs with h2
    · rfl
    · rw [List.getElem?_eq_none (l := rows) (by omega), List.getElem?_replicate]
      split_ifs <;> rfl
  · rfl

/-- After one iteration of the inner loop. -/
theorem bld_cell {h : Heap} {rows HR V RW M} {c : Nat} {cl : List Nat}
    (B : BldR h rows (HR ++ [c]) V RW (M ++ [cl])) {k : Nat} :
    ∃ h' rows' V' RW', newCell c (h, rows, (c :: V c).getLast (by simp)) k =
        .ok (h', rows', (c :: V' c).getLast (by simp)) ∧
      BldR h' rows' (HR ++ [c]) V' RW' (M ++ [cl ++ [k]]) ∧
      (∀ d ∈ HR ++ [c], (h'.node d).row = (h.node d).row) ∧
      (∀ d ∈ HR, V' d = V d) := by
  have one := B.one
  have hc : c ∈ HR ++ [c] := by simp
  have ndk : (∀ x ∈ M ++ [cl ++ [k]], x.Nodup) → k ∉ cl ∧ ∀ x ∈ M ++ [cl], x.Nodup := by
    intro hx
    have h1 := hx (cl ++ [k]) (by simp)
    rw [List.nodup_append] at h1
    refine ⟨fun h => h1.2.2 k h k (by simp) rfl, fun x hxm => ?_⟩
    rw [List.mem_append, List.mem_singleton] at hxm
    rcases hxm with h | rfl
    · exact hx x (by simp [h])
    · exact h1.1
  have mat := B.mat
  rw [List.map_append] at mat
  obtain ⟨mat1, mat2⟩ := List.append_inj_right' mat (by simp) |> fun e => And.intro (List.append_inj_left' mat (by simp)) e
  simp only [List.map_cons, List.map_nil, List.cons.injEq, and_true] at mat2
  have cHR : c ∉ HR := by
    have := B.ndH; rw [List.nodup_append] at this
    intro h; exact this.2.2 c h c (by simp) rfl
  set cp := (c :: V c).getLast (by simp) with hcp
  have cpm : cp ∈ c :: V c := List.getLast_mem _
  have bndc : ∀ x ∈ c :: V c, 1 < x ∧ x < h.next := by
    intro x hx
    simp only [List.mem_cons] at hx
    rcases hx with rfl | hx
    · exact B.bndH _ hc
    · exact B.bndV _ hc _ hx
  have ndc : (c :: V c).Nodup := List.nodup_cons.2 ⟨B.sep c hc c hc, B.ndV c hc⟩
  have dn : (h.node cp).down = c := (Ring.last (B.vring c hc)).1
  have cb := bndc cp cpm
  have rwb : ∀ r q, q ∈ RW r → 1 < q ∧ q < h.next ∧ q ∉ HR ++ [c] := by
    intro r q hq
    obtain ⟨⟨d, hd, hqd⟩, _⟩ := (B.rmem r q).1 hq
    have := B.bndV d hd q hqd
    exact ⟨this.1, this.2, fun h => B.sep q h d hd hqd⟩
  set rp := (RW k).getLastD 0 with hrp
  -- the row pointer
  have rpf : (RW k = [] ∧ rp = 0) ∨ ∃ a l, RW k = a :: l ∧ rp = (a :: l).getLast (by simp) ∧ rp ≠ 0 ∧
      (h.node rp).right = a ∧ rp ∈ RW k := by
    cases e : RW k with
    | nil => left; simp [hrp, e]
    | cons a l =>
      right
      have e1 : rp = (a :: l).getLast (by simp) := by
        rw [hrp, e, List.getLastD_eq_getLast?, List.getLast?_eq_some_getLast (by simp)]; rfl
      have e2 : rp ∈ RW k := by rw [e, e1]; exact List.getLast_mem _
      refine ⟨a, l, rfl, e1, by have := rwb k rp e2; omega, ?_, by rw [← e]; exact e2⟩
      rw [e1]; exact (Ring.last (B.rring k a l e)).1
  have key := newNode_spec (h := h) (c := c) (rp := rp) (cp := cp) (k := k) (by omega)
    (B.live cp (by omega) cb.2) (by rw [dn]; exact B.live c (by have := B.bndH c hc; omega) (B.bndH c hc).2)
    (by omega) (by rw [dn]; have := B.bndH c hc; omega) ?_
  swap
  · intro h0
    rcases rpf with ⟨_, h1⟩ | ⟨a, l, e, e1, e2, e3, e4⟩
    · exact absurd h1 h0
    · have b1 := rwb k rp e4
      have b2 := rwb k a (by rw [e]; simp)
      rw [e3]
      exact ⟨B.live _ (by omega) (by omega), B.live _ (by omega) (by omega), by omega, by omega⟩
  obtain ⟨h', e, A⟩ := key
  rw [dn] at A
  set p := h.next with hp
  let V' : Nat → List Nat := fun d => if d = c then V c ++ [p] else V d
  let RW' : Nat → List Nat := fun r => if r = k then RW k ++ [p] else RW r
  have Vc : V' c = V c ++ [p] := if_pos rfl
  have Vd : ∀ d, d ≠ c → V' d = V d := fun d hd => if_neg hd
  have Rk : RW' k = RW k ++ [p] := if_pos rfl
  have Rr : ∀ r, r ≠ k → RW' r = RW r := fun r hr => if_neg hr
  have glen := grow_len rows k
  have nn : h'.node p = Node.mk c (if rp = 0 then p else rp) (if rp = 0 then p else (h.node rp).right) cp c k :=
    node_of_mem A.new
  -- unchanged fields
  have fh : ∀ x, x ≠ p → (h'.node x).header = (h.node x).header := fun x hx => by rw [A.node x hx]
  have fr : ∀ x, x ≠ p → (h'.node x).row = (h.node x).row := fun x hx => by rw [A.node x hx]
  have flr : ∀ x, x ≠ p → x ∉ RW k → (h'.node x).left = (h.node x).left ∧ (h'.node x).right = (h.node x).right := by
    intro x hx hn
    rw [A.node x hx]
    rcases rpf with ⟨h1, h2⟩ | ⟨a, l, e, e1, e2, e3, e4⟩
    · simp [h2]
    · have n1 : x ≠ a := by rintro rfl; exact hn (by rw [e]; simp)
      have n2 : x ≠ rp := fun h => hn (h ▸ e4)
      simp only [e3, n1, n2, and_false, if_false, and_self]
  have fud : ∀ x, x ≠ p → x ∉ c :: V c → (h'.node x).up = (h.node x).up ∧ (h'.node x).down = (h.node x).down := by
    intro x hx hn
    rw [A.node x hx]
    have h1 : x ≠ c := by rintro rfl; exact hn (by simp)
    have h2 : x ≠ cp := by rintro rfl; exact hn cpm
    simp [h1, h2]
  have ne1 : ∀ d ∈ HR ++ [c], d ≠ p := fun d hd => by have := B.bndH d hd; omega
  have ne2 : ∀ d ∈ HR ++ [c], ∀ q ∈ V d, q ≠ p := fun d hd q hq => by have := B.bndV d hd q hq; omega
  have nodeI : ∀ q, (∃ d ∈ HR ++ [c], q ∈ V' d) ↔ (∃ d ∈ HR ++ [c], q ∈ V d) ∨ q = p := by
    intro q
    constructor
    · rintro ⟨d, hd, hq⟩
      by_cases e : d = c
      · subst e
        rw [Vc] at hq
        simp only [List.mem_append, List.mem_singleton] at hq
        rcases hq with hq | hq
        · exact Or.inl ⟨_, hc, hq⟩
        · exact Or.inr hq
      · rw [Vd d e] at hq; exact Or.inl ⟨d, hd, hq⟩
    · rintro (⟨d, hd, hq⟩ | rfl)
      · refine ⟨d, hd, ?_⟩
        by_cases e : d = c
        · subst e; rw [Vc]; simp [hq]
        · rw [Vd d e]; exact hq
      · exact ⟨c, hc, by rw [Vc]; simp⟩
  have pn : ∀ r, p ∉ RW r := fun r h => by have := rwb r p h; omega
  have hget : getP (grow rows k) k = .ok rp := by
    have hl : k < (grow rows k).length := by omega
    rw [getP_ok hl]
    have h1 := grow_get rows k k
    rw [B.rowsEq k, List.getElem?_eq_getElem hl] at h1
    rw [hrp, ← h1]; rfl
  refine ⟨h', (grow rows k).set k p, V', RW', ?_, ?_, fun d hd => fr d (ne1 d hd),
    fun d hd => Vd d (by rintro rfl; exact cHR hd)⟩
  · unfold newCell
    simp only
    rw [show (if k ≥ rows.length then rows ++ List.replicate (k + 1 - rows.length) 0 else rows) = grow rows k from rfl,
      hget]
    simp only [Prog.ok_bind]
    rw [e]
    simp only [Prog.ok_bind]
    rw [setP_ok (by omega)]
    simp only [Prog.ok_bind, Prog.pure_eq, Vc]
    congr 3
    simp
  · refine ⟨by rw [A.next]; omega, ?_, ?_, ?_, ?_, ?_, B.ndH, ?_, ?_, ?_, ?_, ?_, ?_, ?_, ?_, ?_, ?_, ?_, ?_, ?_, ?_, ?_⟩
    · intro x h1 h2
      rw [A.next] at h2
      by_cases hx : x = p
      · subst hx; exact ⟨_, A.new⟩
      · exact (A.live x hx).2 (B.live x h1 (by omega))
    · intro x hx
      rw [A.next] at hx
      have := B.dead x (by omega)
      rw [A.dead x (by omega) (by rintro ⟨n, hn⟩; rw [this] at hn; cases hn), this]
    · intro x h1 h2
      rw [A.next] at h2
      unfold Act
      rw [nodeI]
      by_cases hx : x = p
      · exact Or.inr (Or.inr (Or.inr hx))
      · rcases B.part x h1 (by omega) with h3 | h3 | h3
        · exact Or.inl h3
        · exact Or.inr (Or.inl h3)
        · exact Or.inr (Or.inr (Or.inl h3))
    · intro d hd
      rw [A.next]
      have := B.bndH d hd; omega
    · intro d hd q hq
      rw [A.next]
      rcases (nodeI q).1 ⟨d, hd, hq⟩ with ⟨d', hd', hq'⟩ | rfl
      · have := B.bndV d' hd' q hq'; omega
      · omega
    · intro d hd
      by_cases e : d = c
      · subst e
        rw [Vc, List.nodup_append]
        refine ⟨B.ndV _ hc, by simp, ?_⟩
        intro a ha b hb
        simp only [List.mem_singleton] at hb
        subst hb; exact ne2 _ hc a ha
      · rw [Vd d e]; exact B.ndV d hd
    · intro d hd d' hd' hh
      rcases (nodeI d).1 ⟨d', hd', hh⟩ with ⟨d2, hd2, hq2⟩ | e
      · exact B.sep d hd d2 hd2 hq2
      · exact ne1 d hd e
    · have hk' : ∀ a ∈ 1 :: (HR ++ [c]), a ≠ p ∧ a ∉ RW k := by
        intro a ha
        simp only [List.mem_cons] at ha
        rcases ha with rfl | ha
        · exact ⟨by omega, fun h => by have := rwb k 1 h; omega⟩
        · exact ⟨ne1 a ha, fun h => (rwb k a h).2.2 ha⟩
      refine B.hring.congr ?_ ?_ <;> intro a ha
      · exact (flr a (hk' a ha).1 (hk' a ha).2).2
      · exact (flr a (hk' a ha).1 (hk' a ha).2).1
    · rw [(fud 1 (by omega) (fun h => by have := bndc 1 h; omega)).2]; exact B.rootD
    · intro d hd
      by_cases e : d = c
      · subst e
        rw [Vc]
        refine Ring.insert (B.vring d hc) ndc ?_ ?_ ?_ ?_
        · simp [nn]
        · simp [nn, Dir.opp, hcp]
        · intro a ha
          have hb := bndc a ha
          simp only [fld_down, A.node a (show a ≠ p by omega)]; rfl
        · intro a ha
          have hb := bndc a ha
          simp only [Dir.opp, fld_up, A.node a (show a ≠ p by omega)]
      · rw [Vd d e]
        have hk' : ∀ a ∈ d :: V d, a ≠ p ∧ a ∉ c :: V c := by
          intro a ha
          simp only [List.mem_cons, not_or] at ha ⊢
          rcases ha with rfl | ha
          · exact ⟨ne1 _ hd, e, B.sep _ hd _ hc⟩
          · refine ⟨ne2 _ hd _ ha, ?_, ?_⟩
            · rintro rfl; exact B.sep _ hc _ hd ha
            · intro h; exact e ((B.hdr _ hd _ ha).symm.trans (B.hdr _ hc _ h))
        refine (B.vring d hd).congr ?_ ?_ <;> intro a ha
        · exact (fud a (hk' a ha).1 (hk' a ha).2).2
        · exact (fud a (hk' a ha).1 (hk' a ha).2).1
    · intro d hd; rw [fh d (ne1 d hd)]; exact B.hdr0 d hd
    · intro d hd q hq
      by_cases e : d = c
      · subst e
        rw [Vc] at hq
        simp only [List.mem_append, List.mem_singleton] at hq
        rcases hq with hq | rfl
        · rw [fh q (ne2 _ hc q hq)]; exact B.hdr _ hc q hq
        · rw [nn]
      · rw [Vd d e] at hq; rw [fh q (ne2 d hd q hq)]; exact B.hdr d hd q hq
    · rw [List.map_append]
      congr 1
      · rw [← mat1]
        apply List.map_congr_left
        intro d hd
        have hd' : d ∈ HR ++ [c] := by simp [hd]
        rw [Vd d (by rintro rfl; exact cHR hd)]
        apply List.map_congr_left
        intro q hq
        exact fr q (ne2 d hd' q hq)
      · simp only [List.map_cons, List.map_nil, Vc, List.map_append, nn, List.cons.injEq, and_true]
        rw [← mat2]
        congr 1
        apply List.map_congr_left
        intro q hq
        exact fr q (ne2 c hc q hq)
    · intro r a l hr
      by_cases e : r = k
      · subst e
        rw [Rk] at hr
        rcases rpf with ⟨h1, h2⟩ | ⟨a', l', e, e1, e2, e3, e4⟩
        · simp only [h1, List.nil_append, List.cons.injEq] at hr
          obtain ⟨rfl, rfl⟩ := hr
          unfold HRing Ring
          simp [Lk, nn, Dir.opp, h2]
        · rw [e] at hr
          simp only [List.cons_append, List.cons.injEq] at hr
          obtain ⟨rfl, rfl⟩ := hr
          have nd := B.rnd r
          rw [e] at nd
          refine Ring.insert (B.rring r a' l' e) nd ?_ ?_ ?_ ?_
          · simp [nn, e2, e3]
          · simp only [Dir.opp, fld_left, nn, if_neg e2]; exact e1
          · intro x hx
            have hb := rwb r x (by rw [e]; exact hx)
            simp only [fld_right, A.node x (show x ≠ p by omega), e2, ne_eq, not_false_eq_true, true_and, ← e1]
          · intro x hx
            have hb := rwb r x (by rw [e]; exact hx)
            simp only [Dir.opp, fld_left, A.node x (show x ≠ p by omega), e2, ne_eq, not_false_eq_true, true_and, e3]
      · rw [Rr r e] at hr
        have hk' : ∀ x ∈ a :: l, x ≠ p ∧ x ∉ RW k := by
          intro x hx
          rw [← hr] at hx
          refine ⟨by have := rwb r x hx; omega, fun h => e ?_⟩
          rw [← ((B.rmem r x).1 hx).2, ((B.rmem k x).1 h).2]
        refine (B.rring r a l hr).congr ?_ ?_ <;> intro x hx
        · exact (flr x (hk' x hx).1 (hk' x hx).2).2
        · exact (flr x (hk' x hx).1 (hk' x hx).2).1
    · intro r
      by_cases e : r = k
      · subst e
        rw [Rk, List.nodup_append]
        refine ⟨B.rnd r, by simp, ?_⟩
        intro a ha b hb
        simp only [List.mem_singleton] at hb
        subst hb; rintro rfl; exact pn r ha
      · rw [Rr r e]; exact B.rnd r
    · intro r q
      rw [nodeI]
      have base : q ≠ p → (q ∈ RW' r ↔ q ∈ RW r) := by
        intro hq
        by_cases e : r = k
        · subst e; rw [Rk]; simp [hq]
        · rw [Rr r e]
      by_cases hq : q = p
      · subst hq
        simp only [or_true, true_and, nn]
        constructor
        · intro h
          by_contra hne
          rw [Rr r (Ne.symm hne)] at h
          exact pn r h
        · rintro rfl; rw [Rk]; simp
      · rw [base hq, B.rmem, fr q hq]
        simp [hq]
    · intro nd r q hq q' hq' hh
      obtain ⟨hk, nd'⟩ := ndk nd
      by_cases e : r = k
      · subst e
        rw [Rk] at hq hq'
        simp only [List.mem_append, List.mem_singleton] at hq hq'
        have nocol : ∀ x ∈ RW r, (h.node x).header ≠ c := by
          intro x hx hxc
          obtain ⟨⟨d, hd, hxd⟩, h2⟩ := (B.rmem r x).1 hx
          rw [B.hdr d hd x hxd] at hxc
          subst hxc
          apply hk
          rw [← mat2, List.mem_map]
          exact ⟨x, hxd, h2⟩
        have np : ∀ x ∈ RW r, x ≠ p := fun x hx => by have := rwb r x hx; omega
        rcases hq with hq | rfl <;> rcases hq' with hq' | rfl
        · rw [fh q (np q hq), fh q' (np q' hq')] at hh
          exact B.rcol' nd' r q hq q' hq' hh
        · rw [fh q (np q hq), nn] at hh; exact absurd hh (nocol q hq)
        · rw [fh q' (np q' hq'), nn] at hh; exact absurd hh.symm (nocol q' hq')
        · rfl
      · rw [Rr r e] at hq hq'
        have np : ∀ x ∈ RW r, x ≠ p := fun x hx => by have := rwb r x hx; omega
        rw [fh q (np q hq), fh q' (np q' hq')] at hh
        exact B.rcol' nd' r q hq q' hq' hh
    · intro r
      rw [List.getElem?_set]
      by_cases e : k = r
      · subst e
        simp only [if_true, show k < (grow rows k).length by omega, Option.getD_some, Rk]
        simp
      · rw [if_neg e, grow_get, Rr r (Ne.symm e)]; exact B.rowsEq r
    · intro i
      rw [List.length_set, glen]
      constructor
      · intro hi
        by_cases h1 : i < rows.length
        · obtain ⟨r, h2, h3⟩ := (B.rlen i).1 h1
          refine ⟨r, ?_, h3⟩
          by_cases e : r = k
          · subst e; rw [Rk]; simp
          · rw [Rr r e]; exact h2
        · exact ⟨k, by rw [Rk]; simp, by omega⟩
      · rintro ⟨r, h2, h3⟩
        by_cases e : r = k
        · omega
        · rw [Rr r e] at h2
          have := (B.rlen i).2 ⟨r, h2, h3⟩
          omega
    · intro nd r
      obtain ⟨hk, nd'⟩ := ndk nd
      have np : ∀ x ∈ RW r, x ≠ p := fun x hx => by have := rwb r x hx; omega
      have m1 : (RW r).map (fun q => (h'.node q).header) = (RW r).map (fun q => (h.node q).header) :=
        List.map_congr_left (fun q hq => fh q (np q hq))
      have m2 : ∀ d ∈ HR ++ [c], (V d).map (fun q => (h'.node q).row) = (V d).map (fun q => (h.node q).row) :=
        fun d hd => List.map_congr_left (fun q hq => fr q (ne2 d hd q hq))
      have f1 : HR.filter (fun d => decide (r ∈ (V' d).map fun q => (h'.node q).row)) =
          HR.filter (fun d => decide (r ∈ (V d).map fun q => (h.node q).row)) := by
        apply List.filter_congr
        intro d hd
        rw [Vd d (by rintro rfl; exact cHR hd), m2 d (by simp [hd])]
      have o := B.rord' nd' r
      rw [List.filter_append] at o ⊢
      rw [f1]
      have f2 : (V' c).map (fun q => (h'.node q).row) = cl ++ [k] := by
        rw [Vc, List.map_append, m2 c hc, mat2]; simp [nn]
      by_cases e : r = k
      · subst e
        rw [Rk, List.map_append, m1, o]
        simp only [List.filter_cons, f2, mat2, hk, List.filter_nil]
        simp [nn]
      · rw [Rr r e, m1, o]
        simp only [List.filter_cons, f2, mat2, List.filter_nil]
        simp [e]

/-- Counts of the header nodes. -/
def Cnt (h : Heap) (HR : List Nat) (V : Nat → List Nat) : Prop := ∀ c ∈ HR, (h.node c).row = (V c).length

theorem bld_cells {HR : List Nat} {c : Nat} {M : List (List Nat)} (ks : List Nat) :
    ∀ {h : Heap} {rows V RW} {cl : List Nat}, BldR h rows (HR ++ [c]) V RW (M ++ [cl]) →
    ∃ h' rows' V' RW', forIn' ks (h, rows, (c :: V c).getLast (by simp)) (newCell c) =
        .ok (h', rows', (c :: V' c).getLast (by simp)) ∧
      BldR h' rows' (HR ++ [c]) V' RW' (M ++ [cl ++ ks]) ∧
      (∀ d ∈ HR ++ [c], (h'.node d).row = (h.node d).row) ∧
      (∀ d ∈ HR, V' d = V d) := by
  induction ks with
  | nil => intro h rows V RW cl B; exact ⟨h, rows, V, RW, by simp, by simpa using B, fun _ _ => rfl, fun _ _ => rfl⟩
  | cons k ks ih =>
    intro h rows V RW cl B
    obtain ⟨h1, rows1, V1, RW1, e1, B1, r1, v1⟩ := bld_cell B (k := k)
    obtain ⟨h2, rows2, V2, RW2, e2, B2, r2, v2⟩ := ih B1
    refine ⟨h2, rows2, V2, RW2, ?_, by simpa using B2, fun d hd => (r2 d hd).trans (r1 d hd),
      fun d hd => (v2 d hd).trans (v1 d hd)⟩
    rw [forIn'_cons, e1]
    exact e2

theorem BldR.len {h rows HR V RW M} (B : BldR h rows HR V RW M) : HR.length = M.length := by
  rw [← B.mat]; simp

theorem bld_column {h : Heap} {rows HR V RW M} (B : BldR h rows HR V RW M) (C : Cnt h HR V) {cl : List Nat} :
    ∃ h' rows' V' RW', newColumn (h, rows, (1 :: HR).getLast (by simp)) cl =
        .ok (h', rows', (1 :: (HR ++ [h.next])).getLast (by simp)) ∧
      BldR h' rows' (HR ++ [h.next]) V' RW' (M ++ [cl]) ∧ Cnt h' (HR ++ [h.next]) V' := by
  obtain ⟨h1, e1, B1, c1, c2⟩ := bld_header B cl.length
  obtain ⟨h2, rows2, V2, RW2, e2, B2, r2, v2⟩ := bld_cells cl B1
  rw [List.nil_append] at B2
  refine ⟨h2, rows2, V2, RW2, ?_, B2, ?_⟩
  · unfold newColumn
    simp only [e1, Prog.ok_bind]
    rw [show (h1, rows, h.next) = (h1, rows, (h.next :: (fun c => if c = h.next then [] else V c) h.next).getLast (by simp))
      by simp, e2]
    simp
  · intro d hd
    rw [r2 d hd]
    simp only [List.mem_append, List.mem_singleton] at hd
    rcases hd with hd | rfl
    · rw [c2 d hd, v2 d hd, C d hd]
      have := B.bndH d hd
      simp [show d ≠ h.next by omega]
    · rw [c1]
      have := B2.mat
      rw [List.map_append] at this
      have := List.append_inj_right' this (by simp)
      simp only [List.map_cons, List.map_nil, List.cons.injEq, and_true] at this
      rw [← this]; simp

theorem bld_columns (M2 : List (List Nat)) : ∀ {h : Heap} {rows HR V RW M}, BldR h rows HR V RW M → Cnt h HR V →
    ∃ h' rows' HR' V' RW', forIn' M2 (h, rows, (1 :: HR).getLast (by simp)) newColumn =
        .ok (h', rows', (1 :: HR').getLast (by simp)) ∧
      BldR h' rows' HR' V' RW' (M ++ M2) ∧ Cnt h' HR' V' := by
  induction M2 with
  | nil => intro h rows HR V RW M B C; exact ⟨h, rows, HR, V, RW, by simp, by simpa using B, C⟩
  | cons cl M2 ih =>
    intro h rows HR V RW M B C
    obtain ⟨h1, rows1, V1, RW1, e1, B1, C1⟩ := bld_column B C (cl := cl)
    obtain ⟨h2, rows2, HR2, V2, RW2, e2, B2, C2⟩ := ih B1 C1
    refine ⟨h2, rows2, HR2, V2, RW2, ?_, by simpa using B2, C2⟩
    rw [forIn'_cons, e1]
    exact e2

theorem new_bldR (M : List (List Nat)) :
    ∃ h rows HR V RW, Matrix.new Heap.empty M = .ok ({ root := 1, rows := rows, partialSolution := [] }, h) ∧
      BldR h rows HR V RW M ∧ Cnt h HR V := by
  obtain ⟨h0, e0, B0⟩ := bld_root rfl
  obtain ⟨h1, rows1, HR1, V1, RW1, e1, B1, C1⟩ := bld_columns M B0 (by intro c hc; cases hc)
  refine ⟨h1, rows1, HR1, V1, RW1, ?_, by simpa using B1, C1⟩
  unfold Matrix.new
  simp only [e0, Prog.ok_bind]
  simp only [List.getLast_singleton] at e1
  rw [e1]; rfl

/-- The invariant of `new` when no constraint repeats a row. -/
structure Bld (h : Heap) (rows : List Nat) (HR : List Nat) (V : Nat → List Nat) (RW : Nat → List Nat)
    (M : List (List Nat)) : Prop extends BldR h rows HR V RW M where
  cnd : ∀ cl ∈ M, cl.Nodup

theorem Bld.rcol {h rows HR V RW M} (B : Bld h rows HR V RW M) : ∀ r, ∀ q ∈ RW r, ∀ q' ∈ RW r,
    (h.node q).header = (h.node q').header → q = q' := B.rcol' B.cnd

theorem Bld.rord {h rows HR V RW M} (B : Bld h rows HR V RW M) : ∀ r, (RW r).map (fun q => (h.node q).header) =
    HR.filter fun c => decide (r ∈ (V c).map fun q => (h.node q).row) := B.rord' B.cnd

theorem new_bld {M : List (List Nat)} (hn : ∀ cl ∈ M, cl.Nodup) :
    ∃ h rows HR V RW, Matrix.new Heap.empty M = .ok ({ root := 1, rows := rows, partialSolution := [] }, h) ∧
      Bld h rows HR V RW M ∧ Cnt h HR V := by
  obtain ⟨h, rows, HR, V, RW, e, B, C⟩ := new_bldR M
  exact ⟨h, rows, HR, V, RW, e, ⟨B, hn⟩, C⟩

/-! ### The layout of a freshly built matrix -/

/-- The other elements of `l`, starting after `q` and wrapping around. -/
def othOf (l : List Nat) (q : Nat) : List Nat := (l.dropWhile (· ≠ q)).tail ++ l.takeWhile (· ≠ q)

theorem othOf_split {l : List Nat} {q : Nat} (hq : q ∈ l) :
    ∃ pre post, l = pre ++ q :: post ∧ othOf l q = post ++ pre := by
  refine ⟨l.takeWhile (· ≠ q), (l.dropWhile (· ≠ q)).tail, ?_, rfl⟩
  induction l with
  | nil => cases hq
  | cons a l ih =>
    by_cases e : a = q
    · subst e; simp
    · simp only [List.mem_cons, Ne.symm e, false_or] at hq
      have := ih hq
      simp only [List.takeWhile_cons, List.dropWhile_cons, ne_eq, e, not_false_eq_true, decide_true, if_true,
        List.cons_append, List.cons.injEq, true_and]
      exact this

theorem othOf_perm {l : List Nat} {q : Nat} (hq : q ∈ l) : (q :: othOf l q).Perm l := by
  obtain ⟨pre, post, e, e'⟩ := othOf_split hq
  rw [e', e]
  exact ((List.perm_append_comm (l₁ := post) (l₂ := pre)).cons q).trans List.perm_middle.symm

theorem othOf_ring {h : Heap} {a q : Nat} {l : List Nat} (R : HRing h .right a l) (hq : q ∈ a :: l) :
    HRing h .right q (othOf (a :: l) q) := by
  obtain ⟨pre, post, e, e'⟩ := othOf_split hq
  rw [e']
  cases pre with
  | nil =>
    simp only [List.nil_append, List.cons.injEq] at e
    obtain ⟨rfl, rfl⟩ := e
    simpa using R
  | cons b pre =>
    simp only [List.cons_append, List.cons.injEq] at e
    obtain ⟨rfl, rfl⟩ := e
    exact Ring.rotate R

def layOf (h : Heap) (HR : List Nat) (V RW : Nat → List Nat) : Lay where
  root := 1
  colOf q := (h.node q).header
  oth q := othOf (RW (h.node q).row) q
  rid q := (h.node q).row
  isNode q := ∃ c ∈ HR, q ∈ V c

section
variable {h : Heap} {rows HR : List Nat} {V RW : Nat → List Nat} {M : List (List Nat)}

theorem BldR.self (B : BldR h rows HR V RW M) {q : Nat} (hq : (layOf h HR V RW).isNode q) :
    q ∈ RW (h.node q).row := (B.rmem _ q).2 ⟨hq, rfl⟩

theorem BldR.rowMem (B : BldR h rows HR V RW M) {q : Nat} (hq : (layOf h HR V RW).isNode q) (x : Nat) :
    x ∈ q :: (layOf h HR V RW).oth q ↔ x ∈ RW (h.node q).row :=
  (othOf_perm (B.self hq)).mem_iff

theorem Bld.good (B : Bld h rows HR V RW M) : (layOf h HR V RW).Good := by
  have nd : ∀ q, (layOf h HR V RW).isNode q → (q :: (layOf h HR V RW).oth q).Nodup :=
    fun q hq => (othOf_perm (B.self hq)).nodup_iff.2 (B.rnd _)
  have nod : ∀ q, (layOf h HR V RW).isNode q → ∀ x ∈ q :: (layOf h HR V RW).oth q,
      (layOf h HR V RW).isNode x ∧ (h.node x).row = (h.node q).row := by
    intro q hq x hx
    rw [B.rowMem hq] at hx
    exact (B.rmem _ x).1 hx
  refine ⟨?_, fun q hq x hx => (nod q hq x (by simp [hx])).1, nd, ?_, ?_, ?_⟩
  · rintro q ⟨c, hc, hq⟩
    have := B.bndV c hc q hq; omega
  · intro q hq x hx y
    obtain ⟨h1, h2⟩ := nod q hq x (by simp [hx])
    rw [B.rowMem h1, B.rowMem hq, h2]
  · intro q hq x hx y hy e
    rw [B.rowMem hq] at hx hy
    exact B.rcol _ x hx y hy e
  · intro q q' hq hq'
    rw [B.rowMem hq, B.rmem]
    simp only [layOf] at hq' ⊢
    constructor
    · intro e; exact ⟨hq', e.symm⟩
    · intro e; exact e.2.symm

theorem BldR.ok (B : BldR h rows HR V RW M) (C : Cnt h HR V) : (TS.mk h HR V).Ok (layOf h HR V RW) := by
  have one := B.one
  refine ⟨⟨?_, ?_, ?_, ?_, ?_, B.ndV, ?_, ?_, B.hdr, B.hring, B.vring, B.hdr0, C, B.hdr⟩, ⟨?_, ?_, ?_⟩⟩
  · exact B.live 1 (by omega) (by omega)
  · intro c hc; have := B.bndH c hc; exact B.live c (by omega) this.2
  · intro c hc q hq; have := B.bndV c hc q hq; exact B.live q (by omega) this.2
  · simp only [layOf, List.mem_cons, not_or]
    exact ⟨by omega, fun h => by have := B.bndH 0 h; omega⟩
  · simp only [layOf, List.nodup_cons]
    exact ⟨fun h => by have := B.bndH 1 h; omega, B.ndH⟩
  · intro c hc q hq; exact ⟨c, hc, hq⟩
  · rintro c hc ⟨d, hd, hq⟩
    simp only [layOf, List.mem_cons] at hc
    rcases hc with rfl | hc
    · have := B.bndV d hd 1 hq; omega
    · exact B.sep c hc d hd hq
  · intro c hc q hq x hx
    have hx' : x ∈ q :: (layOf h HR V RW).oth q := by simp [hx]
    rw [B.rowMem ⟨c, hc, hq⟩, B.rmem] at hx'
    obtain ⟨⟨d, hd, hxd⟩, _⟩ := hx'
    have := B.hdr d hd x hxd
    simp only [layOf, this]
    exact ⟨hd, hxd⟩
  · intro c hc q hq
    have hs := B.self (RW := RW) ⟨c, hc, hq⟩
    simp only [layOf]
    obtain ⟨a, l, e⟩ : ∃ a l, RW (h.node q).row = a :: l := by
      cases e : RW (h.node q).row with
      | nil => rw [e] at hs; cases hs
      | cons a l => exact ⟨a, l, rfl⟩
    rw [e] at hs ⊢
    exact othOf_ring (B.rring _ a l e) hs
  · intro c hc q hq; rfl

end

end DancingLinks
