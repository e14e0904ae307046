import Verif.Proofs.DL.Heap

/-! Representation invariant of the torus and the effect of covering / uncovering columns. -/
namespace DancingLinks

/-- Static layout: where the root is and, for each cell node, its column header, the other nodes of its
row (in `right` order) and its row index. -/
structure Lay where
  root : Nat
  colOf : Nat → Nat
  oth : Nat → List Nat
  rid : Nat → Nat
  isNode : Nat → Prop

structure Lay.Good (L : Lay) : Prop where
  nz : ∀ q, L.isNode q → q ≠ 0
  othNode : ∀ q, L.isNode q → ∀ x ∈ L.oth q, L.isNode x
  nd : ∀ q, L.isNode q → (q :: L.oth q).Nodup
  sym : ∀ q, L.isNode q → ∀ x ∈ L.oth q, ∀ y, y ∈ x :: L.oth x ↔ y ∈ q :: L.oth q
  colInj : ∀ q, L.isNode q → ∀ x ∈ q :: L.oth q, ∀ y ∈ q :: L.oth q, L.colOf x = L.colOf y → x = y
  ridEq : ∀ q q', L.isNode q → L.isNode q' → (L.rid q = L.rid q' ↔ q' ∈ q :: L.oth q)

theorem Lay.Good.mem_symm {L : Lay} (G : L.Good) {q x : Nat} (hq : L.isNode q) (hx : x ∈ L.oth q) :
    q ∈ L.oth x := by
  have h1 := (G.sym q hq x hx q).2 (by simp)
  have h2 := G.nd q hq
  simp only [List.mem_cons] at h1
  rcases h1 with rfl | h
  · simp at h2; exact absurd hx h2.1
  · exact h

theorem Lay.Good.col_ne {L : Lay} (G : L.Good) {q x : Nat} (hq : L.isNode q) (hx : x ∈ L.oth q) :
    L.colOf x ≠ L.colOf q := by
  intro e
  have := G.colInj q hq x (by simp [hx]) q (by simp) e
  subst this
  have h2 := G.nd x hq
  simp at h2; exact h2.1 hx

/-- The heap represents the header ring `HR` with vertical lists `V c` for `c ∈ HR`. -/
structure Core (L : Lay) (h : Heap) (HR : List Nat) (V : Nat → List Nat) : Prop where
  liveR : h.Live L.root
  liveH : ∀ c ∈ HR, h.Live c
  liveV : ∀ c ∈ HR, ∀ q ∈ V c, h.Live q
  nzH : 0 ∉ L.root :: HR
  ndH : (L.root :: HR).Nodup
  ndV : ∀ c ∈ HR, (V c).Nodup
  isN : ∀ c ∈ HR, ∀ q ∈ V c, L.isNode q
  sep : ∀ c ∈ L.root :: HR, ¬ L.isNode c
  col : ∀ c ∈ HR, ∀ q ∈ V c, L.colOf q = c
  hring : HRing h .right L.root HR
  vring : ∀ c ∈ HR, HRing h .down c (V c)
  hdr0 : ∀ c ∈ HR, (h.node c).header = 0
  cnt : ∀ c ∈ HR, (h.node c).row = (V c).length
  hdr : ∀ c ∈ HR, ∀ q ∈ V c, (h.node q).header = c

/-- Row structure of the active nodes. -/
structure Rows (L : Lay) (h : Heap) (HR : List Nat) (V : Nat → List Nat) : Prop where
  closed : ∀ c ∈ HR, ∀ q ∈ V c, ∀ x ∈ L.oth q, L.colOf x ∈ HR ∧ x ∈ V (L.colOf x)
  rring : ∀ c ∈ HR, ∀ q ∈ V c, HRing h .right q (L.oth q)
  rid : ∀ c ∈ HR, ∀ q ∈ V c, (h.node q).row = L.rid q

/-- Addresses of the active headers and cell nodes. -/
def Act (HR : List Nat) (V : Nat → List Nat) (p : Nat) : Prop := p ∈ HR ∨ ∃ c ∈ HR, p ∈ V c

/-- `V` without the nodes in `K`. -/
def without (V : Nat → List Nat) (K : List Nat) : Nat → List Nat := fun c => (V c).filter (· ∉ K)

theorem mem_without {V : Nat → List Nat} {K : List Nat} {c q : Nat} :
    q ∈ without V K c ↔ q ∈ V c ∧ q ∉ K := by simp [without]

theorem without_nil (V : Nat → List Nat) : without V [] = V := by
  funext c; simp [without]

theorem without_append (V : Nat → List Nat) (K K' : List Nat) :
    without (without V K) K' = without V (K ++ K') := by
  funext c
  simp only [without, List.filter_filter]
  congr 1; funext q; simp [not_or, Bool.and_comm]

variable {L : Lay} {h : Heap} {HR : List Nat} {V : Nat → List Nat}

theorem Core.c_ne_q (C : Core L h HR V) {c c' q : Nat} (hc : c ∈ L.root :: HR) (hc' : c' ∈ HR)
    (hq : q ∈ V c') : q ≠ c := by
  rintro rfl; exact C.sep _ hc (C.isN _ hc' _ hq)

theorem Core.disj (C : Core L h HR V) {c c' : Nat} (hc : c ∈ HR) (hc' : c' ∈ HR) (hne : c' ≠ c)
    {a : Nat} (ha : a ∈ c' :: V c') : a ∉ c :: V c := by
  simp only [List.mem_cons, not_or] at ha ⊢
  rcases ha with rfl | ha
  · exact ⟨hne, fun hq => C.c_ne_q (by simp [hc']) hc hq rfl⟩
  · refine ⟨C.c_ne_q (by simp [hc]) hc' ha, fun hq => hne ?_⟩
    rw [← C.col _ hc' _ ha, C.col _ hc _ hq]

theorem Core.vnodup (C : Core L h HR V) {c : Nat} (hc : c ∈ HR) : (c :: V c).Nodup := by
  rw [List.nodup_cons]
  exact ⟨fun hq => C.c_ne_q (by simp [hc]) hc hq rfl, C.ndV c hc⟩

theorem Core.canV (C : Core L h HR V) {c q : Nat} (hc : c ∈ HR) (hq : q ∈ V c) :
    CanV h q ∧ (h.node q).up ∈ c :: V c ∧ (h.node q).down ∈ c :: V c ∧ (h.node q).header = c := by
  obtain ⟨a1, a2, a3, a4, a5, a6⟩ := Ring.pv_mem (C.vring c hc) hq (C.vnodup hc)
  simp only [Dir.opp, fld_up, fld_down] at a1 a2 a3 a4 a5 a6
  have b1 : (h.node q).up ∈ c :: V c := by
    simp only [List.mem_cons] at a1 ⊢
    exact a1.imp_right fun h => List.mem_of_mem_erase h
  have b2 : (h.node q).down ∈ c :: V c := by
    simp only [List.mem_cons] at a2 ⊢
    exact a2.imp_right fun h => List.mem_of_mem_erase h
  have lv : ∀ p ∈ c :: V c, h.Live p := by
    intro p hp
    simp only [List.mem_cons] at hp
    rcases hp with rfl | hp
    · exact C.liveH _ hc
    · exact C.liveV _ hc _ hp
  have hh := C.hdr c hc q hq
  refine ⟨⟨C.liveV _ hc _ hq, lv _ b1, lv _ b2, hh ▸ C.liveH _ hc, a3, a4, ?_, a5, a6, ?_⟩, b1, b2, hh⟩
  · rw [hh]; exact (C.c_ne_q (by simp [hc]) hc hq).symm
  · rw [hh, C.cnt c hc]; exact List.length_pos_of_mem hq

theorem Core.unlV_frame (C : Core L h HR V) {c q : Nat} (hc : c ∈ HR) (hq : q ∈ V c) {p : Nat}
    (hp : p ∉ c :: V c) : (unlV h q).mem p = h.mem p := by
  obtain ⟨_, b1, b2, b3⟩ := C.canV hc hq
  apply unlV_mem
  · rintro rfl; exact hp b1
  · rintro rfl; exact hp b2
  · rw [b3]; rintro rfl; simp at hp

theorem Core.unlV (C : Core L h HR V) {c q : Nat} (hc : c ∈ HR) (hq : q ∈ V c) :
    Core L (unlV h q) HR (without V [q]) := by
  obtain ⟨_, b1, b2, b3⟩ := C.canV hc hq
  have wc : without V [q] c = (V c).erase q := by
    rw [(C.ndV c hc).erase_eq_filter]; simp [without]; rfl
  have wn : ∀ c' ∈ HR, c' ≠ c → without V [q] c' = V c' := by
    intro c' hc' hne
    simp only [without]
    rw [List.filter_eq_self]
    intro a ha
    simp only [List.mem_singleton, decide_eq_true_eq]
    rintro rfl
    exact hne ((C.col _ hc' _ ha).symm.trans (C.col _ hc _ hq))
  have sub : ∀ c' p, p ∈ without V [q] c' → p ∈ V c' := fun c' p hp => (mem_without.1 hp).1
  refine ⟨unlV_live C.liveR, fun c hc => unlV_live (C.liveH c hc), ?_, C.nzH, C.ndH, ?_, ?_, C.sep, ?_, ?_,
    ?_, ?_, ?_, ?_⟩
  · exact fun c hc q hq => unlV_live (C.liveV c hc q (sub _ _ hq))
  · exact fun c hc => (C.ndV c hc).filter _
  · exact fun c hc q hq => C.isN c hc q (sub _ _ hq)
  · exact fun c hc q hq => C.col c hc q (sub _ _ hq)
  · refine C.hring.congr ?_ ?_ <;> intro a _ <;> simp [Dir.opp, unlV_node]
  · intro c' hc'
    by_cases e : c' = c
    · subst e
      rw [wc]
      refine Ring.unlink (C.vring c' hc) hq (C.vnodup hc) ?_ ?_ <;> intro a _ <;>
        (simp [Dir.opp, unlV_node]; rfl)
    · rw [wn c' hc' e]
      refine (C.vring c' hc').congr_mem ?_
      intro a ha
      exact C.unlV_frame hc hq (C.disj hc hc' e ha)
  · intro c' hc'; simp only [unlV_node]; exact C.hdr0 c' hc'
  · intro c' hc'
    simp only [unlV_node, b3]
    by_cases e : c' = c
    · subst e
      rw [if_pos rfl, wc, List.length_erase_of_mem hq, C.cnt c' hc]
    · rw [if_neg e, wn c' hc' e, C.cnt c' hc']
  · intro c' hc' q' hq'; simp only [unlV_node]; exact C.hdr c' hc' q' (sub _ _ hq')

/-- What a sequence of vertical unlinkings leaves alone. -/
structure FrameV (HR : List Nat) (V : Nat → List Nat) (h h' : Heap) : Prop where
  live : ∀ p, h.Live p → h'.Live p
  left : ∀ p, (h'.node p).left = (h.node p).left
  right : ∀ p, (h'.node p).right = (h.node p).right
  header : ∀ p, (h'.node p).header = (h.node p).header
  row : ∀ p, p ∉ HR → (h'.node p).row = (h.node p).row
  mem : ∀ p, ¬ Act HR V p → h'.mem p = h.mem p
  next : h'.next = h.next

theorem Core.foldl_unlV (C : Core L h HR V) (K : List Nat) (hn : K.Nodup)
    (hK : ∀ k ∈ K, L.colOf k ∈ HR ∧ k ∈ V (L.colOf k)) :
    Core L (K.foldl DancingLinks.unlV h) HR (without V K) ∧
    FrameV HR V h (K.foldl DancingLinks.unlV h) ∧
    ∀ pre x post, K = pre ++ x :: post → CanV (pre.foldl DancingLinks.unlV h) x := by
  induction K generalizing h V with
  | nil =>
    refine ⟨by simpa [without_nil] using C, ⟨fun _ h => h, fun _ => rfl, fun _ => rfl, fun _ => rfl,
      fun _ _ => rfl, fun _ _ => rfl, rfl⟩, ?_⟩
    intro pre x post e; cases pre <;> simp at e
  | cons k K ih =>
    have hk := hK k (by simp)
    have hn' : k ∉ K ∧ K.Nodup := by simpa using hn
    have C' := C.unlV hk.1 hk.2
    have hK' : ∀ x ∈ K, L.colOf x ∈ HR ∧ x ∈ without V [k] (L.colOf x) := by
      intro x hx
      refine ⟨(hK x (by simp [hx])).1, mem_without.2 ⟨(hK x (by simp [hx])).2, ?_⟩⟩
      simp only [List.mem_singleton]; rintro rfl; exact hn'.1 hx
    obtain ⟨A, F, P⟩ := ih C' hn'.2 hK'
    have hd := (C.canV hk.1 hk.2).2.2.2
    refine ⟨?_, ?_, ?_⟩
    · simp only [List.foldl_cons]
      rw [without_append] at A
      simpa using A
    · simp only [List.foldl_cons]
      refine ⟨fun p hp => F.live p (unlV_live hp), ?_, ?_, ?_, ?_, ?_, F.next⟩
      · intro p; rw [F.left, unlV_node]
      · intro p; rw [F.right, unlV_node]
      · intro p; rw [F.header, unlV_node]
      · intro p hp
        rw [F.row p hp, unlV_node]
        simp only [hd]
        rw [if_neg]; rintro rfl; exact hp hk.1
      · intro p hp
        rw [F.mem p, C.unlV_frame hk.1 hk.2]
        · intro h
          apply hp
          simp only [List.mem_cons] at h
          rcases h with rfl | h
          · exact Or.inl hk.1
          · exact Or.inr ⟨_, hk.1, h⟩
        · rintro (h | ⟨c, hc, h⟩)
          · exact hp (Or.inl h)
          · exact hp (Or.inr ⟨c, hc, (mem_without.1 h).1⟩)
    · intro pre x post e
      cases pre with
      | nil => simp at e; obtain ⟨rfl, _⟩ := e; exact (C.canV hk.1 hk.2).1
      | cons y pre =>
        simp at e; obtain ⟨rfl, e⟩ := e
        exact P pre x post e

theorem Core.canH (C : Core L h HR V) {c : Nat} (hc : c ∈ HR) :
    CanH h c ∧ (h.node c).left ∈ L.root :: HR ∧ (h.node c).right ∈ L.root :: HR := by
  obtain ⟨a1, a2, a3, a4, a5, a6⟩ := Ring.pv_mem C.hring hc C.ndH
  simp only [Dir.opp, fld_left, fld_right] at a1 a2 a3 a4 a5 a6
  have b1 : (h.node c).left ∈ L.root :: HR := by
    simp only [List.mem_cons] at a1 ⊢
    exact a1.imp_right fun h => List.mem_of_mem_erase h
  have b2 : (h.node c).right ∈ L.root :: HR := by
    simp only [List.mem_cons] at a2 ⊢
    exact a2.imp_right fun h => List.mem_of_mem_erase h
  have lv : ∀ p ∈ L.root :: HR, h.Live p := by
    intro p hp
    simp only [List.mem_cons] at hp
    rcases hp with rfl | hp
    · exact C.liveR
    · exact C.liveH _ hp
  exact ⟨⟨C.liveH c hc, lv _ b1, lv _ b2, a3, a4, a5, a6⟩, b1, b2⟩

theorem Core.unlH_frame (C : Core L h HR V) {c : Nat} (hc : c ∈ HR) {p : Nat}
    (hp : p ∉ L.root :: HR ∨ p = c) : (unlH h c).mem p = h.mem p := by
  obtain ⟨a, b1, b2⟩ := C.canH hc
  rcases hp with hp | rfl
  · apply unlH_mem
    · rintro rfl; exact hp b1
    · rintro rfl; exact hp b2
  · exact unlH_mem a.leftne.symm a.rightne.symm

theorem Core.unlH (C : Core L h HR V) {c : Nat} (hc : c ∈ HR) : Core L (unlH h c) (HR.erase c) V := by
  have sub : ∀ x, x ∈ HR.erase c → x ∈ HR := fun x hx => List.mem_of_mem_erase hx
  refine ⟨unlH_live C.liveR, fun c hc => unlH_live (C.liveH c (sub _ hc)), ?_, ?_, ?_, ?_, ?_, ?_, ?_, ?_,
    ?_, ?_, ?_, ?_⟩
  · exact fun c hc q hq => unlH_live (C.liveV c (sub _ hc) q hq)
  · have := C.nzH
    simp only [List.mem_cons, not_or] at this ⊢
    exact ⟨this.1, fun h => this.2 (sub _ h)⟩
  · have := C.ndH
    simp only [List.nodup_cons] at this ⊢
    exact ⟨fun h => this.1 (sub _ h), this.2.erase _⟩
  · exact fun c hc => C.ndV c (sub _ hc)
  · exact fun c hc => C.isN c (sub _ hc)
  · intro c hc; apply C.sep; simp only [List.mem_cons] at hc ⊢; exact hc.imp_right (sub _)
  · exact fun c hc => C.col c (sub _ hc)
  · refine Ring.unlink C.hring hc C.ndH ?_ ?_ <;> intro a _ <;> (simp [Dir.opp, unlH_node]; rfl)
  · intro c' hc'
    refine (C.vring c' (sub _ hc')).congr ?_ ?_ <;> intro a _ <;> simp [Dir.opp, unlH_node]
  · intro c' hc'; simp only [unlH_node]; exact C.hdr0 c' (sub _ hc')
  · intro c' hc'; simp only [unlH_node]; exact C.cnt c' (sub _ hc')
  · intro c' hc' q hq; simp only [unlH_node]; exact C.hdr c' (sub _ hc') q hq

/-- Nodes unlinked by covering column `c`. -/
def killed (L : Lay) (V : Nat → List Nat) (c : Nat) : List Nat := (V c).flatMap L.oth

theorem killed_ok (G : L.Good) (C : Core L h HR V) (R : Rows L h HR V) {c : Nat} (hc : c ∈ HR) :
    (killed L V c).Nodup ∧ ∀ k ∈ killed L V c, L.colOf k ∈ HR.erase c ∧ k ∈ V (L.colOf k) := by
  constructor
  · unfold killed
    rw [List.nodup_flatMap]
    refine ⟨fun q hq => (List.nodup_cons.1 (G.nd q (C.isN c hc q hq))).2, ?_⟩
    refine (C.ndV c hc).pairwise_of_forall_ne ?_
    intro q hq q' hq' hne
    simp only [Function.onFun, List.disjoint_left]
    intro x hx hx'
    have s1 := G.mem_symm (C.isN c hc q hq) hx
    have nx := G.othNode q (C.isN c hc q hq) x hx
    have s2 := (G.sym q (C.isN c hc q hq) x hx q').1
      (by simp [G.mem_symm (C.isN c hc q' hq') hx'])
    apply hne
    refine (G.colInj q (C.isN c hc q hq) q (by simp) q' s2 ?_)
    rw [C.col c hc q hq, C.col c hc q' hq']
  · intro k hk
    simp only [killed, List.mem_flatMap] at hk
    obtain ⟨q, hq, hk⟩ := hk
    have := R.closed c hc q hq k hk
    refine ⟨(List.mem_erase_of_ne ?_).2 this.1, this.2⟩
    have := G.col_ne (C.isN c hc q hq) hk
    rwa [C.col c hc q hq] at this

/-- What covering leaves alone. -/
structure FrameC (L : Lay) (HR : List Nat) (V : Nat → List Nat) (c : Nat) (h h' : Heap) : Prop where
  live : ∀ p, h.Live p → h'.Live p
  left : ∀ p, p ∉ L.root :: HR → (h'.node p).left = (h.node p).left
  right : ∀ p, p ∉ L.root :: HR → (h'.node p).right = (h.node p).right
  header : ∀ p, (h'.node p).header = (h.node p).header
  row : ∀ p, p ∉ HR → (h'.node p).row = (h.node p).row
  mem : ∀ p, p ≠ L.root → ¬ Act HR V p → h'.mem p = h.mem p
  memc : ∀ p ∈ c :: V c, h'.mem p = h.mem p
  rootD : (h'.node L.root).down = (h.node L.root).down
  next : h'.next = h.next

/-- State facts that hold in every intermediate heap of a cover / uncover. -/
structure Mid (L : Lay) (c : Nat) (Vc : List Nat) (s : Heap) : Prop where
  live : s.Live c
  ring : HRing s .down c Vc
  rlive : ∀ q ∈ Vc, ∀ x ∈ q :: L.oth q, s.Live x
  rring : ∀ q ∈ Vc, HRing s .right q (L.oth q)

theorem prefix_mid (G : L.Good) (C : Core L h HR V) (R : Rows L h HR V) {c : Nat} (hc : c ∈ HR)
    (K K' : List Nat) (hK : killed L V c = K ++ K') :
    Mid L c (V c) (K.foldl unlV (unlH h c)) := by
  obtain ⟨k1, k2⟩ := killed_ok G C R hc
  have C0 := C.unlH hc
  obtain ⟨A, F, P⟩ := C0.foldl_unlV K (by rw [hK] at k1; exact k1.of_append_left)
    (fun k hk => k2 k (by rw [hK]; simp [hk]))
  have memc : ∀ p ∈ c :: V c, (K.foldl unlV (unlH h c)).mem p = h.mem p := by
    intro p hp
    rw [F.mem p]
    · apply C.unlH_frame hc
      simp only [List.mem_cons] at hp
      rcases hp with rfl | hp
      · exact Or.inr rfl
      · left; intro h; exact C.sep p h (C.isN c hc p hp)
    · rintro (h | ⟨c', hc', h⟩)
      · simp only [List.mem_cons] at hp
        rcases hp with rfl | hp
        · exact (List.Nodup.not_mem_erase (List.nodup_cons.1 C.ndH).2) h
        · exact C.sep p (by simp [List.mem_of_mem_erase h]) (C.isN c hc p hp)
      · have hc'' := List.mem_of_mem_erase hc'
        have hne : c' ≠ c := by
          rintro rfl; exact (List.Nodup.not_mem_erase (List.nodup_cons.1 C.ndH).2) hc'
        exact C.disj hc hc'' hne (by simp [h]) hp
  refine ⟨?_, ?_, ?_, ?_⟩
  · exact (live_congr (memc c (by simp))).2 (C.liveH c hc)
  · exact (C.vring c hc).congr_mem memc
  · intro q hq x hx
    apply F.live; apply unlH_live
    simp only [List.mem_cons] at hx
    rcases hx with rfl | hx
    · exact C.liveV c hc _ hq
    · have := R.closed c hc q hq x hx
      exact C.liveV _ this.1 _ this.2
  · intro q hq
    have hn : ∀ a ∈ q :: L.oth q, a ∉ L.root :: HR := by
      intro a ha hh
      apply C.sep a hh
      simp only [List.mem_cons] at ha
      rcases ha with rfl | ha
      · exact C.isN c hc _ hq
      · exact G.othNode q (C.isN c hc q hq) a ha
    refine (R.rring c hc q hq).congr ?_ ?_ <;> intro a ha
    · simp only [fld_right, F.right]
      exact congrArg Node.right (node_congr (C.unlH_frame hc (Or.inl (hn a ha))))
    · simp only [Dir.opp, fld_left, F.left]
      exact congrArg Node.left (node_congr (C.unlH_frame hc (Or.inl (hn a ha))))

theorem toHeader_hdr {h : Heap} {c : Nat} (hl : h.Live c) (h0 : (h.node c).header = 0) :
    toHeader h c = .ok c := by
  simp [toHeader, read_ok hl, h0]

theorem toHeader_cell {h : Heap} {q c : Nat} (hl : h.Live q) (h0 : (h.node q).header = c) (hc : c ≠ 0) :
    toHeader h q = .ok c := by
  simp [toHeader, read_ok hl, h0, hc]

/-- `cover_column`, `uncover_column` after `toHeader`. -/
def coverHd (h : Heap) (c : Nat) : Prog Heap := do
  let h ← coverHorizontal h c
  forSkip1 .down h c fun h row => forSkip1 .right h row coverCell
def uncoverHd (h : Heap) (c : Nat) : Prog Heap := do
  let h ← forSkip1 .up h c fun h row => forSkip1 .left h row uncoverCell
  uncoverHorizontal h c

theorem coverColumn_eq {h : Heap} {p c : Nat} (e : toHeader h p = .ok c) : coverColumn h p = coverHd h c := by
  simp [coverColumn, e, coverHd]
theorem uncoverColumn_eq {h : Heap} {p c : Nat} (e : toHeader h p = .ok c) :
    uncoverColumn h p = uncoverHd h c := by
  simp [uncoverColumn, e, uncoverHd]

theorem Core.c_ne_zero (C : Core L h HR V) {c : Nat} (hc : c ∈ HR) : c ≠ 0 := by
  rintro rfl; exact C.nzH (by simp [hc])

theorem Core.nz_col (C : Core L h HR V) (G : L.Good) {c : Nat} (hc : c ∈ HR) : 0 ∉ c :: V c := by
  simp only [List.mem_cons, not_or]
  exact ⟨(C.c_ne_zero hc).symm, fun h => G.nz 0 (C.isN c hc 0 h) rfl⟩

theorem Lay.Good.nz_row (G : L.Good) {q : Nat} (hq : L.isNode q) : 0 ∉ q :: L.oth q := by
  simp only [List.mem_cons, not_or]
  exact ⟨(G.nz q hq).symm, fun h => G.nz 0 (G.othNode q hq 0 h) rfl⟩

theorem coverHd_spec (G : L.Good) (C : Core L h HR V) (R : Rows L h HR V) {c : Nat} (hc : c ∈ HR) :
    coverHd h c = .ok ((killed L V c).foldl unlV (unlH h c)) := by
  obtain ⟨k1, k2⟩ := killed_ok G C R hc
  have CV := (C.unlH hc).foldl_unlV _ k1 k2 |>.2.2
  unfold coverHd
  rw [coverHorizontal_ok (C.canH hc).1, Prog.ok_bind]
  have M0 := prefix_mid G C R hc [] (killed L V c) rfl
  have key := forSkip1_spec .down c (V c) (fun h row => forSkip1 .right h row coverCell)
    (fun pre s => s = (pre.flatMap L.oth).foldl unlV (unlH h c)) (C.nz_col G hc)
    (List.nodup_cons.1 (C.vnodup hc)).1 (unlH h c) rfl M0.live M0.ring.first ?_
  · obtain ⟨h', e, I⟩ := key
    rw [e, I]; rfl
  · rintro pre q post s hV rfl
    have hq : q ∈ V c := by rw [hV]; simp
    have Nq := C.isN c hc q hq
    have M := prefix_mid G C R hc (pre.flatMap L.oth) ((q :: post).flatMap L.oth)
      (by simp [killed, hV])
    refine ⟨M.rlive q hq q (by simp), ?_, ?_⟩
    · have := M.ring; rw [hV] at this; exact this.next
    have key := forSkip1_spec .right q (L.oth q) coverCell
      (fun pre' s => s = pre'.foldl unlV ((pre.flatMap L.oth).foldl unlV (unlH h c))) (G.nz_row Nq)
      (List.nodup_cons.1 (G.nd q Nq)).1 _ rfl (M.rlive q hq q (by simp)) (M.rring q hq).first ?_
    · obtain ⟨h', e, I⟩ := key
      refine ⟨h', e, ?_⟩; rw [I]; simp
    · rintro pre' x post' s hO rfl
      have hx : x ∈ L.oth q := by rw [hO]; simp
      have M' := prefix_mid G C R hc (pre.flatMap L.oth ++ pre') (x :: post' ++ post.flatMap L.oth)
        (by simp [killed, hV, hO])
      rw [List.foldl_append] at M'
      refine ⟨M'.rlive q hq x (by simp [hx]), ?_, ?_⟩
      · have := M'.rring q hq; rw [hO] at this; exact this.next
      · refine ⟨_, coverCell_ok ?_, by simp⟩
        have := CV (pre.flatMap L.oth ++ pre') x (post' ++ post.flatMap L.oth) (by simp [killed, hV, hO])
        rwa [List.foldl_append] at this

theorem uncoverHd_spec (G : L.Good) (C : Core L h HR V) (R : Rows L h HR V) {c : Nat} (hc : c ∈ HR) :
    uncoverHd ((killed L V c).foldl unlV (unlH h c)) c = .ok h := by
  obtain ⟨k1, k2⟩ := killed_ok G C R hc
  have CV := (C.unlH hc).foldl_unlV _ k1 k2 |>.2.2
  unfold uncoverHd
  have ML := prefix_mid G C R hc (killed L V c) [] (by simp)
  have nzr : 0 ∉ c :: (V c).reverse := by
    have := C.nz_col G hc; simp at this ⊢; exact this
  have key := forSkip1_spec .up c (V c).reverse (fun h row => forSkip1 .left h row uncoverCell)
    (fun pre s => ∃ rest, V c = rest ++ pre.reverse ∧ s = (rest.flatMap L.oth).foldl unlV (unlH h c))
    nzr (by simpa using (List.nodup_cons.1 (C.vnodup hc)).1)
    ((killed L V c).foldl unlV (unlH h c)) ⟨V c, by simp, rfl⟩ ML.live ML.ring.reverse.first ?_
  · obtain ⟨h', e, I⟩ := key
    rw [e, Prog.ok_bind]
    obtain ⟨rest, h1, h2⟩ := I
    have : rest = [] := by
      rw [List.reverse_reverse] at h1; simpa using h1
    subst this
    rw [h2]
    exact uncoverHorizontal_unlH (C.canH hc).1
  · rintro pre q post s hV ⟨rest, hr, rfl⟩
    have hV' : V c = post.reverse ++ q :: pre.reverse := by
      have := congrArg List.reverse hV; simpa using this
    have hrest : rest = post.reverse ++ [q] := by
      rw [hV'] at hr
      have h3 : post.reverse ++ [q] ++ pre.reverse = rest ++ pre.reverse := by simpa using hr
      exact (List.append_cancel_right h3).symm
    subst hrest
    have hq : q ∈ V c := by rw [hV']; simp
    have Nq := C.isN c hc q hq
    have M := prefix_mid G C R hc ((post.reverse ++ [q]).flatMap L.oth) (pre.reverse.flatMap L.oth)
      (by simp [killed, hV'])
    refine ⟨M.rlive q hq q (by simp), ?_, ?_⟩
    · have := M.ring.reverse; rw [hV] at this; exact this.next
    have nzr : 0 ∉ q :: (L.oth q).reverse := by
      have := G.nz_row Nq; simp at this ⊢; exact this
    have key := forSkip1_spec .left q (L.oth q).reverse uncoverCell
      (fun pre' s => ∃ r, L.oth q = r ++ pre'.reverse ∧
        s = r.foldl unlV ((post.reverse.flatMap L.oth).foldl unlV (unlH h c)))
      nzr (by simpa using (List.nodup_cons.1 (G.nd q Nq)).1) _
      ⟨L.oth q, by simp, by simp⟩ (M.rlive q hq q (by simp)) (M.rring q hq).reverse.first ?_
    · obtain ⟨h', e, I⟩ := key
      refine ⟨h', e, post.reverse, by simp [hV'], ?_⟩
      obtain ⟨r, h1, h2⟩ := I
      have : r = [] := by rw [List.reverse_reverse] at h1; simpa using h1
      subst this
      exact h2
    · rintro pre' x post' s hO ⟨r, hr, rfl⟩
      have hO' : L.oth q = post'.reverse ++ x :: pre'.reverse := by
        have := congrArg List.reverse hO; simpa using this
      have hrest : r = post'.reverse ++ [x] := by
        rw [hO'] at hr
        have h3 : post'.reverse ++ [x] ++ pre'.reverse = r ++ pre'.reverse := by simpa using hr
        exact (List.append_cancel_right h3).symm
      subst hrest
      have hx : x ∈ L.oth q := by rw [hO']; simp
      have M' := prefix_mid G C R hc (post.reverse.flatMap L.oth ++ (post'.reverse ++ [x]))
        (pre'.reverse ++ pre.reverse.flatMap L.oth) (by simp [killed, hV', hO'])
      rw [List.foldl_append] at M'
      refine ⟨M'.rlive q hq x (by simp [hx]), ?_, ?_⟩
      · have := (M'.rring q hq).reverse; rw [hO] at this; exact this.next
      · rw [List.foldl_append]
        refine ⟨_, uncoverCell_unlV ?_, post'.reverse, by simp [hO'], rfl⟩
        have := CV (post.reverse.flatMap L.oth ++ post'.reverse) x (pre'.reverse ++ pre.reverse.flatMap L.oth)
          (by simp [killed, hV', hO'])
        rwa [List.foldl_append] at this

/-- Covering column `c`: result state. -/
theorem cover_post (G : L.Good) (C : Core L h HR V) (R : Rows L h HR V) {c : Nat} (hc : c ∈ HR) :
    let h' := (killed L V c).foldl unlV (unlH h c)
    Core L h' (HR.erase c) (without V (killed L V c)) ∧
    Rows L h' (HR.erase c) (without V (killed L V c)) ∧ FrameC L HR V c h h' := by
  intro h'
  obtain ⟨k1, k2⟩ := killed_ok G C R hc
  obtain ⟨A, F, P⟩ := (C.unlH hc).foldl_unlV _ k1 k2
  have M := prefix_mid G C R hc (killed L V c) [] (by simp)
  have ncc : c ∉ HR.erase c := List.Nodup.not_mem_erase (List.nodup_cons.1 C.ndH).2
  have FC : FrameC L HR V c h h' := by
    refine ⟨fun p hp => F.live p (unlH_live hp), ?_, ?_, ?_, ?_, ?_, ?_, ?_, F.next⟩
    · intro p hp; rw [F.left]; exact congrArg Node.left (node_congr (C.unlH_frame hc (Or.inl hp)))
    · intro p hp; rw [F.right]; exact congrArg Node.right (node_congr (C.unlH_frame hc (Or.inl hp)))
    · intro p; rw [F.header, unlH_node]
    · intro p hp; rw [F.row p (fun h => hp (List.mem_of_mem_erase h)), unlH_node]
    · intro p hp hp2
      rw [F.mem p, C.unlH_frame hc]
      · left
        simp only [List.mem_cons, not_or]
        exact ⟨hp, fun h => hp2 (Or.inl h)⟩
      · rintro (h | ⟨c', hc', h⟩)
        · exact hp2 (Or.inl (List.mem_of_mem_erase h))
        · exact hp2 (Or.inr ⟨c', List.mem_of_mem_erase hc', h⟩)
    · intro p hp
      rw [F.mem p]
      · apply C.unlH_frame hc
        simp only [List.mem_cons] at hp
        rcases hp with rfl | hp
        · exact Or.inr rfl
        · left; intro h; exact C.sep p h (C.isN c hc p hp)
      · rintro (h | ⟨c', hc', h⟩)
        · simp only [List.mem_cons] at hp
          rcases hp with rfl | hp
          · exact ncc h
          · exact C.sep p (by simp [List.mem_of_mem_erase h]) (C.isN c hc p hp)
        · have hc'' := List.mem_of_mem_erase hc'
          have hne : c' ≠ c := by rintro rfl; exact ncc hc'
          exact C.disj hc hc'' hne (by simp [h]) hp
    · rw [node_congr (F.mem L.root ?_), unlH_node]
      rintro (h | ⟨c', hc', h⟩)
      · exact (List.nodup_cons.1 C.ndH).1 (List.mem_of_mem_erase h)
      · exact C.c_ne_q (by simp) (List.mem_of_mem_erase hc') h rfl
  refine ⟨A, ?_, FC⟩
  have nroot : ∀ q, L.isNode q → q ∉ L.root :: HR := fun q hq h => C.sep q h hq
  refine ⟨?_, ?_, ?_⟩
  · intro c' hc' q hq x hx
    obtain ⟨hq, hqK⟩ := mem_without.1 hq
    have hc'' := List.mem_of_mem_erase hc'
    have Nq := C.isN c' hc'' q hq
    have h1 := R.closed c' hc'' q hq x hx
    have hxK : x ∉ killed L V c := by
      intro hxK
      simp only [killed, List.mem_flatMap] at hxK hqK
      obtain ⟨y, hy, hxy⟩ := hxK
      apply hqK
      refine ⟨y, hy, ?_⟩
      have Ny := C.isN c hc y hy
      have : q ∈ y :: L.oth y := (G.sym y Ny x hxy q).1 (by simp [G.mem_symm Nq hx])
      simp only [List.mem_cons] at this
      rcases this with rfl | h
      · exfalso
        have := (C.col c' hc'' _ hq).symm.trans (C.col c hc _ hy)
        subst this
        exact ncc hc'
      · exact h
    have hxc : L.colOf x ≠ c := by
      intro e
      apply hqK
      simp only [killed, List.mem_flatMap]
      exact ⟨x, e ▸ h1.2, G.mem_symm Nq hx⟩
    exact ⟨(List.mem_erase_of_ne hxc).2 h1.1, mem_without.2 ⟨h1.2, hxK⟩⟩
  · intro c' hc' q hq
    obtain ⟨hq, hqK⟩ := mem_without.1 hq
    have hc'' := List.mem_of_mem_erase hc'
    have Nq := C.isN c' hc'' q hq
    have hN : ∀ a ∈ q :: L.oth q, L.isNode a := by
      intro a ha
      simp only [List.mem_cons] at ha
      rcases ha with rfl | ha
      · exact Nq
      · exact G.othNode q Nq a ha
    refine (R.rring c' hc'' q hq).congr ?_ ?_ <;> intro a ha
    · simp only [fld_right]; exact FC.right a (nroot a (hN a ha))
    · simp only [Dir.opp, fld_left]; exact FC.left a (nroot a (hN a ha))
  · intro c' hc' q hq
    obtain ⟨hq, hqK⟩ := mem_without.1 hq
    have hc'' := List.mem_of_mem_erase hc'
    have Nq := C.isN c' hc'' q hq
    rw [← R.rid c' hc'' q hq]
    exact FC.row q (fun h => nroot q Nq (by simp [h]))

end DancingLinks
