import Verif.Proofs.DL.Cover

/-! Covering several columns, undoing it, and freeing covered columns. -/
namespace DancingLinks

/-- Heap together with the abstract torus it represents. -/
structure TS where
  h : Heap
  HR : List Nat
  V : Nat → List Nat

structure TS.Ok (L : Lay) (t : TS) : Prop where
  core : Core L t.h t.HR t.V
  rows : Rows L t.h t.HR t.V

def TS.Act (t : TS) (p : Nat) : Prop := DancingLinks.Act t.HR t.V p

def TS.cover (L : Lay) (t : TS) (c : Nat) : TS where
  h := (killed L t.V c).foldl unlV (unlH t.h c)
  HR := t.HR.erase c
  V := without t.V (killed L t.V c)

def TS.covers (L : Lay) (t : TS) (cs : List Nat) : TS := cs.foldl (TS.cover L) t

/-- Everything that disappears with column `c`: the header and all rows through it. -/
def rem (L : Lay) (c : Nat) (W : List Nat) : List Nat := c :: W.flatMap fun q => q :: L.oth q

variable {L : Lay} {t : TS}

theorem mem_rem {c p : Nat} {W : List Nat} : p ∈ rem L c W ↔ p = c ∨ ∃ q ∈ W, p ∈ q :: L.oth q := by
  simp [rem]

theorem TS.Ok.cover (G : L.Good) (o : t.Ok L) {c : Nat} (hc : c ∈ t.HR) : (t.cover L c).Ok L :=
  let ⟨a, b, _⟩ := cover_post G o.core o.rows hc; ⟨a, b⟩

theorem TS.Ok.frame (G : L.Good) (o : t.Ok L) {c : Nat} (hc : c ∈ t.HR) :
    FrameC L t.HR t.V c t.h (t.cover L c).h := (cover_post G o.core o.rows hc).2.2

theorem TS.Ok.cover_exec (G : L.Good) (o : t.Ok L) {c : Nat} (hc : c ∈ t.HR) :
    coverHd t.h c = .ok (t.cover L c).h := coverHd_spec G o.core o.rows hc

theorem TS.Ok.uncover_exec (G : L.Good) (o : t.Ok L) {c : Nat} (hc : c ∈ t.HR) :
    uncoverHd (t.cover L c).h c = .ok t.h := uncoverHd_spec G o.core o.rows hc

theorem TS.Ok.isN (o : t.Ok L) (G : L.Good) {c q x : Nat} (hc : c ∈ t.HR) (hq : q ∈ t.V c)
    (hx : x ∈ q :: L.oth q) : L.isNode x := by
  simp only [List.mem_cons] at hx
  rcases hx with rfl | hx
  · exact o.core.isN c hc _ hq
  · exact G.othNode q (o.core.isN c hc q hq) x hx

theorem TS.Ok.closed (o : t.Ok L) {c q x : Nat} (hc : c ∈ t.HR) (hq : q ∈ t.V c)
    (hx : x ∈ q :: L.oth q) : L.colOf x ∈ t.HR ∧ x ∈ t.V (L.colOf x) := by
  simp only [List.mem_cons] at hx
  rcases hx with rfl | hx
  · rw [o.core.col c hc x hq]; exact ⟨hc, hq⟩
  · exact o.rows.closed c hc q hq x hx

/-- Two nodes of one column whose rows meet are equal. -/
theorem TS.Ok.row_inj (o : t.Ok L) (G : L.Good) {c q q' x : Nat} (hc : c ∈ t.HR) (hq : q ∈ t.V c)
    (hq' : q' ∈ t.V c) (hx : x ∈ q :: L.oth q) (hx' : x ∈ q' :: L.oth q') : q = q' := by
  have Nq := o.core.isN c hc q hq
  have Nq' := o.core.isN c hc q' hq'
  have Nx := o.isN G hc hq hx
  have e1 := (G.ridEq q x Nq Nx).2 hx
  have e2 := (G.ridEq q' x Nq' Nx).2 hx'
  have e3 := (G.ridEq q q' Nq Nq').1 (e1.trans e2.symm)
  exact G.colInj q Nq q (by simp) q' e3 ((o.core.col c hc q hq).trans (o.core.col c hc q' hq').symm)

theorem TS.Ok.rem_nodup (o : t.Ok L) (G : L.Good) {c : Nat} (hc : c ∈ t.HR) : (rem L c (t.V c)).Nodup := by
  unfold rem
  rw [List.nodup_cons, List.nodup_flatMap]
  refine ⟨?_, fun q hq => G.nd q (o.core.isN c hc q hq), ?_⟩
  · simp only [List.mem_flatMap, not_exists, not_and]
    intro q hq hx
    exact o.core.sep c (by simp [hc]) (o.isN G hc hq hx)
  · refine (o.core.ndV c hc).pairwise_of_forall_ne ?_
    intro q hq q' hq' hne
    simp only [Function.onFun, List.disjoint_left]
    intro x hx hx'
    exact hne (o.row_inj G hc hq hq' hx hx')

theorem TS.Ok.notin (o : t.Ok L) (c : Nat) : c ∉ t.HR.erase c :=
  List.Nodup.not_mem_erase (List.nodup_cons.1 o.core.ndH).2

theorem TS.Ok.act_split (o : t.Ok L) (G : L.Good) {c : Nat} (hc : c ∈ t.HR) (p : Nat) :
    (t.Act p ↔ p ∈ rem L c (t.V c) ∨ (t.cover L c).Act p) ∧
    ¬ (p ∈ rem L c (t.V c) ∧ (t.cover L c).Act p) := by
  constructor
  · constructor
    · rintro (h | ⟨c', hc', h⟩)
      · by_cases e : p = c
        · left; rw [mem_rem]; exact Or.inl e
        · right; left; exact (List.mem_erase_of_ne e).2 h
      · by_cases e : c' = c
        · subst e; left; rw [mem_rem]; exact Or.inr ⟨p, h, by simp⟩
        · by_cases hk : p ∈ killed L t.V c
          · left
            simp only [killed, List.mem_flatMap] at hk
            obtain ⟨q, hq, hp⟩ := hk
            rw [mem_rem]; exact Or.inr ⟨q, hq, by simp [hp]⟩
          · right; right
            exact ⟨c', (List.mem_erase_of_ne e).2 hc', mem_without.2 ⟨h, hk⟩⟩
    · rintro (h | h | ⟨c', hc', h⟩)
      · rw [mem_rem] at h
        rcases h with rfl | ⟨q, hq, hx⟩
        · exact Or.inl hc
        · exact Or.inr ⟨_, (o.closed hc hq hx).1, (o.closed hc hq hx).2⟩
      · exact Or.inl (List.mem_of_mem_erase h)
      · exact Or.inr ⟨c', List.mem_of_mem_erase hc', (mem_without.1 h).1⟩
  · rintro ⟨h1, h2⟩
    rw [mem_rem] at h1
    rcases h2 with h2 | ⟨c', hc', h2⟩
    · rcases h1 with rfl | ⟨q, hq, hx⟩
      · exact o.notin p h2
      · exact o.core.sep p (by simp [List.mem_of_mem_erase h2]) (o.isN G hc hq hx)
    · have hc'' := List.mem_of_mem_erase hc'
      obtain ⟨h3, h4⟩ := mem_without.1 h2
      rcases h1 with rfl | ⟨q, hq, hx⟩
      · exact o.core.sep p (by simp [hc]) (o.core.isN _ hc'' _ h3)
      · simp only [List.mem_cons] at hx
        rcases hx with rfl | hx
        · have := (o.core.col _ hc'' _ h3).symm.trans (o.core.col _ hc _ hq)
          subst this; exact o.notin _ hc'
        · apply h4; simp only [killed, List.mem_flatMap]; exact ⟨q, hq, hx⟩

theorem TS.Ok.cover_V_self (o : t.Ok L) (G : L.Good) {c : Nat} (hc : c ∈ t.HR) :
    (t.cover L c).V c = t.V c := by
  simp only [TS.cover, without]
  rw [List.filter_eq_self]
  intro a ha
  simp only [decide_eq_true_eq]
  intro hk
  have := (killed_ok G o.core o.rows hc).2 a hk
  rw [o.core.col c hc a ha] at this
  exact o.notin c this.1

theorem TS.Ok.cover_V_other (o : t.Ok L) (G : L.Good) {c c' : Nat} (hc : c ∈ t.HR) (hc' : c' ∉ t.HR)
    (hcol : ∀ z ∈ t.V c', L.colOf z = c') : (t.cover L c).V c' = t.V c' := by
  simp only [TS.cover, without]
  rw [List.filter_eq_self]
  intro a ha
  simp only [decide_eq_true_eq]
  intro hk
  have := (killed_ok G o.core o.rows hc).2 a hk
  rw [hcol a ha] at this
  exact hc' (List.mem_of_mem_erase this.1)

theorem Mid.congr {c : Nat} {W : List Nat} {s s' : Heap} (M : Mid L c W s)
    (h : ∀ p ∈ rem L c W, s'.mem p = s.mem p) : Mid L c W s' := by
  have hr : ∀ q ∈ W, ∀ x ∈ q :: L.oth q, s'.mem x = s.mem x :=
    fun q hq x hx => h x (mem_rem.2 (Or.inr ⟨q, hq, hx⟩))
  refine ⟨(live_congr (h c (mem_rem.2 (Or.inl rfl)))).2 M.live, M.ring.congr_mem ?_, ?_, ?_⟩
  · intro a ha
    simp only [List.mem_cons] at ha
    rcases ha with rfl | ha
    · exact h _ (mem_rem.2 (Or.inl rfl))
    · exact hr a ha a (by simp)
  · intro q hq x hx; exact (live_congr (hr q hq x hx)).2 (M.rlive q hq x hx)
  · intro q hq; exact (M.rring q hq).congr_mem (hr q hq)

theorem TS.Ok.mid (o : t.Ok L) (G : L.Good) {c : Nat} (hc : c ∈ t.HR) :
    Mid L c (t.V c) (t.cover L c).h :=
  prefix_mid G o.core o.rows hc (killed L t.V c) [] (by simp)

/-- Effect of covering the columns `cs` in turn. -/
structure SeqPost (L : Lay) (t : TS) (cs : List Nat) (t' : TS) : Prop where
  ok : t'.Ok L
  hr : ∀ c, c ∈ t'.HR ↔ c ∈ t.HR ∧ c ∉ cs
  len : t'.HR.length + cs.length = t.HR.length
  sub : ∀ c q, q ∈ t'.V c → q ∈ t.V c
  vmem : ∀ c ∈ t'.HR, ∀ q, q ∈ t'.V c ↔ q ∈ t.V c ∧ ∀ y ∈ q :: L.oth q, L.colOf y ∉ cs
  live : ∀ p, t.h.Live p → t'.h.Live p
  left : ∀ p, p ∉ L.root :: t.HR → (t'.h.node p).left = (t.h.node p).left
  right : ∀ p, p ∉ L.root :: t.HR → (t'.h.node p).right = (t.h.node p).right
  header : ∀ p, (t'.h.node p).header = (t.h.node p).header
  row : ∀ p, p ∉ t.HR → (t'.h.node p).row = (t.h.node p).row
  mem : ∀ p, p ≠ L.root → ¬ t.Act p → t'.h.mem p = t.h.mem p
  rootD : (t'.h.node L.root).down = (t.h.node L.root).down
  next : t'.h.next = t.h.next
  mid : ∀ c ∈ cs, Mid L c (t'.V c) t'.h
  vcol : ∀ c ∈ cs, ∀ q ∈ t'.V c, L.isNode q
  first : ∀ c cs', cs = c :: cs' → t'.V c = t.V c
  nodup : ∀ c ∈ cs, (rem L c (t'.V c)).Nodup
  disj : ∀ c ∈ cs, ∀ c' ∈ cs, c ≠ c' → ∀ p, ¬ (p ∈ rem L c (t'.V c) ∧ p ∈ rem L c' (t'.V c'))
  act : ∀ p, t.Act p ↔ t'.Act p ∨ ∃ c ∈ cs, p ∈ rem L c (t'.V c)
  gone : ∀ c ∈ cs, ∀ p ∈ rem L c (t'.V c), ¬ t'.Act p

theorem covers_V_other (G : L.Good) : ∀ (cs : List Nat) (t : TS), t.Ok L → cs.Nodup → (∀ c ∈ cs, c ∈ t.HR) →
    ∀ c', c' ∉ t.HR → (∀ z ∈ t.V c', L.colOf z = c') → (t.covers L cs).V c' = t.V c'
  | [], _, _, _, _, _, _, _ => rfl
  | c :: cs, t, o, hn, hs, c', hc', hcol => by
    simp only [List.nodup_cons] at hn
    have e := o.cover_V_other G (hs c (by simp)) hc' hcol
    have := covers_V_other G cs (t.cover L c) (o.cover G (hs c (by simp))) hn.2
      (fun d hd => (List.mem_erase_of_ne (by rintro rfl; exact hn.1 hd)).2 (hs d (by simp [hd]))) c'
      (fun h => hc' (List.mem_of_mem_erase h)) (by rw [e]; exact hcol)
    exact this.trans e

theorem covers_spec (G : L.Good) (cs : List Nat) : ∀ t : TS, t.Ok L → cs.Nodup → (∀ c ∈ cs, c ∈ t.HR) →
    SeqPost L t cs (t.covers L cs) := by
  induction cs with
  | nil =>
    intro t o _ _
    exact ⟨o, by simp [TS.covers], rfl, fun _ _ h => h, by simp [TS.covers], fun _ h => h, fun _ _ => rfl,
      fun _ _ => rfl, fun _ => rfl, fun _ _ => rfl, fun _ _ _ => rfl, rfl, rfl, by simp, by simp, by simp,
      by simp, by simp, by simp [TS.covers], by simp⟩
  | cons c cs ih =>
    intro t o hn hs
    simp only [List.nodup_cons] at hn
    have hc := hs c (by simp)
    have o1 := o.cover G hc
    have F := o.frame G hc
    have P := ih (t.cover L c) o1 hn.2
      (fun d hd => (List.mem_erase_of_ne (by rintro rfl; exact hn.1 hd)).2 (hs d (by simp [hd])))
    have e : t.covers L (c :: cs) = (t.cover L c).covers L cs := rfl
    have Vc : ((t.cover L c).covers L cs).V c = t.V c := by
      have h1 := o.cover_V_self G hc
      rw [covers_V_other G cs _ o1 hn.2
        (fun d hd => (List.mem_erase_of_ne (by rintro rfl; exact hn.1 hd)).2 (hs d (by simp [hd]))) c
        (o.notin c), h1]
      rw [h1]; exact o.core.col c hc
    rw [e]
    have hHR : ∀ p, p ∉ t.HR → p ∉ (t.cover L c).HR := fun p hp h => hp (List.mem_of_mem_erase h)
    have hHR' : ∀ p, p ∉ L.root :: t.HR → p ∉ L.root :: (t.cover L c).HR := by
      intro p hp h
      simp only [List.mem_cons, not_or] at hp h
      rcases h with h | h
      · exact hp.1 h
      · exact hHR p hp.2 h
    have sp := fun p => o.act_split G hc p
    have remAct : ∀ p, p ∈ rem L c (t.V c) → ¬ (t.cover L c).Act p := fun p h1 h2 => (sp p).2 ⟨h1, h2⟩
    have remRoot : ∀ p, p ∈ rem L c (t.V c) → p ≠ L.root := by
      rintro p hp rfl
      rw [mem_rem] at hp
      rcases hp with h | ⟨q, hq, hx⟩
      · exact (List.nodup_cons.1 o.core.ndH).1 (h ▸ hc)
      · exact o.core.sep L.root (by simp) (o.isN G hc hq hx)
    refine ⟨P.ok, ?_, ?_, ?_, ?_, ?_, ?_, ?_, ?_, ?_, ?_, ?_, ?_, ?_, ?_, ?_, ?_, ?_, ?_, ?_⟩
    · intro x
      rw [P.hr]
      simp only [TS.cover, List.mem_cons, not_or]
      rw [(List.nodup_cons.1 o.core.ndH).2.mem_erase_iff]
      tauto
    · have := P.len
      have h2 : (t.cover L c).HR.length = t.HR.length - 1 := List.length_erase_of_mem hc
      have h3 : 0 < t.HR.length := List.length_pos_of_mem hc
      simp only [List.length_cons]; omega
    · intro x q hq; exact (mem_without.1 (P.sub x q hq)).1
    · intro x hx q
      rw [P.vmem x hx q]
      have hx1 := ((P.hr x).1 hx).1
      have hxne : x ≠ c := by rintro rfl; exact o.notin x hx1
      have hx0 := List.mem_of_mem_erase hx1
      simp only [TS.cover, mem_without]
      constructor
      · rintro ⟨⟨hq, hk⟩, hcs⟩
        refine ⟨hq, fun y hy => ?_⟩
        simp only [List.mem_cons, not_or]
        refine ⟨?_, hcs y hy⟩
        intro ey
        have Nq := o.core.isN x hx0 q hq
        simp only [List.mem_cons] at hy
        rcases hy with rfl | hy
        · exact hxne ((o.core.col x hx0 _ hq).symm.trans ey)
        · apply hk
          simp only [killed, List.mem_flatMap]
          refine ⟨y, ?_, G.mem_symm Nq hy⟩
          have := (o.rows.closed x hx0 q hq y hy).2
          rwa [ey] at this
      · rintro ⟨hq, hcs⟩
        refine ⟨⟨hq, ?_⟩, fun y hy => ?_⟩
        · intro hk
          simp only [killed, List.mem_flatMap] at hk
          obtain ⟨y, hy, hqy⟩ := hk
          have := hcs y (by simp [G.mem_symm (o.core.isN c hc y hy) hqy])
          rw [o.core.col c hc y hy] at this
          simp at this
        · have := hcs y hy
          simp only [List.mem_cons, not_or] at this
          exact this.2
    · exact fun p hp => P.live p (F.live p hp)
    · exact fun p hp => (P.left p (hHR' p hp)).trans (F.left p hp)
    · exact fun p hp => (P.right p (hHR' p hp)).trans (F.right p hp)
    · exact fun p => (P.header p).trans (F.header p)
    · exact fun p hp => (P.row p (hHR p hp)).trans (F.row p hp)
    · intro p hp ha
      exact (P.mem p hp (fun h => ha ((sp p).1.2 (Or.inr h)))).trans (F.mem p hp ha)
    · exact P.rootD.trans F.rootD
    · exact P.next.trans F.next
    · intro d hd
      simp only [List.mem_cons] at hd
      rcases hd with rfl | hd
      · rw [Vc]
        refine (o.mid G hc).congr fun p hp => ?_
        exact P.mem p (remRoot p hp) (remAct p hp)
      · exact P.mid d hd
    · intro d hd
      simp only [List.mem_cons] at hd
      rcases hd with rfl | hd
      · rw [Vc]; exact o.core.isN _ hc
      · exact P.vcol d hd
    · intro d cs' e; simp at e; rw [← e.1]; exact Vc
    · intro d hd
      simp only [List.mem_cons] at hd
      rcases hd with rfl | hd
      · rw [Vc]; exact o.rem_nodup G hc
      · exact P.nodup d hd
    · have key : ∀ d ∈ cs, ∀ p, ¬ (p ∈ rem L c (t.V c) ∧ p ∈ rem L d (((t.cover L c).covers L cs).V d)) := by
        rintro d hd p ⟨h1, h2⟩
        exact remAct p h1 ((P.act p).2 (Or.inr ⟨d, hd, h2⟩))
      intro d hd d' hd' hne p ⟨h1, h2⟩
      simp only [List.mem_cons] at hd hd'
      rcases hd with rfl | hd
      · rcases hd' with rfl | hd'
        · exact hne rfl
        · rw [Vc] at h1; exact key d' hd' p ⟨h1, h2⟩
      · rcases hd' with rfl | hd'
        · rw [Vc] at h2; exact key d hd p ⟨h2, h1⟩
        · exact P.disj d hd d' hd' hne p ⟨h1, h2⟩
    · intro p
      rw [(sp p).1, P.act p]
      simp only [List.mem_cons, exists_eq_or_imp, Vc]
      tauto
    · intro d hd p hp
      simp only [List.mem_cons] at hd
      rcases hd with rfl | hd
      · rw [Vc] at hp
        intro h
        exact remAct p hp ((P.act p).2 (Or.inl h))
      · exact P.gone d hd p hp

/-! ### Freeing -/

def freeSet (h : Heap) (P : List Nat) : Heap :=
  { mem := fun p => if p ∈ P then .freed else h.mem p, next := h.next }

theorem freeSet_nil (h : Heap) : freeSet h [] = h := by ext <;> simp [freeSet]
theorem freeSet_append (h : Heap) (P Q : List Nat) : freeSet (freeSet h P) Q = freeSet h (P ++ Q) := by
  ext p
  · simp only [freeSet, List.mem_append]; split_ifs <;> simp_all
  · rfl
theorem put_freed (h : Heap) (p : Nat) : h.put p .freed = freeSet h [p] := by
  ext q <;> simp [freeSet]
theorem freeSet_mem {h : Heap} {P : List Nat} {p : Nat} (hp : p ∉ P) : (freeSet h P).mem p = h.mem p := by
  simp [freeSet, hp]

theorem dealloc_free {h : Heap} {p : Nat} (hl : h.Live p) : h.dealloc p = .ok (freeSet h [p]) := by
  rw [dealloc_ok hl, put_freed]

def freeHd (h : Heap) (c : Nat) : Prog Heap := do
  let h ← forSkip1 .down h c freeRow
  h.dealloc c

theorem freeChain_eq {h : Heap} {p c : Nat} (e : toHeader h p = .ok c) : freeChain h p = freeHd h c := by
  simp [freeChain, e, freeHd]

theorem freeRow_spec {s : Heap} {q : Nat} {l : List Nat} (hl : ∀ x ∈ q :: l, s.Live x)
    (hr : HRing s .right q l) (hn : (q :: l).Nodup) (h0 : 0 ∉ q :: l) :
    ∃ h1, forSkip1 .right s q (fun h col => h.dealloc col) = .ok h1 ∧ h1.dealloc q = .ok (freeSet s (l ++ [q])) := by
  have key := forSkip1_spec .right q l (fun h col => h.dealloc col) (fun pre s' => s' = freeSet s pre) h0
    (List.nodup_cons.1 hn).1 s (freeSet_nil s).symm (hl q (by simp)) hr.first ?_
  · obtain ⟨h', e, I⟩ := key
    refine ⟨h', e, ?_⟩
    subst I
    rw [dealloc_free, freeSet_append]
    rw [live_congr (freeSet_mem (List.nodup_cons.1 hn).1)]
    exact hl q (by simp)
  · rintro pre x post s' hl' rfl
    have hx : x ∈ l := by rw [hl']; simp
    have hxp : x ∉ pre := by
      have := (List.nodup_cons.1 hn).2
      rw [hl', List.nodup_append] at this
      intro h; exact this.2.2 x h x (by simp) rfl
    have hlx : (freeSet s pre).Live x := (live_congr (freeSet_mem hxp)).2 (hl x (by simp [hx]))
    refine ⟨hlx, ?_, _, dealloc_free hlx, by rw [freeSet_append]⟩
    rw [node_congr (freeSet_mem hxp)]
    rw [hl'] at hr
    exact hr.next

theorem mem_flat_swap {f : Nat → List Nat} {W : List Nat} {p : Nat} :
    (p ∈ W.flatMap fun q => f q ++ [q]) ↔ p ∈ W.flatMap fun q => q :: f q := by
  simp only [List.mem_flatMap, List.mem_append, List.mem_cons, List.not_mem_nil, or_false]
  constructor <;> rintro ⟨q, hq, h⟩ <;> exact ⟨q, hq, h.symm⟩

theorem freeHd_spec {s : Heap} {c : Nat} {W : List Nat} (M : Mid L c W s) (hn : (rem L c W).Nodup)
    (h0 : 0 ∉ rem L c W) : ∃ s', freeHd s c = .ok s' ∧
      s'.next = s.next ∧ ∀ p, s'.mem p = if p ∈ rem L c W then .freed else s.mem p := by
  unfold freeHd
  have hn0 : ∀ q ∈ W, (q :: L.oth q).Nodup := by
    unfold rem at hn
    rw [List.nodup_cons, List.nodup_flatMap] at hn
    exact hn.2.1
  have z : ∀ q ∈ W, 0 ∉ q :: L.oth q := fun q hq h => h0 (mem_rem.2 (Or.inr ⟨q, hq, h⟩))
  have key := forSkip1_spec .down c W freeRow
    (fun pre s' => s' = freeSet s (pre.flatMap fun q => L.oth q ++ [q])) ?_ ?_ s
      (freeSet_nil s).symm M.live M.ring.first ?_
  · obtain ⟨s', e, I⟩ := key
    rw [e, Prog.ok_bind]
    have hc : c ∉ W.flatMap fun q => L.oth q ++ [q] := by
      unfold rem at hn
      rw [List.nodup_cons] at hn
      intro h
      exact hn.1 (mem_flat_swap.1 h)
    have hl : s'.Live c := by
      rw [I, live_congr (freeSet_mem hc)]; exact M.live
    refine ⟨_, dealloc_free hl, ?_, ?_⟩
    · rw [I]; rfl
    · intro p
      rw [I, freeSet_append]
      have : (p ∈ (W.flatMap fun q => L.oth q ++ [q]) ++ [c]) ↔ p ∈ rem L c W := by
        rw [List.mem_append, mem_flat_swap]
        simp only [rem, List.mem_cons, List.not_mem_nil, or_false]
        exact or_comm
      simp only [freeSet, this]
  · simp only [List.mem_cons, not_or]
    refine ⟨fun h => h0 (mem_rem.2 (Or.inl h)), fun h => z 0 h (by simp)⟩
  · unfold rem at hn
    rw [List.nodup_cons] at hn
    intro h; apply hn.1
    simp only [List.mem_flatMap]
    exact ⟨c, h, by simp⟩
  · rintro pre q post s' hW rfl
    have hq : q ∈ W := by rw [hW]; simp
    have hd : ∀ x ∈ q :: L.oth q, x ∉ pre.flatMap fun q => L.oth q ++ [q] := by
      intro x hx hpre
      unfold rem at hn
      rw [List.nodup_cons, hW] at hn
      have h2 := hn.2
      rw [List.flatMap_append, List.nodup_append] at h2
      refine h2.2.2 x ?_ x ?_ rfl
      · exact mem_flat_swap.1 hpre
      · simp only [List.mem_flatMap, List.mem_cons] at hx ⊢
        exact ⟨q, Or.inl rfl, hx⟩
    have hl : ∀ x ∈ q :: L.oth q, (freeSet s (pre.flatMap fun q => L.oth q ++ [q])).Live x := by
      intro x hx; rw [live_congr (freeSet_mem (hd x hx))]; exact M.rlive q hq x hx
    refine ⟨hl q (by simp), ?_, ?_⟩
    · rw [node_congr (freeSet_mem (hd q (by simp)))]
      have := M.ring; rw [hW] at this; exact this.next
    · obtain ⟨h1, e1, e2⟩ := freeRow_spec hl ((M.rring q hq).congr_mem fun a ha => freeSet_mem (hd a ha))
        (hn0 q hq) (z q hq)
      refine ⟨_, ?_, rfl⟩
      unfold freeRow
      rw [e1, Prog.ok_bind, e2, freeSet_append]
      simp

end DancingLinks
