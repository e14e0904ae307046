import Verif.Proofs.DL.Abs

/-! Correctness of the search: soundness, completeness, restoration, freeing. -/
namespace DancingLinks
open Spec

variable {L : Lay} {t : TS}

/-- Row `q` can be walked in `t`, and the columns in `xs` are still linked. -/
structure RowIn (L : Lay) (t : TS) (q : Nat) : Prop where
  node : L.isNode q
  live : ∀ x ∈ q :: L.oth q, t.h.Live x
  hdr : ∀ x ∈ q :: L.oth q, (t.h.node x).header = L.colOf x
  nz : ∀ x ∈ q :: L.oth q, L.colOf x ≠ 0
  sep : ∀ x ∈ q :: L.oth q, x ∉ L.root :: t.HR
  ring : HRing t.h .right q (L.oth q)

theorem TS.Ok.rowIn (o : t.Ok L) (G : L.Good) {c q : Nat} (hc : c ∈ t.HR) (hq : q ∈ t.V c) : RowIn L t q := by
  refine ⟨o.core.isN c hc q hq, ?_, ?_, ?_, ?_, o.rows.rring c hc q hq⟩
  · intro x hx; exact o.core.liveV _ (o.closed hc hq hx).1 _ (o.closed hc hq hx).2
  · intro x hx; exact o.core.hdr _ (o.closed hc hq hx).1 _ (o.closed hc hq hx).2
  · intro x hx; exact o.core.c_ne_zero (o.closed hc hq hx).1
  · intro x hx h; exact o.core.sep x h (o.isN G hc hq hx)

theorem RowIn.seq {q : Nat} {cs : List Nat} {t' : TS} (R : RowIn L t q) (P : SeqPost L t cs t') :
    RowIn L t' q := by
  refine ⟨R.node, fun x hx => P.live x (R.live x hx), fun x hx => (P.header x).trans (R.hdr x hx), R.nz, ?_,
    R.ring.congr ?_ ?_⟩
  · intro x hx h
    apply R.sep x hx
    simp only [List.mem_cons] at h ⊢
    exact h.imp_right fun h => ((P.hr x).1 h).1
  · intro a ha; exact P.right a (R.sep a ha)
  · intro a ha; exact P.left a (R.sep a ha)

theorem covers_append (L : Lay) (t : TS) (cs ds : List Nat) :
    t.covers L (cs ++ ds) = (t.covers L cs).covers L ds := by simp [TS.covers]

theorem coverStep (G : L.Good) (o : t.Ok L) {q x : Nat} {pre : List Nat} (R : RowIn L t q)
    (hx : x ∈ q :: L.oth q) (hn : ((pre ++ [x]).map L.colOf).Nodup)
    (hs : ∀ y ∈ pre ++ [x], L.colOf y ∈ t.HR) :
    coverColumn (t.covers L (pre.map L.colOf)).h x = .ok (t.covers L ((pre ++ [x]).map L.colOf)).h := by
  rw [List.map_append, List.nodup_append] at hn
  have P := covers_spec G (pre.map L.colOf) t o hn.1 (by
    intro c hc; simp only [List.mem_map] at hc; obtain ⟨y, hy, rfl⟩ := hc; exact hs y (by simp [hy]))
  have R' := R.seq P
  rw [coverColumn_eq (toHeader_cell (R'.live x hx) (R'.hdr x hx) (R.nz x hx))]
  rw [P.ok.cover_exec G, List.map_append, covers_append]
  · rfl
  · rw [P.hr]
    refine ⟨hs x (by simp), fun h => ?_⟩
    exact hn.2.2 _ h _ (by simp) rfl

theorem coverRow_exec (G : L.Good) (o : t.Ok L) {q : Nat} (R : RowIn L t q)
    (hs : ∀ x ∈ L.oth q, L.colOf x ∈ t.HR) :
    forSkip1 .right t.h q coverColumn = .ok (t.covers L ((L.oth q).map L.colOf)).h := by
  have nd := G.cols_nodup R.node
  simp only [List.map_cons, List.nodup_cons] at nd
  have key := forSkip1_spec .right q (L.oth q) coverColumn
    (fun pre s => s = (t.covers L (pre.map L.colOf)).h) (G.nz_row R.node)
    (List.nodup_cons.1 (G.nd q R.node)).1 t.h rfl (R.live q (by simp)) R.ring.first ?_
  · obtain ⟨h', e, I⟩ := key; rw [e, I]
  · rintro pre x post s hO rfl
    have hx : x ∈ L.oth q := by rw [hO]; simp
    have n2 : ((pre ++ [x]).map L.colOf).Nodup := by
      have := nd.2
      rw [hO, show pre ++ x :: post = (pre ++ [x]) ++ post by simp, List.map_append] at this
      exact this.of_append_left
    have hs2 : ∀ y ∈ pre ++ [x], L.colOf y ∈ t.HR := by
      intro y hy; apply hs; rw [hO]; simp at hy ⊢; tauto
    have P := covers_spec G (pre.map L.colOf) t o
      (by rw [List.map_append] at n2; exact n2.of_append_left)
      (by intro c hc; simp only [List.mem_map] at hc; obtain ⟨y, hy, rfl⟩ := hc; exact hs2 y (by simp [hy]))
    have R' := R.seq P
    refine ⟨R'.live x (by simp [hx]), ?_, _, coverStep G o R (by simp [hx]) n2 hs2, rfl⟩
    have := R'.ring; rw [hO] at this; exact this.next

theorem coverRowAll_exec (G : L.Good) (o : t.Ok L) {q : Nat} (R : RowIn L t q)
    (hs : ∀ x ∈ q :: L.oth q, L.colOf x ∈ t.HR) :
    forAll .right t.h q coverColumn = .ok (t.covers L ((q :: L.oth q).map L.colOf)).h := by
  have nd := G.cols_nodup R.node
  have key := forAll_spec .right q (L.oth q) coverColumn
    (fun pre s => s = (t.covers L (pre.map L.colOf)).h) (G.nz_row R.node)
    (List.nodup_cons.1 (G.nd q R.node)).1 t.h rfl ?_
  · obtain ⟨h', e, I⟩ := key; rw [e, I]
  · rintro pre x post s hO rfl
    have hx : x ∈ q :: L.oth q := by rw [hO]; simp
    have n2 : ((pre ++ [x]).map L.colOf).Nodup := by
      have := nd
      rw [hO, show pre ++ x :: post = (pre ++ [x]) ++ post by simp, List.map_append] at this
      exact this.of_append_left
    have hs2 : ∀ y ∈ pre ++ [x], L.colOf y ∈ t.HR := by
      intro y hy; apply hs; rw [hO]; simp at hy ⊢; tauto
    have P := covers_spec G (pre.map L.colOf) t o
      (by rw [List.map_append] at n2; exact n2.of_append_left)
      (by intro c hc; simp only [List.mem_map] at hc; obtain ⟨y, hy, rfl⟩ := hc; exact hs2 y (by simp [hy]))
    have R' := R.seq P
    refine ⟨R'.live x hx, ?_, _, coverStep G o R hx n2 hs2, rfl⟩
    cases pre with
    | nil =>
      simp at hO; obtain ⟨rfl, hO⟩ := hO
      rw [← hO]; exact R'.ring.first
    | cons y pre =>
      simp only [List.cons_append, List.cons.injEq] at hO
      have := R'.ring; rw [hO.2] at this; exact this.next

theorem uncoverRow_exec (G : L.Good) (o : t.Ok L) {q : Nat} (R : RowIn L t q)
    (hs : ∀ x ∈ L.oth q, L.colOf x ∈ t.HR) :
    forSkip1 .left (t.covers L ((L.oth q).map L.colOf)).h q uncoverColumn = .ok t.h := by
  have nd := G.cols_nodup R.node
  simp only [List.map_cons, List.nodup_cons] at nd
  have PP : ∀ r r', L.oth q = r ++ r' → SeqPost L t (r.map L.colOf) (t.covers L (r.map L.colOf)) := by
    intro r r' e
    apply covers_spec G _ t o
    · have := nd.2; rw [e, List.map_append] at this; exact this.of_append_left
    · intro c hc; simp only [List.mem_map] at hc; obtain ⟨y, hy, rfl⟩ := hc
      apply hs; rw [e]; simp [hy]
  have R0 := R.seq (PP (L.oth q) [] (by simp))
  have nzr : 0 ∉ q :: (L.oth q).reverse := by
    have := G.nz_row R.node; simp at this ⊢; exact this
  have key := forSkip1_spec .left q (L.oth q).reverse uncoverColumn
    (fun pre s => ∃ r, L.oth q = r ++ pre.reverse ∧ s = (t.covers L (r.map L.colOf)).h) nzr
    (by simpa using (List.nodup_cons.1 (G.nd q R.node)).1) _ ⟨L.oth q, by simp, rfl⟩
    (R0.live q (by simp)) R0.ring.reverse.first ?_
  · obtain ⟨h', e, r, h1, h2⟩ := key
    have : r = [] := by rw [List.reverse_reverse] at h1; simpa using h1
    subst this
    rw [e, h2]; rfl
  · rintro pre x post s hO ⟨r, hr, rfl⟩
    have hO' : L.oth q = post.reverse ++ x :: pre.reverse := by
      have := congrArg List.reverse hO; simpa using this
    have hrest : r = post.reverse ++ [x] := by
      rw [hO'] at hr
      have h3 : post.reverse ++ [x] ++ pre.reverse = r ++ pre.reverse := by simpa using hr
      exact (List.append_cancel_right h3).symm
    subst hrest
    have hx : x ∈ L.oth q := by rw [hO']; simp
    have P1 := PP _ _ hr
    have P2 := PP post.reverse (x :: pre.reverse) hO'
    have R' := R.seq P1
    refine ⟨R'.live x (by simp [hx]), ?_, (t.covers L (post.reverse.map L.colOf)).h, ?_, post.reverse,
      by simp [hO'], rfl⟩
    · have := R'.ring.reverse; rw [hO] at this; exact this.next
    · rw [uncoverColumn_eq (toHeader_cell (R'.live x (by simp [hx])) (R'.hdr x (by simp [hx]))
        (R.nz x (by simp [hx])))]
      rw [List.map_append, covers_append]
      apply P2.ok.uncover_exec G
      rw [P2.hr]
      refine ⟨hs x hx, fun h => ?_⟩
      have := nd.2
      rw [hO', List.map_append, List.nodup_append] at this
      exact this.2.2 _ h _ (by simp) rfl

/-! ### Freeing the columns of a chosen row -/

theorem freeRows_exec (G : L.Good) (o : t.Ok L) {c q : Nat} (hc : c ∈ t.HR) (hq : q ∈ t.V c) {s : Heap}
    (hs : ∀ p, p ≠ L.root → ¬ (t.covers L (c :: (L.oth q).map L.colOf)).Act p →
      s.mem p = (t.covers L (c :: (L.oth q).map L.colOf)).h.mem p) :
    ∃ s' s'', forSkip1 .right s q freeChain = .ok s' ∧
      (∀ p, p = c ∨ p = q → freeChain s' p = .ok s'') ∧ s''.next = s.next ∧
      ∀ p, (t.Act p → ¬ (t.covers L (c :: (L.oth q).map L.colOf)).Act p → s''.mem p = .freed) ∧
        ((¬ t.Act p ∨ (t.covers L (c :: (L.oth q).map L.colOf)).Act p) → s''.mem p = s.mem p) := by
  have Rq := o.rowIn G hc hq
  have nd := G.cols_nodup Rq.node
  rw [List.map_cons, o.core.col c hc q hq] at nd
  have hcs : ∀ d ∈ c :: (L.oth q).map L.colOf, d ∈ t.HR := by
    intro d hd
    simp only [List.mem_cons, List.mem_map] at hd
    rcases hd with rfl | ⟨x, hx, rfl⟩
    · exact hc
    · exact (o.closed hc hq (by simp [hx])).1
  have P := covers_spec G _ t o nd hcs
  set t' := t.covers L (c :: (L.oth q).map L.colOf) with ht'
  have R' := Rq.seq P
  have Vc : t'.V c = t.V c := P.first c _ rfl
  have rr : ∀ d ∈ c :: (L.oth q).map L.colOf, ∀ p ∈ rem L d (t'.V d), s.mem p = t'.h.mem p := by
    intro d hd p hp
    refine hs p ?_ (P.gone d hd p hp)
    rintro rfl
    have ha : t.Act L.root := (P.act _).2 (Or.inr ⟨d, hd, hp⟩)
    rcases ha with h | ⟨c', hc', h⟩
    · exact (List.nodup_cons.1 o.core.ndH).1 h
    · exact o.core.c_ne_q (by simp) hc' h rfl
  have z : ∀ d ∈ c :: (L.oth q).map L.colOf, 0 ∉ rem L d (t'.V d) := by
    intro d hd h0
    have ha : t.Act 0 := (P.act _).2 (Or.inr ⟨d, hd, h0⟩)
    rcases ha with h | ⟨c', hc', h⟩
    · exact o.core.c_ne_zero h rfl
    · exact G.nz 0 (o.core.isN c' hc' 0 h) rfl
  have inc : ∀ x ∈ q :: L.oth q, x ∈ rem L c (t'.V c) := by
    intro x hx; rw [Vc, mem_rem]; exact Or.inr ⟨q, hq, hx⟩
  -- memory of the row itself
  have key := forSkip1_spec .right q (L.oth q) freeChain
    (fun pre s' => s'.next = s.next ∧ ∀ p, s'.mem p =
      if ∃ x ∈ pre, p ∈ rem L (L.colOf x) (t'.V (L.colOf x)) then .freed else s.mem p) (G.nz_row Rq.node)
    (List.nodup_cons.1 (G.nd q Rq.node)).1 s ⟨rfl, by simp⟩
    ((live_congr (rr c (by simp) q (inc q (by simp)))).2 (R'.live q (by simp)))
    (by rw [node_congr (rr c (by simp) q (inc q (by simp)))]; exact R'.ring.first) ?_
  · obtain ⟨s', e, I1, I2⟩ := key
    have hm : ∀ p ∈ rem L c (t'.V c), s'.mem p = t'.h.mem p := by
      intro p hp
      rw [I2 p, if_neg, rr c (by simp) p hp]
      rintro ⟨x, hx, hpx⟩
      refine P.disj c (by simp) (L.colOf x) (by simp only [List.mem_cons, List.mem_map]; exact Or.inr ⟨x, hx, rfl⟩) ?_ p
        ⟨hp, hpx⟩
      intro e'
      simp only [List.nodup_cons, List.mem_map, not_exists, not_and] at nd
      exact nd.1 x hx e'.symm
    have M : Mid L c (t'.V c) s' := (P.mid c (by simp)).congr hm
    obtain ⟨s'', e2, f1, f2⟩ := freeHd_spec M (P.nodup c (by simp)) (z c (by simp))
    refine ⟨s', s'', e, ?_, f1.trans I1, ?_⟩
    · intro p hp
      rw [freeChain_eq (c := c), e2]
      rcases hp with rfl | rfl
      · apply toHeader_hdr M.live
        rw [node_congr (hm p (by simp [rem])), P.header]
        exact o.core.hdr0 p hc
      · have := R'.hdr p (by simp)
        rw [o.core.col c hc p hq] at this
        apply toHeader_cell _ _ (o.core.c_ne_zero hc)
        · rw [live_congr (hm p (inc p (by simp)))]; exact R'.live p (by simp)
        · rw [node_congr (hm p (inc p (by simp)))]; exact this
    · intro p
      have hA := P.act p
      constructor
      · intro h1 h2
        rcases hA.1 h1 with h | ⟨d, hd, h⟩
        · exact absurd h h2
        · simp only [List.mem_cons, List.mem_map] at hd
          rw [f2 p]
          rcases hd with rfl | ⟨x, hx, rfl⟩
          · rw [if_pos h]
          · split_ifs
            · rfl
            · rw [I2 p, if_pos ⟨x, hx, h⟩]
      · intro h
        have hnot : ∀ d ∈ c :: (L.oth q).map L.colOf, p ∉ rem L d (t'.V d) := by
          intro d hd hp
          rcases h with h | h
          · exact h (hA.2 (Or.inr ⟨d, hd, hp⟩))
          · exact P.gone d hd p hp h
        rw [f2 p, if_neg (hnot c (by simp)), I2 p, if_neg]
        rintro ⟨x, hx, hp⟩
        exact hnot (L.colOf x) (by simp only [List.mem_cons, List.mem_map]; exact Or.inr ⟨x, hx, rfl⟩) hp
  · rintro pre x post s' hO ⟨I1, I2⟩
    have hx : x ∈ L.oth q := by rw [hO]; simp
    have nd2 : ∀ y ∈ pre, L.colOf y ≠ L.colOf x := by
      intro y hy e
      have hy' : y ∈ L.oth q := by rw [hO]; simp [hy]
      have := G.colInj q Rq.node y (by simp [hy']) x (by simp [hx]) e
      subst this
      have n3 := (List.nodup_cons.1 (G.nd q Rq.node)).2
      rw [hO, List.nodup_append] at n3
      exact n3.2.2 y hy y (by simp) rfl
    have incs : ∀ y ∈ L.oth q, L.colOf y ∈ c :: (L.oth q).map L.colOf := by
      intro y hy; simp only [List.mem_cons, List.mem_map]; exact Or.inr ⟨y, hy, rfl⟩
    have hmx : ∀ y ∈ q :: L.oth q, s'.mem y = t'.h.mem y := by
      intro y hy
      rw [I2 y, if_neg, rr c (by simp) y (inc y hy)]
      rintro ⟨w, hw, hyw⟩
      have hw' : w ∈ L.oth q := by rw [hO]; simp [hw]
      refine P.disj c (by simp) (L.colOf w) (incs w hw') ?_ y ⟨inc y hy, hyw⟩
      intro e'
      simp only [List.nodup_cons, List.mem_map, not_exists, not_and] at nd
      exact nd.1 w hw' e'.symm
    have hm : ∀ p ∈ rem L (L.colOf x) (t'.V (L.colOf x)), s'.mem p = t'.h.mem p := by
      intro p hp
      rw [I2 p, if_neg, rr _ (incs x hx) p hp]
      rintro ⟨w, hw, hyw⟩
      have hw' : w ∈ L.oth q := by rw [hO]; simp [hw]
      exact P.disj _ (incs x hx) (L.colOf w) (incs w hw') (nd2 w hw).symm p ⟨hp, hyw⟩
    have M : Mid L (L.colOf x) (t'.V (L.colOf x)) s' := (P.mid _ (incs x hx)).congr hm
    obtain ⟨s'', e2, f1, f2⟩ := freeHd_spec M (P.nodup _ (incs x hx)) (z _ (incs x hx))
    have lx : s'.Live x := (live_congr (hmx x (by simp [hx]))).2 (R'.live x (by simp [hx]))
    refine ⟨lx, ?_, s'', ?_, f1.trans I1, ?_⟩
    · rw [node_congr (hmx x (by simp [hx]))]
      have := R'.ring; rw [hO] at this; exact this.next
    · rw [freeChain_eq (toHeader_cell lx
        (by rw [node_congr (hmx x (by simp [hx]))]; exact R'.hdr x (by simp [hx])) (Rq.nz x (by simp [hx])))]
      exact e2
    · intro p
      rw [f2 p, I2 p]
      by_cases h1 : p ∈ rem L (L.colOf x) (t'.V (L.colOf x))
      · rw [if_pos h1, if_pos ⟨x, by simp, h1⟩]
      · rw [if_neg h1]
        congr 1
        simp only [List.mem_append, List.mem_singleton, eq_iff_iff]
        constructor
        · rintro ⟨y, hy, h⟩; exact ⟨y, Or.inl hy, h⟩
        · rintro ⟨y, hy | rfl, h⟩
          · exact ⟨y, hy, h⟩
          · exact absurd h h1

/-! ### Abstract exact cover -/

/-- `S` (row indices) covers every active column exactly once, using active rows only. -/
structure ExC (L : Lay) (t : TS) (S : List Nat) : Prop where
  nd : S.Nodup
  act : ∀ r ∈ S, ∃ c ∈ t.HR, ∃ q ∈ t.V c, L.rid q = r
  one : ∀ c ∈ t.HR, ∃ q ∈ t.V c, L.rid q ∈ S ∧ ∀ q' ∈ t.V c, L.rid q' ∈ S → q' = q

section
variable (G : L.Good) (o : t.Ok L) {c q : Nat} (hc : c ∈ t.HR) (hq : q ∈ t.V c) {t' : TS}
  (P : SeqPost L t ((q :: L.oth q).map L.colOf) t')
include G o hc hq P

theorem exC_extend {S : List Nat} (E : ExC L t' S) : ExC L t (L.rid q :: S) := by
  have Nq := o.core.isN c hc q hq
  have back : ∀ r ∈ S, ∃ c ∈ t.HR, ∃ x ∈ t.V c, L.rid x = r ∧
      ∀ y ∈ x :: L.oth x, L.colOf y ∉ (q :: L.oth q).map L.colOf := by
    intro r hr
    obtain ⟨c', hc', x, hx, e⟩ := E.act r hr
    have := (P.vmem c' hc' x).1 hx
    exact ⟨c', ((P.hr c').1 hc').1, x, this.1, e, this.2⟩
  have ridS : ∀ c' ∈ t.HR, ∀ x ∈ t.V c', L.rid x ∈ S →
      ∀ y ∈ x :: L.oth x, L.colOf y ∉ (q :: L.oth q).map L.colOf := by
    intro c' hc' x hx hr
    obtain ⟨c3, hc3, x3, hx3, e, h⟩ := back _ hr
    have N3 := o.core.isN c3 hc3 x3 hx3
    have Nx := o.core.isN c' hc' x hx
    have m := (G.ridEq x3 x N3 Nx).1 e
    intro y hy
    apply h
    simp only [List.mem_cons] at m
    rcases m with rfl | m
    · exact hy
    · exact (G.sym x3 N3 x m y).1 hy
  have notq : L.rid q ∉ S := by
    intro h
    have := ridS c hc q hq h q (by simp)
    apply this; simp
  refine ⟨List.nodup_cons.2 ⟨notq, E.nd⟩, ?_, ?_⟩
  · intro r hr
    simp only [List.mem_cons] at hr
    rcases hr with rfl | hr
    · exact ⟨c, hc, q, hq, rfl⟩
    · obtain ⟨c', hc', x, hx, e, _⟩ := back r hr
      exact ⟨c', hc', x, hx, e⟩
  · intro c' hc'
    by_cases hin : c' ∈ (q :: L.oth q).map L.colOf
    · simp only [List.mem_map] at hin
      obtain ⟨x, hx, rfl⟩ := hin
      have cl := o.closed hc hq hx
      have Nx := o.isN G hc hq hx
      refine ⟨x, cl.2, ?_, ?_⟩
      · rw [(G.ridEq q x Nq Nx).2 hx]; simp
      · intro q' hq' hr
        have Nq' := o.core.isN _ hc' q' hq'
        simp only [List.mem_cons] at hr
        rcases hr with hr | hr
        · have := (G.ridEq q q' Nq Nq').1 hr.symm
          exact G.colInj q Nq q' this x hx (o.core.col _ hc' q' hq')
        · exfalso
          apply ridS _ hc' q' hq' hr q' (by simp)
          rw [o.core.col _ hc' q' hq']
          exact List.mem_map_of_mem hx
    · have hc2 : c' ∈ t'.HR := (P.hr c').2 ⟨hc', hin⟩
      obtain ⟨x, hx, hr, hu⟩ := E.one c' hc2
      refine ⟨x, P.sub _ _ hx, by simp [hr], ?_⟩
      intro q' hq' hr'
      have Nq' := o.core.isN _ hc' q' hq'
      simp only [List.mem_cons] at hr'
      rcases hr' with h | h
      · exfalso
        have := (G.ridEq q q' Nq Nq').1 h.symm
        apply hin
        rw [← o.core.col _ hc' q' hq']
        exact List.mem_map_of_mem this
      · exact hu q' ((P.vmem c' hc2 q').2 ⟨hq', ridS c' hc' q' hq' h⟩) h

theorem exC_restrict {S : List Nat} (E : ExC L t S) (hr : L.rid q ∈ S) : ExC L t' (S.erase (L.rid q)) := by
  have Nq := o.core.isN c hc q hq
  -- a row of `S` other than `q`'s meets none of `q`'s columns
  have key : ∀ c' ∈ t.HR, ∀ x ∈ t.V c', L.rid x ∈ S → L.rid x ≠ L.rid q →
      ∀ y ∈ x :: L.oth x, L.colOf y ∉ (q :: L.oth q).map L.colOf := by
    intro c' hc' x hx hxS hne y hy hin
    simp only [List.mem_map] at hin
    obtain ⟨w, hw, e⟩ := hin
    have cy := o.closed hc' hx hy
    have cw := o.closed hc hq hw
    have Nx := o.core.isN _ hc' x hx
    have Ny := o.isN G hc' hx hy
    have Nw := o.isN G hc hq hw
    have ry : L.rid y = L.rid x := ((G.ridEq x y Nx Ny).2 hy).symm
    have rw' : L.rid w = L.rid q := ((G.ridEq q w Nq Nw).2 hw).symm
    obtain ⟨z, _, _, hu⟩ := E.one _ cy.1
    have h1 := hu y cy.2 (by rw [ry]; exact hxS)
    have h2 := hu w (e ▸ cw.2) (by rw [rw']; exact hr)
    apply hne
    rw [← ry, ← rw', h1, h2]
  refine ⟨E.nd.erase _, ?_, ?_⟩
  · intro r hr'
    rw [E.nd.mem_erase_iff] at hr'
    obtain ⟨c', hc', x, hx, rfl⟩ := E.act r hr'.2
    have k := key c' hc' x hx hr'.2 hr'.1
    have hcin : c' ∈ t'.HR := (P.hr c').2 ⟨hc', by
      have := k x (by simp); rwa [o.core.col c' hc' x hx] at this⟩
    exact ⟨c', hcin, x, (P.vmem c' hcin x).2 ⟨hx, k⟩, rfl⟩
  · intro c' hc2
    obtain ⟨hc', hnin⟩ := (P.hr c').1 hc2
    obtain ⟨x, hx, hxS, hu⟩ := E.one c' hc'
    have hne : L.rid x ≠ L.rid q := by
      intro e
      have := (G.ridEq q x Nq (o.core.isN _ hc' x hx)).1 e.symm
      apply hnin
      rw [← o.core.col _ hc' x hx]
      exact List.mem_map_of_mem this
    refine ⟨x, (P.vmem c' hc2 x).2 ⟨hx, key c' hc' x hx hxS hne⟩, ?_, ?_⟩
    · rw [E.nd.mem_erase_iff]; exact ⟨hne, hxS⟩
    · intro q' hq' hr'
      exact hu q' (P.sub _ _ hq') (List.mem_of_mem_erase hr')
end

/-! ### Choosing a column -/

theorem isEmpty_spec (o : t.Ok L) : isEmpty t.h L.root = .ok (decide (t.HR = [])) := by
  unfold isEmpty
  rw [read_ok o.core.liveR]
  simp only [Prog.ok_bind, Prog.pure_eq]
  have h := o.core.hring.first
  simp only [Node.get] at h
  congr 1
  rw [decide_eq_decide]
  cases hH : t.HR with
  | nil => simp [hH] at h; simp [h]
  | cons c l =>
    simp [hH] at h
    have := o.core.ndH
    rw [hH] at this
    simp only [List.nodup_cons, List.mem_cons, not_or] at this
    simp [h]; exact Ne.symm this.1.1

/-- `min_by` picks the first column of least size. -/
theorem chooseColumn_spec (o : t.Ok L) (hne : t.HR ≠ []) :
    ∃ c, chooseColumn t.h L.root = .ok c ∧ c ∈ t.HR ∧ firstShortest (t.abs L) = some ((t.V c).map L.rid) := by
  unfold chooseColumn
  have nd := List.nodup_cons.1 o.core.ndH
  have n0 := o.core.nzH
  simp only [List.mem_cons, not_or] at n0
  rw [iterSkip1_ok o.core.liveR (Ne.symm n0.1) nd.1 o.core.hring.first]
  simp only [Prog.ok_bind]
  have key := forIter_spec (Prod.fst : Heap × Option Nat → Heap) .right L.root t.HR
    pickMin
    (fun pre s => s.1 = t.h ∧ (pre = [] ∧ s.2 = none ∨ ∃ p1 b p2, pre = p1 ++ b :: p2 ∧ s.2 = some b ∧
      (∀ d ∈ p1, (t.h.node b).row < (t.h.node d).row) ∧ ∀ d ∈ p2, (t.h.node b).row ≤ (t.h.node d).row)) n0.2
    (fun h => nd.1 (List.mem_of_mem_tail h)) ?_ (t.h, none) ⟨rfl, Or.inl ⟨rfl, rfl⟩⟩
  · obtain ⟨s, e, I1, I2⟩ := key
    rcases I2 with ⟨h, _⟩ | ⟨p1, b, p2, hp, e2, hm1, hm2⟩
    · exact absurd h hne
    · have hb : b ∈ t.HR := by rw [hp]; simp
      refine ⟨b, ?_, hb, ?_⟩
      · rw [e]; simp [e2]
      · have e3 : t.abs L = (p1.map fun c => (t.V c).map L.rid) ++ (t.V b).map L.rid ::
            (p2.map fun c => (t.V c).map L.rid) := by
          unfold TS.abs
          rw [hp]; simp
        rw [e3]
        apply firstShortest_split
        · intro d hd
          simp only [List.mem_map] at hd
          obtain ⟨x, hx, rfl⟩ := hd
          have := hm1 x hx
          rw [o.core.cnt b hb, o.core.cnt x (by rw [hp]; simp [hx])] at this
          simpa using this
        · intro d hd
          simp only [List.mem_map] at hd
          obtain ⟨x, hx, rfl⟩ := hd
          have := hm2 x hx
          rw [o.core.cnt b hb, o.core.cnt x (by rw [hp]; simp [hx])] at this
          simpa using this
  · rintro pre x post ⟨h, best⟩ hH ⟨h1, I⟩
    simp only at h1; subst h1
    have hx : x ∈ t.HR := by rw [hH]; simp
    refine ⟨o.core.liveH x hx, ?_, ?_⟩
    · have := o.core.hring; rw [hH] at this; exact this.next
    · rcases I with ⟨rfl, h2⟩ | ⟨p1, b, p2, hp, h2, hm1, hm2⟩
      · simp only at h2; subst h2
        refine ⟨(t.h, some x), rfl, rfl, Or.inr ⟨[], x, [], by simp, rfl, by simp, by simp⟩⟩
      · simp only at h2; subst h2
        have hb' : b ∈ t.HR := by rw [hH, hp]; simp
        by_cases hle : (t.h.node b).row ≤ (t.h.node x).row
        · refine ⟨(t.h, some b), by simp [pickMin, hle, read_ok (o.core.liveH b hb'), read_ok (o.core.liveH x hx)], rfl,
            Or.inr ⟨p1, b, p2 ++ [x], by simp [hp], rfl, hm1, ?_⟩⟩
          intro d hd
          simp only [List.mem_append, List.mem_singleton] at hd
          rcases hd with hd | rfl
          · exact hm2 d hd
          · exact hle
        · refine ⟨(t.h, some x), by simp [pickMin, hle, read_ok (o.core.liveH b hb'), read_ok (o.core.liveH x hx)], rfl,
            Or.inr ⟨p1 ++ b :: p2, x, [], by simp [hp], rfl, ?_, by simp⟩⟩
          intro d hd
          simp only [List.mem_append, List.mem_cons] at hd
          rcases hd with hd | rfl | hd
          · have := hm1 d hd; omega
          · omega
          · have := hm2 d hd; omega

/-! ### The search -/

/-- Heap after a successful search from `t`. -/
structure Freed (L : Lay) (t : TS) (h' : Heap) : Prop where
  next : h'.next = t.h.next
  freed : ∀ p, t.Act p → h'.mem p = .freed
  keep : ∀ p, p ≠ L.root → ¬ t.Act p → h'.mem p = t.h.mem p
  live : h'.Live L.root
  right : (h'.node L.root).right = L.root
  down : (h'.node L.root).down = (t.h.node L.root).down

/-- What `solveHelper` computes from the state `t`. -/
def Outcome (L : Lay) (t : TS) (ps : List Nat) (r : Prog (Bool × Heap × List Nat)) : Prop :=
  (∃ S h', r = .ok (true, h', ps ++ S) ∧ ExC L t S ∧ Freed L t h' ∧
    ∀ n, t.HR.length ≤ n → search n (t.abs L) = some S) ∨
  (r = .ok (false, t.h, ps) ∧ (¬ ∃ S, ExC L t S) ∧ ∀ n, t.HR.length ≤ n → search n (t.abs L) = none)

theorem solveRows_spec (G : L.Good) (o : t.Ok L) {c : Nat} (hc : c ∈ t.HR)
    (ih : ∀ t' : TS, t'.Ok L → t'.HR.length < t.HR.length → ∀ ps, Outcome L t' ps (solveHelper L.root t'.h ps))
    (ps : List Nat) : ∀ post pre, t.V c = pre ++ post →
      (∃ S h', solveRows L.root c (iterAt c post) (t.cover L c).h ps = .ok (true, h', ps ++ S) ∧
        ExC L t S ∧ Freed L t h' ∧ ∀ n, t.HR.length ≤ n + 1 →
          (post.map L.rid).findSome? (fun r => (search n (residual (t.abs L) [r])).map (r :: ·)) = some S) ∨
      (solveRows L.root c (iterAt c post) (t.cover L c).h ps = .ok (false, t.h, ps) ∧
        (∀ q ∈ post, ¬ ∃ S, ExC L t S ∧ L.rid q ∈ S) ∧ ∀ n, t.HR.length ≤ n + 1 →
          (post.map L.rid).findSome? (fun r => (search n (residual (t.abs L) [r])).map (r :: ·)) = none) := by
  have F := o.frame G hc
  have M := o.mid G hc
  intro post
  induction post with
  | nil =>
    intro pre _
    right
    refine ⟨?_, by simp, by simp⟩
    rw [solveRows, next_nil]
    simp only [Prog.ok_bind]
    rw [uncoverColumn_eq (toHeader_hdr M.live (by rw [F.header]; exact o.core.hdr0 c hc)),
      o.uncover_exec G hc]
    rfl
  | cons q post ihp =>
    intro pre hV
    have hq : q ∈ t.V c := by rw [hV]; simp
    have Nq := o.core.isN c hc q hq
    have Rq := o.rowIn G hc hq
    have o1 := o.cover G hc
    have nd := G.cols_nodup Nq
    have ecol : (q :: L.oth q).map L.colOf = c :: (L.oth q).map L.colOf := by
      rw [List.map_cons, o.core.col c hc q hq]
    have P1 := covers_spec G [c] t o (by simp) (by simpa using hc)
    have R1 : RowIn L (t.cover L c) q := Rq.seq P1
    have hs1 : ∀ x ∈ L.oth q, L.colOf x ∈ (t.cover L c).HR := by
      intro x hx
      refine (List.mem_erase_of_ne ?_).2 (o.closed hc hq (by simp [hx])).1
      have := G.col_ne Nq hx
      rwa [o.core.col c hc q hq] at this
    have P := covers_spec G ((q :: L.oth q).map L.colOf) t o nd (by
      intro d hd; simp only [List.mem_map] at hd
      obtain ⟨x, hx, rfl⟩ := hd; exact (o.closed hc hq hx).1)
    have et : (t.cover L c).covers L ((L.oth q).map L.colOf) = t.covers L ((q :: L.oth q).map L.colOf) := by
      rw [ecol]; rfl
    have hlt : (t.covers L ((q :: L.oth q).map L.colOf)).HR.length < t.HR.length := by
      have := P.len; simp only [List.map_cons, List.length_cons] at this ⊢; omega
    have hcpost : c ∉ post := by
      have := (List.nodup_cons.1 (o.core.vnodup hc)).1
      rw [hV] at this; simp at this; tauto
    have hrow : ((t.cover L c).h.node q).row = L.rid q := by
      have := P1.row q (fun h => o.core.sep q (by simp [h]) Nq)
      exact this.trans (o.rows.rid c hc q hq)
    have hstep : solveRows L.root c (iterAt c (q :: post)) (t.cover L c).h ps =
        (do
          let (found, h, ps) ← solveHelper L.root (t.covers L ((q :: L.oth q).map L.colOf)).h (ps ++ [L.rid q])
          if found then
            let h ← forSkip1 .right h q freeChain
            let h ← freeChain h c
            return (true, h, ps)
          let h ← forSkip1 .left h q uncoverColumn
          let ps := ps.dropLast
          solveRows L.root c (iterAt c post) h ps) := by
      rw [solveRows, next_cons (R1.live q (by simp)) (G.nz q Nq) (by
        have := M.ring; rw [hV] at this; exact this.next) hcpost]
      simp only [Prog.ok_bind]
      rw [read_ok (R1.live q (by simp))]
      simp only [Prog.ok_bind]
      rw [coverRow_exec G o1 R1 hs1, et, hrow]
      rfl
    rw [hstep]
    rcases ih _ P.ok hlt (ps ++ [L.rid q]) with ⟨S, h', e, E, Fr, Sr⟩ | ⟨e, hno, Sr⟩
    · left
      have hkeep : ∀ p, p ≠ L.root → ¬ (t.covers L (c :: (L.oth q).map L.colOf)).Act p →
          h'.mem p = (t.covers L (c :: (L.oth q).map L.colOf)).h.mem p := by
        rw [← ecol]; exact Fr.keep
      obtain ⟨s', s'', e1, e2, e3, e4⟩ := freeRows_exec G o hc hq hkeep
      rw [← ecol] at e4
      have nroot : ¬ t.Act L.root := by
        rintro (h | ⟨c', hc', h⟩)
        · exact (List.nodup_cons.1 o.core.ndH).1 h
        · exact o.core.c_ne_q (by simp) hc' h rfl
      have emr : s''.mem L.root = h'.mem L.root := (e4 L.root).2 (Or.inl nroot)
      refine ⟨L.rid q :: S, s'', ?_, exC_extend G o hc hq P E, ?_, ?_⟩
      · rw [e]; simp [e1, e2 c (Or.inl rfl)]
      · refine ⟨e3.trans (Fr.next.trans P.next), ?_, ?_, ?_, ?_, ?_⟩
        · intro p hp
          by_cases h2 : (t.covers L ((q :: L.oth q).map L.colOf)).Act p
          · rw [(e4 p).2 (Or.inr h2), Fr.freed p h2]
          · exact (e4 p).1 hp h2
        · intro p hp hna
          rw [(e4 p).2 (Or.inl hna), Fr.keep p hp, P.mem p hp hna]
          intro h; exact hna ((P.act p).2 (Or.inl h))
        · rw [live_congr emr]; exact Fr.live
        · rw [node_congr emr]; exact Fr.right
        · rw [node_congr emr, Fr.down, P.rootD]
      · intro n hn
        rw [List.map_cons, List.findSome?_cons, ← abs_covers G o hc hq, Sr n (by omega)]
        rfl
    · have hrest : (do
          let (found, h, ps) ← solveHelper L.root (t.covers L ((q :: L.oth q).map L.colOf)).h (ps ++ [L.rid q])
          if found then
            let h ← forSkip1 .right h q freeChain
            let h ← freeChain h c
            return (true, h, ps)
          let h ← forSkip1 .left h q uncoverColumn
          let ps := ps.dropLast
          solveRows L.root c (iterAt c post) h ps) =
          solveRows L.root c (iterAt c post) (t.cover L c).h ps := by
        rw [e]
        simp only [Prog.ok_bind, Bool.false_eq_true, if_false]
        rw [← et, uncoverRow_exec G o1 R1 hs1]
        simp
      rw [hrest]
      have skip : ∀ n, t.HR.length ≤ n + 1 →
          ((q :: post).map L.rid).findSome? (fun r => (search n (residual (t.abs L) [r])).map (r :: ·)) =
          (post.map L.rid).findSome? (fun r => (search n (residual (t.abs L) [r])).map (r :: ·)) := by
        intro n hn
        rw [List.map_cons, List.findSome?_cons, ← abs_covers G o hc hq, Sr n (by omega)]
        rfl
      rcases ihp (pre ++ [q]) (by simp [hV]) with ⟨S, h', e1, e2, e3, e4⟩ | ⟨h1, h2, h3⟩
      · exact Or.inl ⟨S, h', e1, e2, e3, fun n hn => by rw [skip n hn]; exact e4 n hn⟩
      · right
        refine ⟨h1, ?_, fun n hn => by rw [skip n hn]; exact h3 n hn⟩
        intro x hx
        simp only [List.mem_cons] at hx
        rcases hx with rfl | hx
        · rintro ⟨S, E, hS⟩
          exact hno ⟨_, exC_restrict G o hc hq P E hS⟩
        · exact h2 x hx

/-- `solve_helper` from any well-formed state. -/
theorem solveHelper_spec (G : L.Good) : ∀ (n : Nat) (t : TS), t.Ok L → t.HR.length = n → ∀ ps,
    Outcome L t ps (solveHelper L.root t.h ps) := by
  intro n
  induction n using Nat.strongRecOn with
  | ind n ih =>
    intro t o hn ps
    rw [solveHelper, isEmpty_spec o]
    simp only [Prog.ok_bind]
    by_cases hE : t.HR = []
    · simp only [hE, decide_true, if_true]
      left
      refine ⟨[], t.h, by simp, ⟨by simp, by simp, by simp [hE]⟩, ⟨rfl, ?_, fun _ _ _ => rfl, o.core.liveR, ?_,
        rfl⟩, fun n _ => ?_⟩
      · rintro p (h | ⟨c, h, _⟩) <;> simp [hE] at h
      · have := o.core.hring.first
        simp only [Node.get, hE] at this
        simpa using this
      · cases n <;> simp [search, TS.abs, hE, firstShortest]
    · simp only [hE, decide_false, Bool.false_eq_true, if_false]
      obtain ⟨c, e, hc, fs⟩ := chooseColumn_spec o hE
      rw [e]
      simp only [Prog.ok_bind]
      rw [coverColumn_eq (toHeader_hdr (o.core.liveH c hc) (o.core.hdr0 c hc)), o.cover_exec G hc]
      simp only [Prog.ok_bind]
      have M := o.mid G hc
      rw [iterSkip1_ok M.live (o.core.c_ne_zero hc) (List.nodup_cons.1 (o.core.vnodup hc)).1 M.ring.first]
      simp only [Prog.ok_bind]
      rcases solveRows_spec G o hc (fun t' o' hlt ps => ih _ (hn ▸ hlt) t' o' rfl ps) ps (t.V c) [] rfl with
        ⟨S, h', e1, e2, e3, e4⟩ | ⟨h1, h2, h3⟩
      · refine Or.inl ⟨S, h', e1, e2, e3, fun n hn => ?_⟩
        cases n with
        | zero => exact absurd (List.length_eq_zero_iff.1 (by omega)) hE
        | succ n => simp only [search, fs]; exact e4 n hn
      · right
        refine ⟨h1, ?_, fun n hn => ?_⟩
        swap
        · cases n with
          | zero => exact absurd (List.length_eq_zero_iff.1 (by omega)) hE
          | succ n => simp only [search, fs]; exact h3 n hn
        rintro ⟨S, E⟩
        obtain ⟨q, hq, hr, _⟩ := E.one c hc
        exact h2 q hq ⟨S, E, hr⟩

/-! ### Drop -/

theorem drop_ok (nz : ∀ q, L.isNode q → q ≠ 0) (o : t.Ok L) (hd : (t.h.node L.root).down = L.root) (m : Matrix)
    (hm : m.root = L.root) : ∃ h', m.drop t.h = .ok h' ∧ h'.next = t.h.next ∧
      ∀ p, (p = L.root ∨ t.Act p → h'.mem p = .freed) ∧
        (¬ (p = L.root ∨ t.Act p) → h'.mem p = t.h.mem p) := by
  have nd := List.nodup_cons.1 o.core.ndH
  let W : Nat → List Nat := fun c => if c = L.root then [] else t.V c
  have Wr : W L.root = [] := by simp [W]
  have Wc : ∀ c ∈ t.HR, W c = t.V c := by
    intro c hc; simp only [W]; rw [if_neg]; rintro rfl; exact nd.1 hc
  have ring : ∀ c ∈ L.root :: t.HR, (∀ x ∈ c :: W c, t.h.Live x) ∧ 0 ∉ c :: W c ∧ (c :: W c).Nodup ∧
      ∀ pre x post, c :: W c = pre ++ x :: post → (t.h.node x).get .down = (post ++ [c]).head (by simp) := by
    intro c hc
    simp only [List.mem_cons] at hc
    rcases hc with rfl | hc
    · rw [Wr]
      refine ⟨by simpa using o.core.liveR, ?_, by simp, ?_⟩
      · have := o.core.nzH; simp at this ⊢; exact this.1
      · intro pre x post e
        cases pre with
        | nil => simp at e; obtain ⟨rfl, rfl⟩ := e; simpa [Node.get] using hd
        | cons y pre => simp at e
    · rw [Wc c hc]
      refine ⟨?_, by
        simp only [List.mem_cons, not_or]
        exact ⟨(o.core.c_ne_zero hc).symm, fun h => nz 0 (o.core.isN c hc 0 h) rfl⟩, o.core.vnodup hc, ?_⟩
      · intro x hx
        simp only [List.mem_cons] at hx
        rcases hx with rfl | hx
        · exact o.core.liveH _ hc
        · exact o.core.liveV _ hc _ hx
      · intro pre x post e
        cases pre with
        | nil => simp at e; obtain ⟨rfl, rfl⟩ := e; exact (o.core.vring c hc).first
        | cons y pre =>
          simp at e; obtain ⟨rfl, e⟩ := e
          have := o.core.vring c hc; rw [e] at this; exact this.next
  have disj : ∀ c ∈ L.root :: t.HR, ∀ c' ∈ L.root :: t.HR, c ≠ c' → ∀ x ∈ c :: W c, x ∉ c' :: W c' := by
    intro c hc c' hc' hne x hx hx'
    have f : ∀ d ∈ L.root :: t.HR, ∀ y ∈ d :: W d, y = d ∨ (d ∈ t.HR ∧ y ∈ t.V d) := by
      intro d hd y hy
      simp only [List.mem_cons] at hd
      rcases hd with rfl | hd
      · rw [Wr] at hy; left; simpa using hy
      · rw [Wc d hd] at hy
        simp only [List.mem_cons] at hy
        exact hy.imp_right fun h => ⟨hd, h⟩
    rcases f c hc x hx with rfl | ⟨h1, h2⟩
    · rcases f c' hc' x hx' with rfl | ⟨h3, h4⟩
      · exact hne rfl
      · exact o.core.sep x hc (o.core.isN _ h3 _ h4)
    · rcases f c' hc' x hx' with rfl | ⟨h3, h4⟩
      · exact o.core.sep x hc' (o.core.isN _ h1 _ h2)
      · exact hne ((o.core.col _ h1 _ h2).symm.trans (o.core.col _ h3 _ h4))
  unfold Matrix.drop
  rw [hm]
  have key := forAll_spec .right L.root t.HR (fun h header => forAll .down h header fun h node => h.dealloc node)
    (fun pre s => s = freeSet t.h (pre.flatMap fun c => c :: W c)) o.core.nzH nd.1 t.h
    (by simp [freeSet_nil]) ?_
  · obtain ⟨h', e, I⟩ := key
    refine ⟨h', e, by rw [I]; rfl, ?_⟩
    intro p
    have : p ∈ ((L.root :: t.HR).flatMap fun c => c :: W c) ↔ p = L.root ∨ t.Act p := by
      simp only [List.flatMap_cons, Wr, List.mem_append, List.mem_cons, List.not_mem_nil, or_false,
        List.mem_flatMap]
      refine or_congr Iff.rfl ?_
      constructor
      · rintro ⟨c, hc, rfl | h⟩
        · exact Or.inl hc
        · rw [Wc c hc] at h; exact Or.inr ⟨c, hc, h⟩
      · rintro (h | ⟨c, hc, h⟩)
        · exact ⟨p, h, Or.inl rfl⟩
        · exact ⟨c, hc, Or.inr (by rw [Wc c hc]; exact h)⟩
    rw [I]
    exact ⟨fun h => by simp only [freeSet]; rw [if_pos (this.2 h)],
      fun h => freeSet_mem fun h' => h (this.1 h')⟩
  · rintro pre c post s hH rfl
    have hc : c ∈ L.root :: t.HR := by rw [hH]; simp
    obtain ⟨r1, r2, r3, r4⟩ := ring c hc
    have hpre : ∀ x ∈ c :: W c, x ∉ pre.flatMap fun c => c :: W c := by
      intro x hx h
      simp only [List.mem_flatMap] at h
      obtain ⟨c', hc', h⟩ := h
      have hc'' : c' ∈ L.root :: t.HR := by rw [hH]; simp [hc']
      refine disj c hc c' hc'' ?_ x hx h
      rintro rfl
      have := o.core.ndH
      rw [hH, List.nodup_append] at this
      exact this.2.2 c hc' c (by simp) rfl
    have lc : (freeSet t.h (pre.flatMap fun c => c :: W c)).Live c :=
      (live_congr (freeSet_mem (hpre c (by simp)))).2 (r1 c (by simp))
    refine ⟨lc, ?_, ?_⟩
    · rw [node_congr (freeSet_mem (hpre c (by simp)))]
      cases pre with
      | nil => simp at hH; obtain ⟨rfl, hH⟩ := hH; rw [← hH]; exact o.core.hring.first
      | cons y pre =>
        simp at hH
        have := o.core.hring; rw [hH.2] at this; exact this.next
    · have key := forAll_spec .down c (W c) (fun h node => h.dealloc node)
        (fun pre' s => s = freeSet (freeSet t.h (pre.flatMap fun c => c :: W c)) pre') r2
        (List.nodup_cons.1 r3).1 (freeSet t.h (pre.flatMap fun c => c :: W c)) (by rw [freeSet_nil]) ?_
      · obtain ⟨h', e, I⟩ := key
        refine ⟨h', e, ?_⟩
        rw [I, freeSet_append]; simp
      · rintro pre' x post' s hW rfl
        have hx : x ∈ c :: W c := by rw [hW]; simp
        have hxp : x ∉ pre' := by
          intro h
          rw [hW, List.nodup_append] at r3
          exact r3.2.2 x h x (by simp) rfl
        have em : (freeSet (freeSet t.h (pre.flatMap fun c => c :: W c)) pre').mem x = t.h.mem x := by
          rw [freeSet_mem hxp, freeSet_mem (hpre x hx)]
        have lx := (live_congr em).2 (r1 x hx)
        refine ⟨lx, ?_, _, dealloc_free lx, by rw [freeSet_append]⟩
        rw [node_congr em]
        exact r4 pre' x post' hW

theorem drop_spec (G : L.Good) (o : t.Ok L) (hd : (t.h.node L.root).down = L.root) (m : Matrix)
    (hm : m.root = L.root) : ∃ h', m.drop t.h = .ok h' ∧ h'.next = t.h.next ∧
      ∀ p, (p = L.root ∨ t.Act p → h'.mem p = .freed) ∧
        (¬ (p = L.root ∨ t.Act p) → h'.mem p = t.h.mem p) := drop_ok G.nz o hd m hm

end DancingLinks
