import Verif.Proofs.DL.Work

/-! Helper lemmas: the work of covering, uncovering and freeing the columns of a row, of choosing a column and of `drop`. -/
namespace DancingLinks
open Spec

variable {L : Lay} {t : TS}

/-- A loop over a richer state whose turns do the same to the part `f`. -/
theorem forIter_forget {σ τ : Type} (hp : σ → Heap) (f : τ → σ) (d : Dir) (body : σ → Nat → Prog σ) (wbody : τ → Nat → Prog τ)
    (hb : ∀ t p t', wbody t p = .ok t' → body (f t) p = .ok (f t')) :
    ∀ it t t', forIter (fun t => hp (f t)) d it t wbody = .ok t' → forIter hp d it (f t) body = .ok (f t') := by
  apply forIter.fixpoint_induct (hp := fun t => hp (f t)) (d := d) (body := wbody)
    (motive := fun g => ∀ it t t', g it t = .ok t' → forIter hp d it (f t) body = .ok (f t'))
  · refine Lean.Order.admissible_pi_apply (α := Iter) (β := fun _ => τ → Prog τ)
      (fun it g => ∀ t t', g t = .ok t' → forIter hp d it (f t) body = .ok (f t')) fun it => ?_
    refine Lean.Order.admissible_pi_apply (α := τ) (β := fun _ => Prog τ)
      (fun t r => ∀ t', r = .ok t' → forIter hp d it (f t) body = .ok (f t')) fun s => ?_
    exact Lean.Order.admissible_flatOrder (b := (Prog.diverge : Prog τ)) _ (fun _ h => by cases h)
  · intro g hg it t t' e
    rw [forIter]
    rw [Prog.bind_eq_ok] at e
    obtain ⟨⟨x, it'⟩, e1, e⟩ := e
    rw [e1, Prog.ok_bind]
    cases x with
    | none =>
      simp only [Prog.pure_eq, Prog.ok.injEq] at e ⊢
      rw [e]
    | some p =>
      simp only [Prog.bind_eq_ok] at e ⊢
      obtain ⟨s, e2, e3⟩ := e
      exact ⟨f s, hb t p s e2, hg it' s t' e3⟩

/-- `w` does the same as `p` and counts. -/
def Forgets (w : Prog Work) (p : Prog Heap) : Prop := ∀ s, w = .ok s → p = .ok s.1

theorem workIter_forgets {d : Dir} {wb : Work → Nat → Prog Work} {b : Heap → Nat → Prog Heap}
    (hb : ∀ s p, Forgets (wb s p) (b s.1 p)) (it : Iter) (s : Work) : Forgets (workIter d it s wb) (forIter id d it s.1 b) := by
  intro s' e
  rw [workIter, Prog.bind_eq_ok] at e
  obtain ⟨u, e1, e2⟩ := e
  simp only [Prog.pure_eq, Prog.ok.injEq] at e2
  subst e2
  exact forIter_forget id Prod.fst d b (fun s p => wb (s.1, s.2 + 1) p) (fun t p t' h => hb (t.1, t.2 + 1) p t' h) it s u e1

theorem workSkip1_forgets {d : Dir} {wb : Work → Nat → Prog Work} {b : Heap → Nat → Prog Heap}
    (hb : ∀ s p, Forgets (wb s p) (b s.1 p)) (s : Work) (p : Nat) : Forgets (workSkip1 d s p wb) (forSkip1 d s.1 p b) := by
  intro s' e
  rw [workSkip1, Prog.bind_eq_ok] at e
  obtain ⟨it, e1, e2⟩ := e
  rw [forSkip1, e1, Prog.ok_bind]
  exact workIter_forgets hb it (s.1, s.2 + 1) s' e2

theorem workAll_forgets {d : Dir} {wb : Work → Nat → Prog Work} {b : Heap → Nat → Prog Heap}
    (hb : ∀ s p, Forgets (wb s p) (b s.1 p)) (s : Work) (p : Nat) : Forgets (workAll d s p wb) (forAll d s.1 p b) :=
  workIter_forgets hb _ s

theorem still_forgets (f : Heap → Nat → Prog Heap) (s : Work) (p : Nat) : Forgets (still f s p) (f s.1 p) := by
  intro s' e
  rw [still, Prog.bind_eq_ok] at e
  obtain ⟨h, e1, e2⟩ := e
  simp only [Prog.pure_eq, Prog.ok.injEq] at e2
  rw [e1, ← e2]

theorem workFreeRow_forgets (s : Work) (p : Nat) : Forgets (workFreeRow s p) (freeRow s.1 p) := by
  intro s' e
  rw [workFreeRow, Prog.bind_eq_ok] at e
  obtain ⟨u, e1, e2⟩ := e
  have h1 := workSkip1_forgets (fun s p => still_forgets Heap.dealloc s p) s p u e1
  rw [freeRow]
  show forSkip1 .right s.1 p Heap.dealloc >>= _ = _
  rw [h1, Prog.ok_bind]
  exact still_forgets _ u p s' e2

theorem workFree_forgets (s : Work) (p : Nat) : Forgets (workFree s p) (freeChain s.1 p) := by
  intro s' e
  rw [workFree, Prog.bind_eq_ok] at e
  obtain ⟨c, e0, e⟩ := e
  rw [Prog.bind_eq_ok] at e
  obtain ⟨u, e1, e2⟩ := e
  have h1 := workSkip1_forgets workFreeRow_forgets s c u e1
  rw [freeChain, e0, Prog.ok_bind, h1, Prog.ok_bind]
  exact still_forgets _ u c s' e2

theorem workDrop_forgets (m : Matrix) (s : Work) : Forgets (workDrop m s) (m.drop s.1) := by
  unfold workDrop Matrix.drop
  exact workAll_forgets (fun s p => workAll_forgets (fun s p => still_forgets Heap.dealloc s p) s p) s m.root

/-! ### The columns of a row -/

theorem workCoverStep (G : L.Good) (o : t.Ok L) {q x : Nat} {pre : List Nat} (R : RowIn L t q)
    (hx : x ∈ q :: L.oth q) (hn : ((pre ++ [x]).map L.colOf).Nodup)
    (hs : ∀ y ∈ pre ++ [x], L.colOf y ∈ t.HR) (k : Nat) :
    ∃ k', workCover ((t.covers L (pre.map L.colOf)).h, k + 1) x = .ok ((t.covers L ((pre ++ [x]).map L.colOf)).h, k') ∧
      k' + 4 * (t.covers L ((pre ++ [x]).map L.colOf)).W ≤ k + 4 * (t.covers L (pre.map L.colOf)).W := by
  rw [List.map_append, List.nodup_append] at hn
  have P := covers_spec G (pre.map L.colOf) t o hn.1 (by
    intro c hc; simp only [List.mem_map] at hc; obtain ⟨y, hy, rfl⟩ := hc; exact hs y (by simp [hy]))
  have R' := R.seq P
  have hc : L.colOf x ∈ (t.covers L (pre.map L.colOf)).HR := by
    rw [P.hr]
    refine ⟨hs x (by simp), fun h => ?_⟩
    exact hn.2.2 _ h _ (by simp) rfl
  rw [workCover_eq (toHeader_cell (R'.live x hx) (R'.hdr x hx) (R.nz x hx)), workCoverHd_spec G P.ok hc,
    List.map_append, covers_append]
  refine ⟨_, rfl, ?_⟩
  have h1 := P.ok.W_cover G hc
  have h2 := colWork_le (L := L) (L.colOf x) ((t.covers L (pre.map L.colOf)).V (L.colOf x))
  have h3 := length_rem (L := L) (L.colOf x) ((t.covers L (pre.map L.colOf)).V (L.colOf x))
  show _ + 4 * ((t.covers L (pre.map L.colOf)).cover L (L.colOf x)).W ≤ _
  omega

theorem workCoverRow (G : L.Good) (o : t.Ok L) {q : Nat} (R : RowIn L t q)
    (hs : ∀ x ∈ L.oth q, L.colOf x ∈ t.HR) (k : Nat) :
    ∃ k', workSkip1 .right (t.h, k) q workCover = .ok ((t.covers L ((L.oth q).map L.colOf)).h, k') ∧
      k' + 4 * (t.covers L ((L.oth q).map L.colOf)).W ≤ k + 2 + 4 * t.W := by
  have nd := G.cols_nodup R.node
  simp only [List.map_cons, List.nodup_cons] at nd
  have key := workSkip1_spec .right q (L.oth q) workCover
    (fun pre s => s.1 = (t.covers L (pre.map L.colOf)).h ∧ s.2 + 4 * (t.covers L (pre.map L.colOf)).W ≤ k + 1 + 4 * t.W)
    (G.nz_row R.node) (List.nodup_cons.1 (G.nd q R.node)).1 (t.h, k) ⟨rfl, Nat.le_refl _⟩ (R.live q (by simp)) R.ring.first ?_
  · obtain ⟨s', e, I, J⟩ := key
    refine ⟨s'.2 + 1, by rw [e, I], by omega⟩
  · rintro pre x post ⟨s, k'⟩ hO ⟨h1, h2⟩
    simp only at h1 h2
    subst h1
    have hx : x ∈ L.oth q := by rw [hO]; simp
    have n2 : ((pre ++ [x]).map L.colOf).Nodup := by
      have := nd.2
      rw [hO, show pre ++ x :: post = (pre ++ [x]) ++ post by simp, List.map_append] at this
      exact this.of_append_left
    have hs2 : ∀ y ∈ pre ++ [x], L.colOf y ∈ t.HR := by
      intro y hy; apply hs; rw [hO]; simp at hy ⊢; tauto
    have P := covers_spec G (pre.map L.colOf) t o
      (by rw [List.map_append] at n2; exact n2.of_append_left)
      (by intro c hc; simp only [List.mem_map] at hc; obtain ⟨y, hy, rfl⟩ := hc; exact hs2 y (by simp [hy]))
    have R' := R.seq P
    obtain ⟨k'', e, hk⟩ := workCoverStep G o R (by simp [hx]) n2 hs2 k'
    refine ⟨R'.live x (by simp [hx]), ?_, _, e, rfl, ?_⟩
    · have := R'.ring; rw [hO] at this; exact this.next
    · simp only; omega

theorem workCoverRowAll (G : L.Good) (o : t.Ok L) {q : Nat} (R : RowIn L t q)
    (hs : ∀ x ∈ q :: L.oth q, L.colOf x ∈ t.HR) (k : Nat) :
    ∃ k', workAll .right (t.h, k) q workCover = .ok ((t.covers L ((q :: L.oth q).map L.colOf)).h, k') ∧
      k' + 4 * (t.covers L ((q :: L.oth q).map L.colOf)).W ≤ k + 1 + 4 * t.W := by
  have nd := G.cols_nodup R.node
  have key := workAll_spec .right q (L.oth q) workCover
    (fun pre s => s.1 = (t.covers L (pre.map L.colOf)).h ∧ s.2 + 4 * (t.covers L (pre.map L.colOf)).W ≤ k + 4 * t.W)
    (G.nz_row R.node) (List.nodup_cons.1 (G.nd q R.node)).1 (t.h, k) ⟨rfl, Nat.le_refl _⟩ ?_
  · obtain ⟨s', e, I, J⟩ := key
    refine ⟨s'.2 + 1, by rw [e, I], by omega⟩
  · rintro pre x post ⟨s, k'⟩ hO ⟨h1, h2⟩
    simp only at h1 h2
    subst h1
    have hx : x ∈ q :: L.oth q := by rw [hO]; simp
    have n2 : ((pre ++ [x]).map L.colOf).Nodup := by
      have := nd
      rw [hO, show pre ++ x :: post = (pre ++ [x]) ++ post by simp, List.map_append] at this
      exact this.of_append_left
    have hs2 : ∀ y ∈ pre ++ [x], L.colOf y ∈ t.HR := by
      intro y hy; apply hs; rw [hO]; simp at hy ⊢; tauto
    have P := covers_spec G (pre.map L.colOf) t o
      (by rw [List.map_append] at n2; exact n2.of_append_left)
      (by intro c hc; simp only [List.mem_map] at hc; obtain ⟨y, hy, rfl⟩ := hc; exact hs2 y (by simp [hy]))
    have R' := R.seq P
    obtain ⟨k'', e, hk⟩ := workCoverStep G o R hx n2 hs2 k'
    refine ⟨R'.live x hx, ?_, _, e, rfl, ?_⟩
    · cases pre with
      | nil =>
        simp at hO; obtain ⟨rfl, hO⟩ := hO
        rw [← hO]; exact R'.ring.first
      | cons y pre =>
        simp only [List.cons_append, List.cons.injEq] at hO
        have := R'.ring; rw [hO.2] at this; exact this.next
    · simp only; omega

theorem workUncoverRow (G : L.Good) (o : t.Ok L) {q : Nat} (R : RowIn L t q)
    (hs : ∀ x ∈ L.oth q, L.colOf x ∈ t.HR) (k : Nat) :
    ∃ k', workSkip1 .left ((t.covers L ((L.oth q).map L.colOf)).h, k) q workUncover = .ok (t.h, k') ∧
      k' + 4 * (t.covers L ((L.oth q).map L.colOf)).W ≤ k + 2 + 4 * t.W := by
  have nd := G.cols_nodup R.node
  simp only [List.map_cons, List.nodup_cons] at nd
  have PP : ∀ r r', L.oth q = r ++ r' → SeqPost L t (r.map L.colOf) (t.covers L (r.map L.colOf)) := by
    intro r r' e
    apply covers_spec G _ t o
    · have := nd.2; rw [e, List.map_append] at this; exact this.of_append_left
    · intro c hc; simp only [List.mem_map] at hc; obtain ⟨y, hy, rfl⟩ := hc
      apply hs; rw [e]; simp [hy]
  have R0 := R.seq (PP (L.oth q) [] (by simp))
  have nzr : 0 ∉ q :: (L.oth q).reverse := by
    have := G.nz_row R.node; simp at this ⊢; exact this
  generalize hF : (t.covers L ((L.oth q).map L.colOf)).W = F
  have key := workSkip1_spec .left q (L.oth q).reverse workUncover
    (fun pre s => ∃ r, L.oth q = r ++ pre.reverse ∧ s.1 = (t.covers L (r.map L.colOf)).h ∧
      s.2 + 4 * F ≤ k + 1 + 4 * (t.covers L (r.map L.colOf)).W) nzr
    (by simpa using (List.nodup_cons.1 (G.nd q R.node)).1) ((t.covers L ((L.oth q).map L.colOf)).h, k)
    ⟨L.oth q, by simp, rfl, by simp only [hF]; omega⟩
    (R0.live q (by simp)) R0.ring.reverse.first ?_
  · obtain ⟨h', e, r, h1, h2, h3⟩ := key
    have : r = [] := by rw [List.reverse_reverse] at h1; simpa using h1
    subst this
    have h4 : h'.2 + 4 * F ≤ k + 1 + 4 * t.W := h3
    refine ⟨h'.2 + 1, by rw [e, h2]; rfl, by omega⟩
  · rintro pre x post ⟨s, k'⟩ hO ⟨r, hr, h1, h2⟩
    simp only at h1 h2
    subst h1
    have hO' : L.oth q = post.reverse ++ x :: pre.reverse := by
      have := congrArg List.reverse hO; simpa using this
    have hrest : r = post.reverse ++ [x] := by
      rw [hO'] at hr
      have h3 : post.reverse ++ [x] ++ pre.reverse = r ++ pre.reverse := by simpa using hr
      exact (List.append_cancel_right h3).symm
    subst hrest
    have hx : x ∈ L.oth q := by rw [hO']; simp
    have P1 := PP _ _ hr
    have P2 := PP post.reverse (x :: pre.reverse) hO'
    have R' := R.seq P1
    have hcx : L.colOf x ∈ (t.covers L (post.reverse.map L.colOf)).HR := by
      rw [P2.hr]
      refine ⟨hs x hx, fun h => ?_⟩
      have := nd.2
      rw [hO', List.map_append, List.nodup_append] at this
      exact this.2.2 _ h _ (by simp) rfl
    refine ⟨R'.live x (by simp [hx]), ?_, ((t.covers L (post.reverse.map L.colOf)).h,
      k' + 1 + colWork L ((t.covers L (post.reverse.map L.colOf)).V (L.colOf x))), ?_, post.reverse, by simp [hO'], rfl, ?_⟩
    · have := R'.ring.reverse; rw [hO] at this; exact this.next
    · rw [workUncover_eq (toHeader_cell (R'.live x (by simp [hx])) (R'.hdr x (by simp [hx]))
        (R.nz x (by simp [hx])))]
      rw [List.map_append, covers_append]
      exact workUncoverHd_spec G P2.ok hcx (k' + 1)
    · have h1 := P2.ok.W_cover G hcx
      have h3 := colWork_le (L := L) (L.colOf x) ((t.covers L (post.reverse.map L.colOf)).V (L.colOf x))
      have h4 := length_rem (L := L) (L.colOf x) ((t.covers L (post.reverse.map L.colOf)).V (L.colOf x))
      have h5 : (t.covers L ((post.reverse ++ [x]).map L.colOf)).W =
          ((t.covers L (post.reverse.map L.colOf)).cover L (L.colOf x)).W := by
        rw [List.map_append, covers_append]; rfl
      rw [h5] at h2
      simp only
      omega

theorem workFreeRows (G : L.Good) (o : t.Ok L) {c q : Nat} (hc : c ∈ t.HR) (hq : q ∈ t.V c) {s : Heap}
    (hs : ∀ p, p ≠ L.root → ¬ (t.covers L (c :: (L.oth q).map L.colOf)).Act p →
      s.mem p = (t.covers L (c :: (L.oth q).map L.colOf)).h.mem p) (k : Nat) :
    ∃ s' s'' k' k'', forSkip1 .right s q freeChain = .ok s' ∧ workSkip1 .right (s, k) q workFree = .ok (s', k') ∧
      (∀ p, p = c ∨ p = q → freeChain s' p = .ok s'' ∧ workFree (s', k') p = .ok (s'', k'')) ∧
      k'' + 4 * (t.covers L (c :: (L.oth q).map L.colOf)).W ≤ k + 2 + 4 * t.W := by
  have Rq := o.rowIn G hc hq
  have nd := G.cols_nodup Rq.node
  rw [List.map_cons, o.core.col c hc q hq] at nd
  have hcs : ∀ d ∈ c :: (L.oth q).map L.colOf, d ∈ t.HR := by
    intro d hd
    simp only [List.mem_cons, List.mem_map] at hd
    rcases hd with rfl | ⟨x, hx, rfl⟩
    · exact hc
    · exact (o.closed hc hq (by simp [hx])).1
  have P := covers_spec G _ t o nd hcs
  set t' := t.covers L (c :: (L.oth q).map L.colOf) with ht'
  have R' := Rq.seq P
  have Vc : t'.V c = t.V c := P.first c _ rfl
  have rr : ∀ d ∈ c :: (L.oth q).map L.colOf, ∀ p ∈ rem L d (t'.V d), s.mem p = t'.h.mem p := by
    intro d hd p hp
    refine hs p ?_ (P.gone d hd p hp)
    rintro rfl
    have ha : t.Act L.root := (P.act _).2 (Or.inr ⟨d, hd, hp⟩)
    rcases ha with h | ⟨c', hc', h⟩
    · exact (List.nodup_cons.1 o.core.ndH).1 h
    · exact o.core.c_ne_q (by simp) hc' h rfl
  have z : ∀ d ∈ c :: (L.oth q).map L.colOf, 0 ∉ rem L d (t'.V d) := by
    intro d hd h0
    have ha : t.Act 0 := (P.act _).2 (Or.inr ⟨d, hd, h0⟩)
    rcases ha with h | ⟨c', hc', h⟩
    · exact o.core.c_ne_zero h rfl
    · exact G.nz 0 (o.core.isN c' hc' 0 h) rfl
  have inc : ∀ x ∈ q :: L.oth q, x ∈ rem L c (t'.V c) := by
    intro x hx; rw [Vc, mem_rem]; exact Or.inr ⟨q, hq, hx⟩
  have key := workSkip1_spec .right q (L.oth q) workFree
    (fun pre s' => (∀ p, s'.1.mem p =
      if ∃ x ∈ pre, p ∈ rem L (L.colOf x) (t'.V (L.colOf x)) then .freed else s.mem p) ∧
      s'.2 ≤ k + 1 + 4 * remSum L t'.V (pre.map L.colOf)) (G.nz_row Rq.node)
    (List.nodup_cons.1 (G.nd q Rq.node)).1 (s, k) ⟨by simp, by simp⟩
    ((live_congr (rr c (by simp) q (inc q (by simp)))).2 (R'.live q (by simp)))
    (by simp only; rw [node_congr (rr c (by simp) q (inc q (by simp)))]; exact R'.ring.first) ?_
  · obtain ⟨⟨s', k'⟩, e, I2, I3⟩ := key
    simp only at I2 I3 e
    have hm : ∀ p ∈ rem L c (t'.V c), s'.mem p = t'.h.mem p := by
      intro p hp
      rw [I2 p, if_neg, rr c (by simp) p hp]
      rintro ⟨x, hx, hpx⟩
      refine P.disj c (by simp) (L.colOf x) (by simp only [List.mem_cons, List.mem_map]; exact Or.inr ⟨x, hx, rfl⟩) ?_ p
        ⟨hp, hpx⟩
      intro e'
      simp only [List.nodup_cons, List.mem_map, not_exists, not_and] at nd
      exact nd.1 x hx e'.symm
    have M : Mid L c (t'.V c) s' := (P.mid c (by simp)).congr hm
    obtain ⟨s'', e2, e3⟩ := workFreeHd_spec M (P.nodup c (by simp)) (z c (by simp)) (k' + 1)
    have et : ∀ p, p = c ∨ p = q → toHeader s' p = .ok c := by
      intro p hp
      rcases hp with rfl | rfl
      · apply toHeader_hdr M.live
        rw [node_congr (hm p (by simp [rem])), P.header]
        exact o.core.hdr0 p hc
      · have := R'.hdr p (by simp)
        rw [o.core.col c hc p hq] at this
        apply toHeader_cell _ _ (o.core.c_ne_zero hc)
        · rw [live_congr (hm p (inc p (by simp)))]; exact R'.live p (by simp)
        · rw [node_congr (hm p (inc p (by simp)))]; exact this
    refine ⟨s', s'', k' + 1, k' + 1 + colWork L (t'.V c), workSkip1_forgets workFree_forgets _ _ _ e, e, fun p hp => ⟨?_, ?_⟩, ?_⟩
    · rw [freeChain_eq (et p hp), e2]
    · rw [workFree_eq (et p hp), e3]
    · have h1 := P.W_eq o nd
      rw [remSum_cons] at h1
      have h2 := colWork_le (L := L) c (t'.V c)
      omega
  · rintro pre x post ⟨s', k'⟩ hO ⟨I2, I3⟩
    simp only at I2 I3
    have hx : x ∈ L.oth q := by rw [hO]; simp
    have nd2 : ∀ y ∈ pre, L.colOf y ≠ L.colOf x := by
      intro y hy e
      have hy' : y ∈ L.oth q := by rw [hO]; simp [hy]
      have := G.colInj q Rq.node y (by simp [hy']) x (by simp [hx]) e
      subst this
      have n3 := (List.nodup_cons.1 (G.nd q Rq.node)).2
      rw [hO, List.nodup_append] at n3
      exact n3.2.2 y hy y (by simp) rfl
    have incs : ∀ y ∈ L.oth q, L.colOf y ∈ c :: (L.oth q).map L.colOf := by
      intro y hy; simp only [List.mem_cons, List.mem_map]; exact Or.inr ⟨y, hy, rfl⟩
    have hmx : ∀ y ∈ q :: L.oth q, s'.mem y = t'.h.mem y := by
      intro y hy
      rw [I2 y, if_neg, rr c (by simp) y (inc y hy)]
      rintro ⟨w, hw, hyw⟩
      have hw' : w ∈ L.oth q := by rw [hO]; simp [hw]
      refine P.disj c (by simp) (L.colOf w) (incs w hw') ?_ y ⟨inc y hy, hyw⟩
      intro e'
      simp only [List.nodup_cons, List.mem_map, not_exists, not_and] at nd
      exact nd.1 w hw' e'.symm
    have hm : ∀ p ∈ rem L (L.colOf x) (t'.V (L.colOf x)), s'.mem p = t'.h.mem p := by
      intro p hp
      rw [I2 p, if_neg, rr _ (incs x hx) p hp]
      rintro ⟨w, hw, hyw⟩
      have hw' : w ∈ L.oth q := by rw [hO]; simp [hw]
      exact P.disj _ (incs x hx) (L.colOf w) (incs w hw') (nd2 w hw).symm p ⟨hp, hyw⟩
    have M : Mid L (L.colOf x) (t'.V (L.colOf x)) s' := (P.mid _ (incs x hx)).congr hm
    obtain ⟨s'', e2, e3⟩ := workFreeHd_spec M (P.nodup _ (incs x hx)) (z _ (incs x hx)) (k' + 1)
    obtain ⟨s3, e4, f1, f2⟩ := freeHd_spec M (P.nodup _ (incs x hx)) (z _ (incs x hx))
    obtain rfl : s'' = s3 := by rw [e2] at e4; exact Prog.ok.inj e4
    have lx : s'.Live x := (live_congr (hmx x (by simp [hx]))).2 (R'.live x (by simp [hx]))
    refine ⟨lx, ?_, (s'', k' + 1 + colWork L (t'.V (L.colOf x))), ?_, ?_, ?_⟩
    · simp only
      rw [node_congr (hmx x (by simp [hx]))]
      have := R'.ring; rw [hO] at this; exact this.next
    · rw [workFree_eq (toHeader_cell lx
        (by rw [node_congr (hmx x (by simp [hx]))]; exact R'.hdr x (by simp [hx])) (Rq.nz x (by simp [hx])))]
      exact e3
    · intro p
      rw [f2 p, I2 p]
      by_cases h1 : p ∈ rem L (L.colOf x) (t'.V (L.colOf x))
      · rw [if_pos h1, if_pos ⟨x, by simp, h1⟩]
      · rw [if_neg h1]
        congr 1
        simp only [List.mem_append, List.mem_singleton, eq_iff_iff]
        constructor
        · rintro ⟨y, hy, h⟩; exact ⟨y, Or.inl hy, h⟩
        · rintro ⟨y, hy | rfl, h⟩
          · exact ⟨y, hy, h⟩
          · exact absurd h h1
    · rw [List.map_append, remSum_append]
      simp only [List.map_cons, List.map_nil, remSum_cons]
      have h2 := colWork_le (L := L) (L.colOf x) (t'.V (L.colOf x))
      have h3 := length_rem (L := L) (L.colOf x) (t'.V (L.colOf x))
      omega

/-! ### Choosing a column -/

theorem workChoose_spec (o : t.Ok L) (hne : t.HR ≠ []) (k : Nat) :
    ∃ c, chooseColumn t.h L.root = .ok c ∧ workChoose (t.h, k) L.root = .ok (c, k + 2 + t.HR.length) ∧ c ∈ t.HR ∧
      firstShortest (t.abs L) = some ((t.V c).map L.rid) := by
  obtain ⟨c, e, hc, fs⟩ := chooseColumn_spec o hne
  refine ⟨c, e, ?_, hc, fs⟩
  unfold chooseColumn at e
  unfold workChoose
  have nd := List.nodup_cons.1 o.core.ndH
  have n0 := o.core.nzH
  simp only [List.mem_cons, not_or] at n0
  rw [iterSkip1_ok o.core.liveR (Ne.symm n0.1) nd.1 o.core.hring.first] at e ⊢
  simp only [Prog.ok_bind] at e ⊢
  have key := forIter_spec (fun t : (Heap × Option Nat) × Nat => t.1.1) .right L.root t.HR
    (fun t p => do let u ← pickMin t.1 p; return (u, t.2 + 1))
    (fun pre s => s.1.1 = t.h ∧ (∀ b, s.1.2 = some b → b ∈ t.HR) ∧ s.2 = k + 1 + pre.length) n0.2
    (fun h => nd.1 (List.mem_of_mem_tail h)) ?_ ((t.h, none), k + 1) ⟨rfl, by simp, rfl⟩
  · obtain ⟨⟨s, k'⟩, e1, I1, I2, I3⟩ := key
    simp only at I1 I2 I3
    have e2 := forIter_forget (Prod.fst : Heap × Option Nat → Heap) Prod.fst .right pickMin
      (fun t p => do let u ← pickMin t.1 p; return (u, t.2 + 1)) (by
        intro t p t' h
        rw [Prog.bind_eq_ok] at h
        obtain ⟨u, h1, h2⟩ := h
        simp only [Prog.pure_eq, Prog.ok.injEq] at h2
        rw [h1, ← h2]) _ _ _ e1
    rw [e1]
    simp only [Prog.ok_bind]
    simp only at e2
    rw [e2, Prog.ok_bind] at e
    rw [e, I3]
    simp only [Prog.ok_bind, Prog.pure_eq]
    refine congrArg Prog.ok (Prod.ext rfl ?_)
    simp only; omega
  · rintro pre x post ⟨⟨h, best⟩, k'⟩ hH ⟨h1, I, J⟩
    simp only at h1 I J; subst h1
    have hx : x ∈ t.HR := by rw [hH]; simp
    refine ⟨o.core.liveH x hx, ?_, ?_⟩
    · have := o.core.hring; rw [hH] at this; exact this.next
    · cases best with
      | none =>
        refine ⟨((t.h, some x), k' + 1), rfl, rfl, by simpa using hx, ?_⟩
        simp only [List.length_append, List.length_cons, List.length_nil]; omega
      | some b =>
        have hb := I b rfl
        by_cases hle : (t.h.node b).row ≤ (t.h.node x).row
        · refine ⟨((t.h, some b), k' + 1), by simp [pickMin, hle, read_ok (o.core.liveH b hb), read_ok (o.core.liveH x hx)],
            rfl, I, ?_⟩
          simp only [List.length_append, List.length_cons, List.length_nil]; omega
        · refine ⟨((t.h, some x), k' + 1), by simp [pickMin, hle, read_ok (o.core.liveH b hb), read_ok (o.core.liveH x hx)],
            rfl, by simpa using hx, ?_⟩
          simp only [List.length_append, List.length_cons, List.length_nil]; omega

/-! ### Drop -/

theorem length_flat_cons (W : Nat → List Nat) (l : List Nat) :
    (l.flatMap fun c => c :: W c).length = l.length + (l.flatMap W).length := by
  induction l with
  | nil => rfl
  | cons a l ih => simp only [List.flatMap_cons, List.length_append, List.length_cons] at ih ⊢; omega

theorem workDrop_spec (G : L.Good) (o : t.Ok L) (hd : (t.h.node L.root).down = L.root) (m : Matrix)
    (hm : m.root = L.root) (k : Nat) : ∃ h' k', m.drop t.h = .ok h' ∧ workDrop m (t.h, k) = .ok (h', k') ∧
      k' ≤ k + 4 * (t.W + 1) := by
  have nd := List.nodup_cons.1 o.core.ndH
  let W : Nat → List Nat := fun c => if c = L.root then [] else t.V c
  have Wr : W L.root = [] := by simp [W]
  have Wc : ∀ c ∈ t.HR, W c = t.V c := by
    intro c hc; simp only [W]; rw [if_neg]; rintro rfl; exact nd.1 hc
  have ring : ∀ c ∈ L.root :: t.HR, (∀ x ∈ c :: W c, t.h.Live x) ∧ 0 ∉ c :: W c ∧ (c :: W c).Nodup ∧
      ∀ pre x post, c :: W c = pre ++ x :: post → (t.h.node x).get .down = (post ++ [c]).head (by simp) := by
    intro c hc
    simp only [List.mem_cons] at hc
    rcases hc with rfl | hc
    · rw [Wr]
      refine ⟨by simpa using o.core.liveR, ?_, by simp, ?_⟩
      · have := o.core.nzH; simp at this ⊢; exact this.1
      · intro pre x post e
        cases pre with
        | nil => simp at e; obtain ⟨rfl, rfl⟩ := e; simpa [Node.get] using hd
        | cons y pre => simp at e
    · rw [Wc c hc]
      refine ⟨?_, o.core.nz_col G hc, o.core.vnodup hc, ?_⟩
      · intro x hx
        simp only [List.mem_cons] at hx
        rcases hx with rfl | hx
        · exact o.core.liveH _ hc
        · exact o.core.liveV _ hc _ hx
      · intro pre x post e
        cases pre with
        | nil => simp at e; obtain ⟨rfl, rfl⟩ := e; exact (o.core.vring c hc).first
        | cons y pre =>
          simp at e; obtain ⟨rfl, e⟩ := e
          have := o.core.vring c hc; rw [e] at this; exact this.next
  have disj : ∀ c ∈ L.root :: t.HR, ∀ c' ∈ L.root :: t.HR, c ≠ c' → ∀ x ∈ c :: W c, x ∉ c' :: W c' := by
    intro c hc c' hc' hne x hx hx'
    have f : ∀ d ∈ L.root :: t.HR, ∀ y ∈ d :: W d, y = d ∨ (d ∈ t.HR ∧ y ∈ t.V d) := by
      intro d hd y hy
      simp only [List.mem_cons] at hd
      rcases hd with rfl | hd
      · rw [Wr] at hy; left; simpa using hy
      · rw [Wc d hd] at hy
        simp only [List.mem_cons] at hy
        exact hy.imp_right fun h => ⟨hd, h⟩
    rcases f c hc x hx with rfl | ⟨h1, h2⟩
    · rcases f c' hc' x hx' with rfl | ⟨h3, h4⟩
      · exact hne rfl
      · exact o.core.sep x hc (o.core.isN _ h3 _ h4)
    · rcases f c' hc' x hx' with rfl | ⟨h3, h4⟩
      · exact o.core.sep x hc' (o.core.isN _ h1 _ h2)
      · exact hne ((o.core.col _ h1 _ h2).symm.trans (o.core.col _ h3 _ h4))
  have key := workAll_spec .right L.root t.HR (fun s header => workAll .down s header (still Heap.dealloc))
    (fun pre s => s = (freeSet t.h (pre.flatMap fun c => c :: W c), k + 3 * pre.length + (pre.flatMap W).length))
    o.core.nzH nd.1 (t.h, k)
    (by simp [freeSet_nil]) ?_
  · obtain ⟨s', e, I⟩ := key
    have e1 : workDrop m (t.h, k) = .ok (s'.1, s'.2 + 1) := by rw [workDrop, hm]; exact e
    refine ⟨s'.1, s'.2 + 1, workDrop_forgets m _ _ e1, e1, ?_⟩
    rw [I]
    have : ((L.root :: t.HR).flatMap W).length = (t.HR.flatMap t.V).length := by
      rw [List.flatMap_cons, Wr, List.nil_append]
      congr 1
      exact List.flatMap_congr Wc
    simp only [this, List.length_cons, TS.W, TS.items, List.length_append]
    omega
  · rintro pre c post s hH rfl
    have hc : c ∈ L.root :: t.HR := by rw [hH]; simp
    obtain ⟨r1, r2, r3, r4⟩ := ring c hc
    have hpre : ∀ x ∈ c :: W c, x ∉ pre.flatMap fun c => c :: W c := by
      intro x hx h
      simp only [List.mem_flatMap] at h
      obtain ⟨c', hc', h⟩ := h
      have hc'' : c' ∈ L.root :: t.HR := by rw [hH]; simp [hc']
      refine disj c hc c' hc'' ?_ x hx h
      rintro rfl
      have := o.core.ndH
      rw [hH, List.nodup_append] at this
      exact this.2.2 c hc' c (by simp) rfl
    have lc : (freeSet t.h (pre.flatMap fun c => c :: W c)).Live c :=
      (live_congr (freeSet_mem (hpre c (by simp)))).2 (r1 c (by simp))
    refine ⟨lc, ?_, ?_⟩
    · simp only
      rw [node_congr (freeSet_mem (hpre c (by simp)))]
      cases pre with
      | nil => simp at hH; obtain ⟨rfl, hH⟩ := hH; rw [← hH]; exact o.core.hring.first
      | cons y pre =>
        simp at hH
        have := o.core.hring; rw [hH.2] at this; exact this.next
    · generalize hn : k + 3 * pre.length + (pre.flatMap W).length = n
      have key := workAll_spec .down c (W c) (still Heap.dealloc)
        (fun pre' s => s = (freeSet (freeSet t.h (pre.flatMap fun c => c :: W c)) pre', n + 1 + pre'.length)) r2
        (List.nodup_cons.1 r3).1 (freeSet t.h (pre.flatMap fun c => c :: W c), n + 1) (by rw [freeSet_nil]; rfl) ?_
      · obtain ⟨h', e, I⟩ := key
        refine ⟨_, e, ?_⟩
        rw [I, freeSet_append]
        refine Prod.ext (by simp) ?_
        simp only [List.length_append, List.length_cons, List.length_nil, List.flatMap_append, List.flatMap_cons,
          List.flatMap_nil, List.append_nil]
        omega
      · rintro pre' x post' s hW rfl
        have hx : x ∈ c :: W c := by rw [hW]; simp
        have hxp : x ∉ pre' := by
          intro h
          rw [hW, List.nodup_append] at r3
          exact r3.2.2 x h x (by simp) rfl
        have em : (freeSet (freeSet t.h (pre.flatMap fun c => c :: W c)) pre').mem x = t.h.mem x := by
          rw [freeSet_mem hxp, freeSet_mem (hpre x hx)]
        have lx := (live_congr em).2 (r1 x hx)
        refine ⟨lx, ?_, _, still_ok (dealloc_free lx), ?_⟩
        · simp only
          rw [node_congr em]
          exact r4 pre' x post' hW
        · rw [freeSet_append]
          refine Prod.ext rfl ?_
          simp only [List.length_append, List.length_cons, List.length_nil]; omega

end DancingLinks
